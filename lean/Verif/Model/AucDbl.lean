import Verif.Model.Doubles
import Verif.Model.Roc

/-!
# ROC AUC, average precision and trapezoid integration in double arithmetic (`src/num_ext/tp_fp.rs`, `src/num_ext/trapz.rs`)

The order in which `cfavml::dot` adds its products depends on the registers of the machine, and so does the use of fused
multiply-add.  The model keeps every order: `IsDot l v` says that `v` is the result of one of them.
-/

namespace Verif.AucDbl
open Verif Verif.Doubles Verif.Roc

/-- The possible results of `cfavml::dot` (external), called at `src/num_ext/trapz.rs:17`, on the list of pairs: products and
sums are rounded, in any order and any bracketing, with or without fused multiply-add, with accumulators that start at 0. -/
inductive IsDot : List (ℝ × ℝ) → ℝ → Prop
  | nil : IsDot [] 0
  | term (a b : ℝ) : IsDot [(a, b)] (rd (a * b))
  | add {l₁ l₂ : List (ℝ × ℝ)} {v₁ v₂ : ℝ} : IsDot l₁ v₁ → IsDot l₂ v₂ → IsDot (l₁ ++ l₂) (rd (v₁ + v₂))
  | fma {l : List (ℝ × ℝ)} {v : ℝ} (a b : ℝ) : IsDot l v → IsDot ((a, b) :: l) (rd (a * b + v))
  | perm {l₁ l₂ : List (ℝ × ℝ)} {v : ℝ} : l₁.Perm l₂ → IsDot l₁ v → IsDot l₂ v

/-- The possible results of `trapz` (`src/num_ext/trapz.rs:7-19`). -/
def IsTrapz (y x : List ℝ) (v : ℝ) : Prop :=
  match y, x with
  | [y0], [x0] => v = rd (rd (y0 * x0) * -(1 / 2))
  | _, _ => ∃ d, IsDot ((List.zipWith (fun a b => rd (a + b)) y.tail y).zip (List.zipWith (fun a b => rd (a - b)) x.tail x)) d ∧
      v = rd (1 / 2 * d)

/-- `tp_fp_frame(.., as_ratio = true)` after its checks (`src/num_ext/tp_fp.rs:44-88`): the counts are those of the exact model, the
ratios are quotients of doubles.  A zero `fp.first()` gives NaN and is handled by the callers of the model. -/
noncomputable def frame (rows : List (ℝ × ℕ)) (positive : ℕ) : List (FrameRow ℝ) :=
  let g := groups rows
  let pp := predictedPositive rows.length g
  let tp := tpCol positive g
  let fp := List.zipWith (· - ·) pp tp
  let tp0 := (tp.head?.getD 0 : ℕ)
  let fp0 := (fp.head?.getD 0 : ℕ)
  List.zipWith (fun (t : ℝ) (r : ℕ × ℕ × ℕ) => ⟨t, quot r.1 tp0, quot r.2.1 fp0, quot r.1 r.2.2⟩)
    (g.map (·.threshold)) (tp.zip (fp.zip pp))

/-- The possible results of `pl_roc_auc` (`src/num_ext/tp_fp.rs:216-242`), in doubles. -/
def IsRocAuc (pred : List (Option ℝ)) (actual : List (Option ℕ)) (r : Res ℝ) : Prop :=
  let positive := (actual.filterMap id).sum
  if positive = 0 then r = .nan
  else match checked pred actual with
    | none => r = .err
    | some rows =>
      if positive = rows.length then r = .nan
      else ∃ v, IsTrapz ((frame rows positive).map (·.tpr)) ((frame rows positive).map (·.fpr)) v ∧ r = .val (-v)

/-- The fold of the average precision (`src/num_ext/tp_fp.rs:133-137`): a rounded difference and a fused multiply-add. -/
noncomputable def avgPrecision (f : List (FrameRow ℝ)) : ℝ :=
  rd (-1 * (((f.map (·.tpr)).zip (f.map (·.tpr)).tail).zip (f.map (·.precision))).foldl
    (fun acc p => rd (rd (p.1.2 - p.1.1) * p.2 + acc)) 0)

/-- `pl_combo_b` (`src/num_ext/tp_fp.rs:91-154`) in doubles; the AUC is as in `pl_roc_auc`. -/
noncomputable def comboB (pred : List (Option ℝ)) (actual : List (Option ℕ)) (threshold : ℝ) : Res (Combo ℝ) :=
  let positive := (actual.filterMap id).sum
  if positive = 0 then .nan
  else match checked pred actual with
    | none => .err
    | some rows =>
      let f := frame rows positive
      match f[searchIndex f threshold]? with
      | none => .panic
      | some r => .val ⟨r.precision, r.tpr,
          if rd (r.precision + r.tpr) = 0 then none
          else some (rd (rd (2 * rd (r.precision * r.tpr)) / rd (r.precision + r.tpr))),
          avgPrecision f⟩

/-- `trapz_dx` (`src/num_ext/trapz.rs:21-25`); called with at least two values.  `sum` of Rust's iterators adds from left to
right. -/
noncomputable def trapzDx (y : List ℝ) (dx : ℝ) : ℝ :=
  let s := y.tail.dropLast.foldl (fun a b => rd (a + b)) 0
  let ss := rd (1 / 2 * rd (y.head?.getD 0 + y.getLast?.getD 0))
  rd (dx * rd (s + ss))

/-- The possible results of `pl_trapz` (`src/num_ext/trapz.rs:27-49`), in doubles. -/
def IsPlTrapz (y x : List (Option ℝ)) (r : Trapz.Res ℝ) : Prop :=
  if y.length < 1 then r = .nan
  else
    match y.mapM id, x.mapM id with
    | some y, some x =>
      match x with
      | [dx] => if 1 < y.length then r = .val (trapzDx y dx) else ∃ v, IsTrapz y x v ∧ r = .val v
      | _ =>
        if x.length = y.length then ∃ v, IsTrapz y x v ∧ r = .val v
        else r = .err "Input must have the same length or x must be a scalar."
    | _, _ => r = .nan

end Verif.AucDbl
