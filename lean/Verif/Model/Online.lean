import Verif.Model.LinReg
import Mathlib.Data.Matrix.Mul

/-!
# Online, recursive and rolling regression
(`src/linalg/lr_online_solvers.rs`, `src/num_ext/linear_regression.rs:864-1039`)

`none` in a row is NaN (a null becomes NaN in the matrix).  A state of `none` stands for coefficients that are all
non-finite: the division `(c + x u).recip()` by zero makes every coefficient inf or NaN and no later update makes a
non-finite coefficient finite again.
-/

namespace Verif.Online
open Matrix Verif.LinReg
variable {K : Type} [Field K] [LinearOrder K] {d : Nat}

/-- A row of the design matrix with its target; `none` is NaN. -/
abbrev XRow (d : Nat) (K : Type) := (Fin d → Option K) × Option K

/-- `has_nan(x) || has_nan(y)` (`src/linalg/lr_online_solvers.rs:13-16, 88-92`). -/
def hasNan (r : XRow d K) : Bool := (List.finRange d).any (fun i => (r.1 i).isNone) || r.2.isNone

/-- The numbers of a row without NaN. -/
def clean (r : XRow d K) : Option ((Fin d → K) × K) :=
  if hasNan r then none else some (fun i => (r.1 i).getD 0, r.2.getD 0)

/-- `inv` and `coefficients` of `OnlineLR` (`src/linalg/lr_online_solvers.rs:18-23`). -/
structure State (d : Nat) (K : Type) where
  inv : Matrix (Fin d) (Fin d) K
  w : Fin d → K

/-- `faer_qr_lstsq_with_inv` (`src/linalg/lr_online_solvers.rs:128-151`). -/
def qrLstsqWithInv (S : Solver K) (rows : List ((Fin d → K) × K)) (lam : K) (hasBias : Bool) : State d K :=
  let n1 := absDiff d hasBias.toNat
  let rs : List (Row d 1 K) := rows.map fun r => (r.1, fun _ => r.2)
  let xtx := if 0 < lam ∧ 1 ≤ n1 then addDiag (gram rs) lam n1 else gram rs
  { inv := S.qrInverse xtx, w := fun i => S.qr xtx (xty rs) i 0 }

/-- `woodbury_step` (`src/linalg/lr_online_solvers.rs:314-348`); `none` when the reciprocal is infinite. -/
def woodburyStep (s : State d K) (x : Fin d → K) (y c : K) : Option (State d K) :=
  let u := s.inv *ᵥ x
  let den := c + x ⬝ᵥ u
  if den = 0 then none
  else some { inv := s.inv - den⁻¹ • vecMulVec u u, w := s.w + (den⁻¹ * (y - x ⬝ᵥ s.w)) • u }

/-- All rows clean, or the whole fit is NaN. -/
def cleanAll : List (XRow d K) → Option (List ((Fin d → K) × K))
  | [] => some []
  | r :: rs => match clean r, cleanAll rs with
    | some a, some as => some (a :: as)
    | _, _ => none

/-- `OnlineLR::fit_unchecked` (`src/linalg/lr_online_solvers.rs:104-120`) for `has_bias = false`. -/
def fit (S : Solver K) (rows : List (XRow d K)) (lam : K) : Option (State d K) :=
  match cleanAll rows with
  | some rs => some (qrLstsqWithInv S rs lam false)
  | none => none

/-- A row followed by the constant 1 (`src/linalg/lr_online_solvers.rs:69-72, 106-107`). -/
def rowOne (r : (Fin d → K) × K) : (Fin (d + 1) → K) × K := (Fin.snoc r.1 1, r.2)

/-- `OnlineLR::fit_unchecked` (`src/linalg/lr_online_solvers.rs:104-120`) for `has_bias = true`. -/
def fitBias (S : Solver K) (rows : List (XRow d K)) (lam : K) : Option (State (d + 1) K) :=
  match cleanAll rows with
  | some rs => some (qrLstsqWithInv S (rs.map rowOne) lam true)
  | none => none

/-- `OnlineLR::update` (`src/linalg/lr_online_solvers.rs:68-93`) for `has_bias = false`. -/
def update (s : Option (State d K)) (r : XRow d K) (c : K) : Option (State d K) :=
  match clean r with
  | none => s
  | some a => s.bind fun s => woodburyStep s a.1 a.2 c

/-- `OnlineLR::update` (`src/linalg/lr_online_solvers.rs:68-93`) for `has_bias = true`. -/
def updateBias (s : Option (State (d + 1) K)) (r : XRow d K) (c : K) : Option (State (d + 1) K) :=
  match clean r with
  | none => s
  | some a => s.bind fun s => woodburyStep s (rowOne a).1 (rowOne a).2 c

/-- A history of `update` calls. -/
def runUpdates (s : Option (State d K)) : List (XRow d K × K) → Option (State d K)
  | [] => s
  | e :: es => runUpdates (update s e.1 e.2) es

/-- A history of `update` calls on a model with bias. -/
def runUpdatesBias (s : Option (State (d + 1) K)) : List (XRow d K × K) → Option (State (d + 1) K)
  | [] => s
  | e :: es => runUpdatesBias (updateBias s e.1 e.2) es

/-- Coefficients pushed by the recursive and rolling loops: a 0x0 matrix (null), non-finite numbers, or numbers. -/
inductive Coef (d : Nat) (K : Type) where
  | null
  | nan
  | val (w : Fin d → K)

/-- `online_lr.fitted_values()`. -/
def fitted (s : Option (State d K)) : Coef d K :=
  match s with
  | some s => .val s.w
  | none => .nan

/-- The loop of `faer_recursive_lstsq` (`src/linalg/lr_online_solvers.rs:176-181`). -/
def recursiveLoop (s : Option (State d K)) : List (XRow d K) → List (Coef d K)
  | [] => []
  | r :: rs =>
    let s' := update s r 1
    fitted s' :: recursiveLoop s' rs

/-- `faer_recursive_lstsq` (`src/linalg/lr_online_solvers.rs:156-183`).  `none`: `x.get(..n, ..)` panics. -/
def recursiveLstsq (S : Solver K) (rows : List (XRow d K)) (n : Nat) (lam : K) : Option (List (Coef d K)) :=
  if rows.length < n then none
  else
    let s := fit S (rows.take n) lam
    some (fitted s :: recursiveLoop s (rows.drop n))

/-- The loop of `faer_rolling_lstsq` (`src/linalg/lr_online_solvers.rs:209-218`).  `old` are the rows from
`j - n`, `new` the rows from `j`. -/
def rollingLoop (s : Option (State d K)) : List (XRow d K) → List (XRow d K) → List (Coef d K)
  | o :: old, r :: new =>
    let s' := update (update s o (-1)) r 1
    fitted s' :: rollingLoop s' old new
  | _, _ => []

/-- `faer_rolling_lstsq` (`src/linalg/lr_online_solvers.rs:188-220`). -/
def rollingLstsq (S : Solver K) (rows : List (XRow d K)) (n : Nat) (lam : K) : Option (List (Coef d K)) :=
  if rows.length < n then none
  else
    let s := fit S (rows.take n) lam
    some (fitted s :: rollingLoop s rows (rows.drop n))

/-- The second loop of `faer_rolling_skipping_lstsq` (`src/linalg/lr_online_solvers.rs:281-306`); `cnt` is
`non_null_cnt_in_window`. -/
def skippingLoop (m : Nat) (s : Option (State d K)) (cnt : Nat) : List (XRow d K) → List (XRow d K) → List (Coef d K)
  | o :: old, r :: new =>
    let cnt1 := if hasNan o then cnt else cnt - 1
    let s1 := update s o (-1)
    let cnt2 := if hasNan r then cnt1 else cnt1 + 1
    let s2 := update s1 r 1
    (if m ≤ cnt2 then fitted s2 else .null) :: skippingLoop m s2 cnt2 old new
  | _, _ => []

/-- The first loop of `faer_rolling_skipping_lstsq` (`src/linalg/lr_online_solvers.rs:248-279`) from row `left` on:
push null until a window holds `m` rows without NaN, then fit and continue with the second loop. -/
def skippingInit (S : Solver K) (n m : Nat) (lam : K) : List (XRow d K) → List (Coef d K)
  | [] => []
  | r :: rs =>
    if (r :: rs).length < n then []
    else
      let valid := ((r :: rs).take n).filterMap clean
      if m ≤ valid.length then
        let s := some (qrLstsqWithInv S valid lam false)
        fitted s :: skippingLoop m s valid.length (r :: rs) ((r :: rs).drop n)
      else .null :: skippingInit S n m lam rs

/-- `faer_rolling_skipping_lstsq` (`src/linalg/lr_online_solvers.rs:226-308`) for a window size of at least one;
with `xn < n - 1` the `Vec::with_capacity(xn - n + 1)` wraps to an allocation that panics, with `xn = n - 1` the
result is empty. -/
def skippingLstsq (S : Solver K) (rows : List (XRow d K)) (n m : Nat) (lam : K) : Option (List (Coef d K)) :=
  if rows.length + 1 < n then none else some (skippingInit S n m lam rows)

/-- One output row of the expressions: null, or coefficients and prediction (each possibly NaN). -/
inductive Out (d : Nat) (K : Type) where
  | null
  | nan
  | row (w : Fin d → K) (pred : Option K)

/-- `row * coefficients` (`src/num_ext/linear_regression.rs:913-914, 932-933, 1009-1010, 1020-1021`). -/
def emit (r : XRow d K) : Coef d K → Out d K
  | .null => .null
  | .nan => .nan
  | .val w => .row w (if (List.finRange d).any (fun i => (r.1 i).isNone) then none
      else some ((fun i => (r.1 i).getD 0) ⬝ᵥ w))

/-- The search for the first index with `n` kept rows (`src/num_ext/linear_regression.rs:898-907`). -/
def firstIdx (n : Nat) : List Bool → Nat → Nat
  | [], _ => 0
  | v :: vs, cnt => if n ≤ cnt + v.toNat then 0 else 1 + firstIdx n vs (cnt + v.toNat)

/-- The loop over the mask (`src/num_ext/linear_regression.rs:912-926`): coefficient `i` with matrix row `i`.
`none`: index out of range. -/
def maskLoop : List Bool → List (Coef d K) → List (XRow d K) → Option (List (Out d K))
  | [], _, _ => some []
  | false :: ms, cs, rs => (maskLoop ms cs rs).map (.null :: ·)
  | true :: ms, c :: cs, r :: rs => (maskLoop ms cs rs).map (emit r c :: ·)
  | true :: _, _, _ => none

/-- `pl_recursive_lstsq` (`src/num_ext/linear_regression.rs:867-955`) given the matrix and mask of
`series_to_mat_for_lstsq`. -/
def recursiveExpr (S : Solver K) (mat : List (XRow d K)) (mask : List Bool) (n : Nat) (lam : K) :
    Option (List (Out d K)) :=
  match recursiveLstsq S mat n lam with
  | none => none
  | some coeffs =>
    if mask.any (fun b => !b) then
      let m := firstIdx n mask 0
      (maskLoop (mask.drop m) coeffs mat).map (List.replicate m .null ++ ·)
    else
      let m := absDiff n 1
      some (List.replicate m .null ++ List.zipWith emit (mat.drop m) coeffs)

/-- `pl_rolling_lstsq` (`src/num_ext/linear_regression.rs:957-1039`) given the matrix; `shouldSkip` is true for
the skip and fill policies when the mask has a false entry. -/
def rollingExpr (S : Solver K) (mat : List (XRow d K)) (shouldSkip : Bool) (n minSize : Nat) (lam : K) :
    Option (List (Out d K)) :=
  let coeffs := if shouldSkip then skippingLstsq S mat n minSize lam else rollingLstsq S mat n lam
  coeffs.map fun cs => List.replicate (n - 1) .null ++ List.zipWith emit (mat.drop (n - 1)) cs

end Verif.Online
