import Verif.Model.AucDbl

/-!
# Online, recursive and rolling regression on one feature in double arithmetic (`src/linalg/lr_online_solvers.rs`)

One feature, no bias, finite rows.  `rd` rounds to the nearest double; overflow is not modelled.
-/

namespace Verif.OnlineDbl
open Verif.Doubles

/-- `inv` and `coefficients` of `OnlineLR` (`src/linalg/lr_online_solvers.rs:18-23`), both 1 x 1. -/
structure State where
  inv : ℝ
  w : ℝ

/-- `matmul(dst, Accum::Add, p, q, a, ..)` on 1 x 1 matrices (`src/linalg/lr_online_solvers.rs:328-335, 340-347`).
The order of the operations inside faer is not fixed by this repository: every order of the two products, with and
without a fused addition, is admitted. -/
def IsAxpy (d a p q r : ℝ) : Prop :=
  r = rd (d + rd (a * rd (p * q))) ∨ r = rd (d + a * rd (p * q)) ∨
  r = rd (d + rd (rd (a * p) * q)) ∨ r = rd (d + rd (a * p) * q) ∨
  r = rd (d + rd (rd (a * q) * p)) ∨ r = rd (d + rd (a * q) * p)

/-- The denominator in `woodbury_step` (`src/linalg/lr_online_solvers.rs:324-326`). -/
noncomputable def den (s : State) (x c : ℝ) : ℝ := rd (c + rd (x * rd (s.inv * x)))

/-- `woodbury_step` (`src/linalg/lr_online_solvers.rs:314-348`); a denominator of zero makes everything non-finite and
is not a step of this model. -/
def IsStep (s : State) (x y c : ℝ) (s' : State) : Prop :=
  den s x c ≠ 0 ∧
  IsAxpy s.inv (-rd (1 / den s x c)) (rd (s.inv * x)) (rd (s.inv * x)) s'.inv ∧
  IsAxpy s.w (rd (1 / den s x c)) (rd (s.inv * x)) (rd (y - rd (x * s.w))) s'.w

/-- A history of `update` calls (`src/linalg/lr_online_solvers.rs:68-93`): rows with `c` = 1 or -1. -/
inductive IsRun : State → List (ℝ × ℝ × ℝ) → State → Prop
  | nil (s : State) : IsRun s [] s
  | cons {s s' s'' : State} {x y c : ℝ} {rest : List (ℝ × ℝ × ℝ)} :
      IsStep s x y c s' → IsRun s' rest s'' → IsRun s ((x, y, c) :: rest) s''

/-- `faer_qr_lstsq_with_inv` (`src/linalg/lr_online_solvers.rs:128-151`) without penalty: the sums are added up in any
order.  Simplified: solving with a 1 x 1 matrix is one rounded division. -/
def IsFit (rows : List (ℝ × ℝ)) (s : State) : Prop :=
  ∃ xtx xty, AucDbl.IsDot (rows.map fun r => (r.1, r.1)) xtx ∧ AucDbl.IsDot rows xty ∧ xtx ≠ 0 ∧
    s.inv = rd (1 / xtx) ∧ s.w = rd (xty / xtx)

/-- The loop of `faer_rolling_lstsq` (`src/linalg/lr_online_solvers.rs:209-218`): the coefficients pushed. -/
inductive IsRolling : State → List (ℝ × ℝ) → List (ℝ × ℝ) → List ℝ → Prop
  | nil (s : State) (old : List (ℝ × ℝ)) : IsRolling s old [] []
  | cons {s s1 s2 : State} {o r : ℝ × ℝ} {old new : List (ℝ × ℝ)} {ws : List ℝ} :
      IsStep s o.1 o.2 (-1) s1 → IsStep s1 r.1 r.2 1 s2 → IsRolling s2 old new ws →
      IsRolling s (o :: old) (r :: new) (s2.w :: ws)

/-- `faer_rolling_lstsq` (`src/linalg/lr_online_solvers.rs:188-220`) with a window of `n` rows. -/
def IsRollingLstsq (rows : List (ℝ × ℝ)) (n : ℕ) (ws : List ℝ) : Prop :=
  ∃ s tail, IsFit (rows.take n) s ∧ IsRolling s rows (rows.drop n) tail ∧ ws = s.w :: tail

/-- The loop of `faer_recursive_lstsq` (`src/linalg/lr_online_solvers.rs:176-181`). -/
inductive IsRecursive : State → List (ℝ × ℝ) → List ℝ → Prop
  | nil (s : State) : IsRecursive s [] []
  | cons {s s' : State} {r : ℝ × ℝ} {rs : List (ℝ × ℝ)} {ws : List ℝ} :
      IsStep s r.1 r.2 1 s' → IsRecursive s' rs ws → IsRecursive s (r :: rs) (s'.w :: ws)

/-- `faer_recursive_lstsq` (`src/linalg/lr_online_solvers.rs:156-183`) starting with `n` rows. -/
def IsRecursiveLstsq (rows : List (ℝ × ℝ)) (n : ℕ) (ws : List ℝ) : Prop :=
  ∃ s tail, IsFit (rows.take n) s ∧ IsRecursive s (rows.drop n) tail ∧ ws = s.w :: tail

end Verif.OnlineDbl
