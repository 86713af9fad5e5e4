import Verif.Lemmas.IeeeDist
import Verif.Model.AucDbl

/-!
# The KD-tree from 16 columns on, in double arithmetic

From 16 columns on `DIST::new_from_str_informed` (`src/utils/mod.rs:277-305`) takes `cfavml::squared_euclidean` for the rows, but the
distance to a box (`src/arkadia/kdt.rs:14-73`) stays a plain loop.  The two add in different orders, so they round
differently.  The tree and its queries are those of `Verif.Model.KDTree`; only the numbers are new.
-/

namespace Verif.SimdTree
open Verif Verif.KDT Verif.Ieee FloatOps
open Verif.FloatBits (f64)
open Verif.Doubles (rd)

/-- The doubles, for a given squared distance of rows `κ` (`src/utils/mod.rs:323, 331`). -/
def Dbl (_ : List (Flt f64) → List (Flt f64) → Flt f64) : Type := Flt f64

variable {κ : List (Flt f64) → List (Flt f64) → Flt f64}

noncomputable instance : LinearOrder (Dbl κ) := inferInstanceAs (LinearOrder (Flt f64))
noncomputable instance : Zero (Dbl κ) := inferInstanceAs (Zero (Flt f64))
noncomputable instance : Add (Dbl κ) := inferInstanceAs (Add (Flt f64))
noncomputable instance : Sub (Dbl κ) := inferInstanceAs (Sub (Flt f64))
noncomputable instance : Mul (Dbl κ) := inferInstanceAs (Mul (Flt f64))

/-- The operations of the doubles with the squared distance `κ` (`src/arkadia/kdt.rs:8`, `src/utils/mod.rs:308-341`). -/
noncomputable instance : FloatOps (Dbl κ) where
  fabs x := (fabs (show Flt f64 from x) : Flt f64)
  fsqrt x := (fsqrt (show Flt f64 from x) : Flt f64)
  half x := (half (show Flt f64 from x) : Flt f64)
  minVal := (minVal : Flt f64)
  maxVal := (maxVal : Flt f64)
  eps := (eps : Flt f64)
  simdSq := κ

/-- The number of a double. -/
noncomputable def Dbl.val (x : Dbl κ) : ℝ := Rounding.Num.val (ρ := ieee f64) x

/-- The contract of `cfavml::squared_euclidean` (external, called at `src/utils/mod.rs:323, 331`): the sum of the squares of the
rounded differences, added in some order and bracketing, with or without fused multiply-add. -/
def IsKernel (κ : List (Flt f64) → List (Flt f64) → Flt f64) : Prop :=
  ∀ a b, AucDbl.IsDot ((a.zip b).map fun p => (rd (p.1.val - p.2.val), rd (p.1.val - p.2.val))) (κ a b).val

/-- A kernel with four registers side by side, as on a machine with 256-bit vectors (external, called at
`src/utils/mod.rs:323, 331`): the squares at the places 0, 4, 8, … are added up, those at 1, 5, 9, … and so on, then the four
sums.  The order of the real kernel depends on the machine. -/
noncomputable def lanes (a b : List (Flt f64)) : Flt f64 :=
  let t := ((a.zip b).map fun p => (p.1 - p.2) * (p.1 - p.2)).zipIdx
  let lane (j : ℕ) : Flt f64 := ((t.filter fun p => p.2 % 4 = j).map (·.1)).foldl (· + ·) 0
  (lane 0 + lane 1) + (lane 2 + lane 3)

end Verif.SimdTree
