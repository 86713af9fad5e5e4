import Mathlib.Analysis.SpecialFunctions.Gamma.Basic
import Mathlib.Analysis.SpecialFunctions.Log.Basic
import Mathlib.Analysis.SpecialFunctions.Pow.Real
import Mathlib.Data.Int.Log
import Verif.Lemmas.Arith
import Verif.Model.Confusion
import Verif.Model.Entropy

/-!
# The digamma function and the nearest neighbor entropy

`src/stats_utils/gamma.rs` and `src/num_ext/entrophies.rs`, over the reals: the literals stand for the decimal numbers
written in the source, `ln`, `tan`, `powf` and the standard library's `gamma` for the real functions.
-/

namespace Verif.Digamma
open Verif Verif.Confusion

/-- `d1` (`src/stats_utils/gamma.rs:237`). -/
def d1 : ℚ := -0.57721566490153286

/-- `d2` (`src/stats_utils/gamma.rs:238`). -/
def d2 : ℚ := 1.6449340668482264365

/-- The bit pattern of a positive double as an integer (external crate `approx`, used in
`src/stats_utils/gamma.rs:249`): biased exponent and mantissa side by side. Numbers that are not doubles are rounded
down; the exponent of subnormal numbers is clamped. -/
noncomputable def bits (y : ℝ) : ℤ :=
  let e : ℤ := max (Int.log 2 y) (-1022)
  (e + 1022) * 2 ^ 52 + ⌊y / (2 : ℝ) ^ (e - 52)⌋

/-- `ulps_eq!(x.floor(), x)` (external crate `approx` with its default tolerances, used in
`src/stats_utils/gamma.rs:249`): equal within the machine epsilon or, the signs being equal, within four units in the last
place. It is only evaluated for `x ≤ 0`. -/
def atInteger (x : ℝ) : Prop :=
  |(⌊x⌋ : ℝ) - x| ≤ (2⁻¹ : ℝ) ^ 52 ∨ (x < 0 ∧ |bits (-⌊x⌋) - bits (-x)| ≤ 4)

/-- The correction in powers of `r = 1 / z²` (`src/stats_utils/gamma.rs:240-244,271`). -/
noncomputable def correction (r : ℝ) : ℝ :=
  r * (1 / 12 - r * (1 / 120 - r * (1 / 252 - r * (1 / 240 - r * (1 / 132)))))

/-- What is added once `z` has reached 12 (`src/stats_utils/gamma.rs:266-272`). -/
noncomputable def tailPart (z : ℝ) : ℝ := Real.log z - 1 / 2 * (1 / z) - correction (1 / z * (1 / z))

/-- `while z < c` (`src/stats_utils/gamma.rs:259-273`), with the state `(result, z)`. -/
noncomputable def climb (result z : ℝ) : ℝ :=
  if z < 12 then climb (result - 1 / z) (z + 1) else result + tailPart z
termination_by ⌈12 - z⌉.toNat
decreasing_by
  have h1 : 0 < ⌈12 - z⌉ := Int.ceil_pos.2 (by linarith)
  have h2 : ⌈12 - (z + 1)⌉ = ⌈12 - z⌉ - 1 := by rw [← Int.ceil_sub_one]; congr 1; ring
  omega

open Classical in
/-- `digamma` from its second test on, for a number that is not negative (`src/stats_utils/gamma.rs:249-273`). -/
noncomputable def digammaNonneg (x : ℝ) : Val ℝ :=
  if x ≤ 0 ∧ atInteger x then .inf false
  else if x ≤ 1 / 10 ^ 6 then .num (d1 - 1 / x + d2 * x)
  else .num (climb 0 x)

/-- Adding a number (`src/stats_utils/gamma.rs:253`). -/
noncomputable def plus (v : Val ℝ) (y : ℝ) : Val ℝ :=
  match v with
  | .num a => .num (a + y)
  | w => w

open Classical in
/-- `digamma` (`src/stats_utils/gamma.rs:235-274`). The recursive call is for `1 - x > 0`, which does not reach that line
again. -/
noncomputable def digamma : Val ℝ → Val ℝ
  | .nan => .nan
  | .inf false => .nan
  | .inf true => .inf true
  | .num x =>
    if x ≤ 0 ∧ atInteger x then .inf false
    else if x < 0 then plus (digammaNonneg (1 - x)) (Real.pi / Real.tan (-Real.pi * x))
    else digammaNonneg x

/-- `v - w` where a double has to stay a number (`src/num_ext/entrophies.rs:237`); infinities do not arise for the
positive arguments there. -/
noncomputable def minus (v w : Val ℝ) : Val ℝ :=
  match v, w with
  | .num a, .num b => .num (a - b)
  | _, _ => .nan

/-- Metric of `pl_knn_entropy` with its constant (`src/num_ext/entrophies.rs:239-256`); `none` is the `ComputeError`. -/
noncomputable def metricOf (metric : String) (d : Nat) : Option (KDT.Dist ℝ × ℝ) :=
  if metric = "l2" then
    some (.l2, Real.pi ^ ((d : ℝ) / 2) / (2 : ℝ) ^ (d : ℝ) / Real.Gamma (1 + (d : ℝ) / 2))
  else if metric = "inf" then some (.linf, 1)
  else none

/-- `_knn_entropy_helper` (`src/num_ext/entrophies.rs:200-211`): the sum of `ln(2 r)`; the logarithm of zero is minus
infinity, which stays. -/
noncomputable def logSum (ds : List ℝ) : Val ℝ :=
  if 0 ∈ ds then .inf false else .num (ds.foldl (fun acc r => acc + Real.log (2 * r)) 0)

/-- `query_knn_entropy` and `pl_knn_entropy` on finite rows of width `dim` (`python/polars_ds/exprs/ts_features.py:662-665`,
`src/num_ext/entrophies.rs:223-259`). `none` stands for a `ValueError`, a `ComputeError` or a panic of the tree. -/
noncomputable def knnEntropy (us : USort) (metric : String) (dim : Nat) (rows : List (List ℝ)) (k : Nat) : Option (Val ℝ) :=
  if k = 0 then none
  else if metric ≠ "l2" ∧ metric ≠ "inf" then none
  else if rows.length ≤ k then some .nan
  else
    match metricOf metric dim with
    | none => none
    | some (dist, cd) =>
      (Entropy.kthDistances us dist rows k).map fun ds =>
        match minus (digamma (.num rows.length)) (digamma (.num k)), logSum ds with
        | .num g1, .num logd => .num (g1 + Real.log cd + logd * dim / rows.length)
        | .num _, .inf b => .inf b
        | _, _ => .nan

end Verif.Digamma
