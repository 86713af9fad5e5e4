import Mathlib.Order.Defs.LinearOrder
import Mathlib.Order.Lattice

/-!
# Arithmetic used by the spatial code

The Rust code is generic in `T: Float`.  `FloatOps` collects the operations the tree code uses, and
`LawfulFloat` the laws the proofs need.  The laws hold for exact arithmetic (`Verif.Lemmas.Arith`,
instances for `ℝ` and `ℚ`) and for every arithmetic that rounds the exact result monotonically
(`Verif.Lemmas.Arith`); associativity and distributivity are not assumed.
NaN and infinities are not elements of `K`.
-/

namespace Verif

/-- Operations of `num::Float` used by the tree code (`src/arkadia/kdt.rs:8`, `use num::Float`), beyond
`+ - *`, comparison, and `zero`.
`half x` is `x / (T::one() + T::one())` (`kdt.rs:703-706`); `minVal`, `maxVal`, `eps` are
`T::min_value()`, `T::max_value()`, `T::epsilon()`.
`simdSq` is `cfavml::squared_euclidean` (external crate, `src/utils/mod.rs:326,334`). -/
class FloatOps (K : Type) [LinearOrder K] [Zero K] [Add K] [Sub K] [Mul K] where
  fabs : K → K
  fsqrt : K → K
  half : K → K
  minVal : K
  maxVal : K
  eps : K
  simdSq : List K → List K → K

/-- Laws of the operations, true of exact arithmetic and of monotone rounding. -/
class LawfulFloat (K : Type) [LinearOrder K] [Zero K] [Add K] [Sub K] [Mul K] extends FloatOps K where
  abs_sub_comm : ∀ a b : K, fabs (a - b) = fabs (b - a)
  abs_sub_mono : ∀ x b p : K, x ≤ b → b ≤ p → fabs (p - b) ≤ fabs (p - x)
  abs_sub_mono' : ∀ x b p : K, p ≤ b → b ≤ x → fabs (p - b) ≤ fabs (p - x)
  abs_nonneg : ∀ a : K, 0 ≤ fabs a
  mul_self_mono : ∀ a b : K, fabs a ≤ fabs b → a * a ≤ b * b
  mul_self_nonneg : ∀ a : K, 0 ≤ a * a
  add_le_add : ∀ a b c d : K, a ≤ b → c ≤ d → a + c ≤ b + d
  le_add : ∀ a t : K, 0 ≤ t → a ≤ a + t
  add_zero' : ∀ a : K, a + 0 = a
  sqrt_mono : ∀ a b : K, a ≤ b → fsqrt a ≤ fsqrt b
  sqrt_nonneg : ∀ a : K, 0 ≤ a → 0 ≤ fsqrt a
  minVal_le : minVal ≤ 0
  eps_nonneg : 0 ≤ eps
  /-- Assumed contract of the external SIMD kernel: the sum of squared differences.
  (Lane order changes rounding, which this law ignores.) -/
  simd_eq : ∀ a b : List K,
    simdSq a b = (a.zip b).foldl (fun acc p => acc + (p.1 - p.2) * (p.1 - p.2)) 0

/-- `sort_unstable_by*` (Rust std): some function returning a permutation that is sorted whenever the
comparison is total and transitive.  Which permutation is left open; theorems quantify over it.
Used at `src/arkadia/kdt.rs:246,708,714` and `src/arkadia/mod.rs:147`. -/
structure USort where
  run : {α : Type} → (α → α → Bool) → List α → List α
  perm : ∀ {α : Type} (le : α → α → Bool) (l : List α), (run le l).Perm l
  sorted : ∀ {α : Type} (le : α → α → Bool), (∀ a b c, le a b → le b c → le a c) →
    (∀ a b, le a b || le b a) → ∀ l : List α, (run le l).Pairwise (fun a b => le a b = true)

/-- `slice::partition_point` (Rust std) on a slice partitioned by `p`: the number of leading elements
satisfying `p`.  Used at `src/arkadia/kdt.rs:247,291,709,776`. -/
def partitionPoint {α : Type} (p : α → Bool) (l : List α) : Nat := (l.takeWhile p).length

end Verif
