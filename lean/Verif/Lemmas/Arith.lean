import Verif.Model.Arith
import Mathlib.Analysis.Real.Sqrt
import Mathlib.Algebra.Order.Floor.Semiring
import Mathlib.Data.Rat.Floor
import Mathlib.Data.Nat.Sqrt
import Mathlib.Data.List.Sort
import Mathlib.Tactic.Linarith
import Mathlib.Tactic.Positivity
import Mathlib.Algebra.Order.Group.Abs
import Mathlib.Algebra.Order.Ring.Abs

/-!
# Instances of the arithmetic: `ℝ`, `ℚ` (executable), and monotone rounding of any ordered field
-/

namespace Verif
open FloatOps

/-- Exact real arithmetic. The values of `minVal`, `maxVal`, `eps` are arbitrary but for their sign. -/
noncomputable instance : LawfulFloat ℝ where
  fabs x := |x|
  fsqrt := Real.sqrt
  half x := x / 2
  minVal := -2 ^ 1024
  maxVal := 2 ^ 1024
  eps := 2⁻¹ ^ 52
  simdSq a b := (a.zip b).foldl (fun acc p => acc + (p.1 - p.2) * (p.1 - p.2)) 0
  abs_sub_comm := abs_sub_comm
  abs_sub_mono x b p h1 h2 := by
    rw [abs_of_nonneg (sub_nonneg.2 h2), abs_of_nonneg (sub_nonneg.2 (h1.trans h2))]; linarith
  abs_sub_mono' x b p h1 h2 := by
    rw [abs_of_nonpos (sub_nonpos.2 h1), abs_of_nonpos (sub_nonpos.2 (h1.trans h2))]; linarith
  abs_nonneg := abs_nonneg
  mul_self_mono a b h := by
    have := (mul_self_le_mul_self_iff (abs_nonneg a) (abs_nonneg b)).1 h
    rwa [abs_mul_abs_self, abs_mul_abs_self] at this
  mul_self_nonneg := mul_self_nonneg
  add_le_add a b c d h1 h2 := add_le_add h1 h2
  le_add a t h := le_add_of_nonneg_right h
  add_zero' := add_zero
  sqrt_mono a b h := Real.sqrt_le_sqrt h
  sqrt_nonneg a _ := Real.sqrt_nonneg a
  minVal_le := by norm_num
  eps_nonneg := by norm_num
  simd_eq a b := rfl

/-- A square root rounded down to a multiple of `2⁻¹⁰`: monotone and executable. -/
def ratSqrt (x : ℚ) : ℚ := (Nat.sqrt ⌊x * 4 ^ 10⌋₊ : ℚ) / 2 ^ 10

/-- Exact rational arithmetic (executable); only the square root is rounded. -/
instance : LawfulFloat ℚ where
  fabs x := |x|
  fsqrt := ratSqrt
  half x := x / 2
  minVal := -1000000000
  maxVal := 1000000000
  eps := 1 / 1000000000
  simdSq a b := (a.zip b).foldl (fun acc p => acc + (p.1 - p.2) * (p.1 - p.2)) 0
  abs_sub_comm := abs_sub_comm
  abs_sub_mono x b p h1 h2 := by
    rw [abs_of_nonneg (sub_nonneg.2 h2), abs_of_nonneg (sub_nonneg.2 (h1.trans h2))]; linarith
  abs_sub_mono' x b p h1 h2 := by
    rw [abs_of_nonpos (sub_nonpos.2 h1), abs_of_nonpos (sub_nonpos.2 (h1.trans h2))]; linarith
  abs_nonneg := abs_nonneg
  mul_self_mono a b h := by
    have := (mul_self_le_mul_self_iff (abs_nonneg a) (abs_nonneg b)).1 h
    rwa [abs_mul_abs_self, abs_mul_abs_self] at this
  mul_self_nonneg := mul_self_nonneg
  add_le_add a b c d h1 h2 := add_le_add h1 h2
  le_add a t h := le_add_of_nonneg_right h
  add_zero' := add_zero
  sqrt_mono a b h := by
    unfold ratSqrt
    have : Nat.sqrt ⌊a * 4 ^ 10⌋₊ ≤ Nat.sqrt ⌊b * 4 ^ 10⌋₊ :=
      Nat.sqrt_le_sqrt (Nat.floor_mono (by linarith))
    have h2 : (Nat.sqrt ⌊a * 4 ^ 10⌋₊ : ℚ) ≤ Nat.sqrt ⌊b * 4 ^ 10⌋₊ := by exact_mod_cast this
    exact div_le_div_of_nonneg_right h2 (by norm_num)
  sqrt_nonneg a _ := by unfold ratSqrt; positivity
  minVal_le := by norm_num
  eps_nonneg := by norm_num
  simd_eq a b := rfl

/-- A monotone, odd rounding onto a set of representable numbers (the fixed points of `fl`), with a
monotone square root and the constants of the format.  IEEE round-to-nearest without overflow is one. -/
structure Rounding (F : Type) [Field F] [LinearOrder F] where
  fl : F → F
  idem : ∀ x, fl (fl x) = fl x
  mono : ∀ x y, x ≤ y → fl x ≤ fl y
  odd : ∀ x, fl (-x) = -fl x
  sqrt : F → F
  sqrt_mono : ∀ x y, x ≤ y → sqrt x ≤ sqrt y
  sqrt_nonneg : ∀ x, 0 ≤ x → 0 ≤ sqrt x
  big : F
  big_nonneg : 0 ≤ big
  eps : F
  eps_nonneg : 0 ≤ eps

namespace Rounding
variable {F : Type} [Field F] [LinearOrder F] [IsStrictOrderedRing F] (ρ : Rounding F)

/-- The representable numbers. -/
@[ext] structure Num where
  val : F
  rep : ρ.fl val = val

instance : LinearOrder ρ.Num := LinearOrder.lift' Num.val (fun _ _ h => Num.ext h)

omit [IsStrictOrderedRing F] in
theorem Num.le_def {a b : ρ.Num} : a ≤ b ↔ a.val ≤ b.val := Iff.rfl

/-- Round an exact number. -/
def round (x : F) : ρ.Num := ⟨ρ.fl x, ρ.idem x⟩

theorem fl_zero : ρ.fl 0 = 0 := by
  have h := ρ.odd 0
  rw [neg_zero] at h
  linarith

instance : Zero ρ.Num := ⟨⟨0, ρ.fl_zero⟩⟩
instance : Add ρ.Num := ⟨fun a b => ρ.round (a.val + b.val)⟩
instance : Sub ρ.Num := ⟨fun a b => ρ.round (a.val - b.val)⟩
instance : Mul ρ.Num := ⟨fun a b => ρ.round (a.val * b.val)⟩

theorem fl_abs {x : F} (h : ρ.fl x = x) : ρ.fl |x| = |x| := by
  rcases abs_choice x with e | e <;> rw [e]
  · exact h
  · rw [ρ.odd, h]

theorem fl_nonneg {x : F} (h : 0 ≤ x) : 0 ≤ ρ.fl x := by
  have := ρ.mono _ _ h; rwa [ρ.fl_zero] at this

/-- Rounded arithmetic satisfies the laws. -/
instance : LawfulFloat ρ.Num where
  fabs x := ⟨|x.val|, ρ.fl_abs x.rep⟩
  fsqrt x := ρ.round (ρ.sqrt x.val)
  half x := ρ.round (x.val / 2)
  minVal := ρ.round (-ρ.big)
  maxVal := ρ.round ρ.big
  eps := ρ.round ρ.eps
  simdSq a b := (a.zip b).foldl (fun acc p => acc + (p.1 - p.2) * (p.1 - p.2)) 0
  abs_sub_comm a b := by
    apply Num.ext
    change |ρ.fl (a.val - b.val)| = |ρ.fl (b.val - a.val)|
    rw [← neg_sub b.val a.val, ρ.odd, abs_neg]
  abs_sub_mono x b p h1 h2 := by
    rw [Num.le_def] at h1 h2 ⊢
    change |ρ.fl (p.val - b.val)| ≤ |ρ.fl (p.val - x.val)|
    rw [abs_of_nonneg (ρ.fl_nonneg (sub_nonneg.2 h2)),
      abs_of_nonneg (ρ.fl_nonneg (sub_nonneg.2 (h1.trans h2)))]
    exact ρ.mono _ _ (by linarith)
  abs_sub_mono' x b p h1 h2 := by
    rw [Num.le_def] at h1 h2 ⊢
    change |ρ.fl (p.val - b.val)| ≤ |ρ.fl (p.val - x.val)|
    rw [← abs_neg, ← ρ.odd, ← abs_neg (ρ.fl (p.val - x.val)), ← ρ.odd, neg_sub, neg_sub,
      abs_of_nonneg (ρ.fl_nonneg (sub_nonneg.2 h1)),
      abs_of_nonneg (ρ.fl_nonneg (sub_nonneg.2 (h1.trans h2)))]
    exact ρ.mono _ _ (by linarith)
  abs_nonneg a := by rw [Num.le_def]; exact abs_nonneg a.val
  mul_self_mono a b h := by
    rw [Num.le_def] at h ⊢
    change ρ.fl (a.val * a.val) ≤ ρ.fl (b.val * b.val)
    apply ρ.mono
    have := (mul_self_le_mul_self_iff (abs_nonneg a.val) (abs_nonneg b.val)).1 h
    rwa [abs_mul_abs_self, abs_mul_abs_self] at this
  mul_self_nonneg a := by rw [Num.le_def]; exact ρ.fl_nonneg (mul_self_nonneg a.val)
  add_le_add a b c d h1 h2 := by
    rw [Num.le_def] at h1 h2 ⊢
    exact ρ.mono _ _ (add_le_add h1 h2)
  le_add a t h := by
    rw [Num.le_def] at h ⊢
    have := ρ.mono _ _ (le_add_of_nonneg_right h : a.val ≤ a.val + t.val)
    rwa [a.rep] at this
  add_zero' a := by
    apply Num.ext
    change ρ.fl (a.val + 0) = a.val
    rw [add_zero, a.rep]
  sqrt_mono a b h := by
    rw [Num.le_def] at h ⊢
    exact ρ.mono _ _ (ρ.sqrt_mono _ _ h)
  sqrt_nonneg a h := by
    rw [Num.le_def] at h ⊢
    exact ρ.fl_nonneg (ρ.sqrt_nonneg _ h)
  minVal_le := by
    rw [Num.le_def]
    change ρ.fl (-ρ.big) ≤ 0
    rw [ρ.odd]
    linarith [ρ.fl_nonneg ρ.big_nonneg]
  eps_nonneg := by rw [Num.le_def]; exact ρ.fl_nonneg ρ.eps_nonneg
  simd_eq a b := rfl

end Rounding

/-- The assumptions on unstable sorting can be met: insertion sort. -/
def insertionUSort : USort where
  run le l := l.insertionSort (fun a b => le a b = true)
  perm le l := List.perm_insertionSort _ _
  sorted {α} le htrans htot l := by
    have : Std.Total (fun a b : α => le a b = true) :=
      ⟨fun a b => by have := htot a b; simpa [Bool.or_eq_true] using this⟩
    have : IsTrans α (fun a b : α => le a b = true) := ⟨fun a b c => htrans a b c⟩
    exact List.pairwise_insertionSort _ _

end Verif
