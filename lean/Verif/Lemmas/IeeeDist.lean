import Verif.Lemmas.Ieee
import Verif.Lemmas.Arith
import Verif.Spec.Neighbors
import Mathlib.Data.List.Sort

/-!
# Distances in IEEE 754 arithmetic
-/

namespace Verif.Ieee
open Verif Verif.FloatBits Verif.KDT FloatOps
open Spec

/-- The arithmetic of `f64` (`f32`) as the trees use it: `+ - *` and `sqrt` rounded to the nearest number, `T::max_value()`,
`T::epsilon()` (`src/arkadia/kdt.rs:14-73`, `src/utils/mod.rs:308-341`).  Simplification: no overflow. -/
noncomputable def ieee (F : Fmt) : Rounding ℝ where
  fl := fl F
  idem := fl_idem F
  mono _ _ h := fl_mono F h
  odd := fl_neg F
  sqrt := Real.sqrt
  sqrt_mono _ _ h := Real.sqrt_le_sqrt h
  sqrt_nonneg _ _ := Real.sqrt_nonneg _
  big := 2 ^ top F - 2 ^ (top F - F.frac - 1)
  big_nonneg := sub_nonneg.2 (zpow_le_zpow_right₀ (by norm_num) (by omega))
  eps := 2 ^ (-(F.frac : ℤ))
  eps_nonneg := (two_zpow_pos _).le

/-- The numbers of the format. -/
abbrev Flt (F : Fmt) := (ieee F).Num

variable {F : Fmt}

theorem Flt.isRep (x : Flt F) : Rep F x.val := by
  have : fl F x.val = x.val := x.rep
  rw [← this]; exact rep_fl F _

theorem add_val (x y : Flt F) : (x + y).val = fl F (x.val + y.val) := rfl
theorem sub_val (x y : Flt F) : (x - y).val = fl F (x.val - y.val) := rfl
theorem mul_val (x y : Flt F) : (x * y).val = fl F (x.val * y.val) := rfl
theorem sqrt_val (x : Flt F) : (fsqrt x).val = fl F (Real.sqrt x.val) := rfl
theorem abs_val (x : Flt F) : (fabs x).val = |x.val| := rfl
theorem zero_val : (0 : Flt F).val = 0 := rfl
theorem max_val (x y : Flt F) : (max x y).val = max x.val y.val := by
  rcases le_total x y with h | h
  · rw [max_eq_right h, max_eq_right (show x.val ≤ y.val from h)]
  · rw [max_eq_left h, max_eq_left (show y.val ≤ x.val from h)]

theorem unit_le : unit F ≤ 1 / 2 := by
  unfold unit
  rw [show (1 / 2 : ℝ) = 2 ^ (-1 : ℤ) by norm_num]
  exact zpow_le_zpow_right₀ (by norm_num) (by omega)

/-- A relative error of one rounding. -/
theorem rel {x y : ℝ} (hx : 0 ≤ x) (h : |y - x| ≤ unit F * |x|) : (1 - unit F) * x ≤ y ∧ y ≤ (1 + unit F) * x := by
  rw [abs_of_nonneg hx, abs_le] at h
  constructor <;> linarith [h.1, h.2]

theorem add_nonneg_rel {x y : Flt F} (hx : 0 ≤ x.val) (hy : 0 ≤ y.val) :
    0 ≤ (x + y).val ∧ (1 - unit F) * (x.val + y.val) ≤ (x + y).val ∧ (x + y).val ≤ (1 + unit F) * (x.val + y.val) := by
  have h := rel (add_nonneg hx hy) (fl_add_err F x.isRep y.isRep)
  refine ⟨le_trans ?_ h.1, h⟩
  exact mul_nonneg (by linarith [unit_le (F := F)]) (add_nonneg hx hy)

theorem abs_sub_rel (x y : Flt F) :
    (1 - unit F) * |x.val - y.val| ≤ |(x - y).val| ∧ |(x - y).val| ≤ (1 + unit F) * |x.val - y.val| := by
  refine rel (abs_nonneg _) ?_
  rw [abs_abs]
  exact (abs_abs_sub_abs_le _ _).trans (fl_sub_err F x.isRep y.isRep)

theorem sq_rel (x y : Flt F) :
    0 ≤ ((x - y) * (x - y)).val ∧
    (1 - unit F) ^ 3 * (x.val - y.val) ^ 2 - tiny F ≤ ((x - y) * (x - y)).val ∧
    ((x - y) * (x - y)).val ≤ (1 + unit F) ^ 3 * ((x.val - y.val) ^ 2 + tiny F) := by
  have hu := unit_pos F
  have hu' := unit_le (F := F)
  have ht := tiny_pos F
  obtain ⟨h1, h2⟩ := abs_sub_rel x y
  have h0 : 0 ≤ (x - y).val * (x - y).val := mul_self_nonneg _
  have h3 := fl_err_mixed F ((x - y).val * (x - y).val)
  rw [← mul_val, abs_of_nonneg h0, abs_le] at h3
  have e : (x - y).val * (x - y).val = |(x - y).val| ^ 2 := by rw [sq_abs, pow_two]
  have e2 : (x.val - y.val) ^ 2 = |x.val - y.val| ^ 2 := (sq_abs _).symm
  rw [e2]
  rw [e] at h3
  generalize |(x - y).val| = t at h1 h2 h3
  have hd : 0 ≤ |x.val - y.val| := abs_nonneg _
  generalize |x.val - y.val| = d at h1 h2 hd
  refine ⟨(ieee F).fl_nonneg h0, ?_, ?_⟩
  · have h4 : ((1 - unit F) * d) ^ 2 ≤ t ^ 2 := pow_le_pow_left₀ (mul_nonneg (by linarith) hd) h1 2
    have h5 := mul_le_mul_of_nonneg_left h4 (by linarith : (0 : ℝ) ≤ 1 - unit F)
    have h6 : (1 - unit F) * ((1 - unit F) * d) ^ 2 = (1 - unit F) ^ 3 * d ^ 2 := by ring
    rw [h6] at h5
    linarith [h3.1]
  · have h4 : t ^ 2 ≤ ((1 + unit F) * d) ^ 2 :=
      pow_le_pow_left₀ ((mul_nonneg (by linarith) hd).trans h1) h2 2
    have h5 := mul_le_mul_of_nonneg_left h4 (by linarith : (0 : ℝ) ≤ 1 + unit F)
    have h6 : (1 + unit F) * ((1 + unit F) * d) ^ 2 = (1 + unit F) ^ 3 * d ^ 2 := by ring
    rw [h6] at h5
    have h7 : tiny F ≤ (1 + unit F) ^ 3 * tiny F := le_mul_of_one_le_left ht.le (one_le_pow₀ (by linarith))
    linarith [h3.2]

/-- A running sum of nonnegative terms, each known up to `c` roundings and `τ`. -/
theorem sum_rel {α : Type} (s : α → Flt F) (w : α → ℝ) (c : ℕ) {τ : ℝ} (hτ : 0 ≤ τ) :
    ∀ (l : List α) (acc : Flt F) (A : ℝ) (i : ℕ), 0 ≤ acc.val → 0 ≤ A →
      (1 - unit F) ^ (c + i) * A - i * τ ≤ acc.val → acc.val ≤ (1 + unit F) ^ (c + i) * (A + i * τ) →
      (∀ p ∈ l, 0 ≤ (s p).val ∧ 0 ≤ w p ∧ (1 - unit F) ^ c * w p - τ ≤ (s p).val ∧ (s p).val ≤ (1 + unit F) ^ c * (w p + τ)) →
      0 ≤ (l.foldl (fun a p => a + s p) acc).val ∧
      (1 - unit F) ^ (c + (i + l.length)) * (A + (l.map w).sum) - ((i + l.length : ℕ) : ℝ) * τ ≤
        (l.foldl (fun a p => a + s p) acc).val ∧
      (l.foldl (fun a p => a + s p) acc).val ≤
        (1 + unit F) ^ (c + (i + l.length)) * (A + (l.map w).sum + ((i + l.length : ℕ) : ℝ) * τ) := by
  intro l
  have hu := unit_pos F
  have hu' := unit_le (F := F)
  induction l with
  | nil => intro acc A i h0 hA h1 h2 _; exact ⟨h0, by simpa using h1, by simpa using h2⟩
  | cons p l ih =>
    intro acc A i h0 hA h1 h2 hl
    obtain ⟨hs0, hw0, hs1, hs2⟩ := hl p (List.mem_cons_self ..)
    obtain ⟨g0, g1, g2⟩ := add_nonneg_rel h0 hs0
    have e : (1 - unit F) ^ (c + (i + 1)) = (1 - unit F) * (1 - unit F) ^ (c + i) := by rw [← add_assoc, pow_succ]; ring
    have e' : (1 + unit F) ^ (c + (i + 1)) = (1 + unit F) * (1 + unit F) ^ (c + i) := by rw [← add_assoc, pow_succ]; ring
    have h3 := ih (acc + s p) (A + w p) (i + 1) g0 (add_nonneg hA hw0) ?_ ?_
      (fun q hq => hl q (List.mem_cons_of_mem _ hq))
    · have e2 : i + 1 + l.length = i + (p :: l).length := by simp; omega
      rw [e2] at h3
      simpa [add_assoc] using h3
    · refine le_trans ?_ g1
      have k1 : (1 - unit F) ^ (c + i) * w p ≤ (1 - unit F) ^ c * w p :=
        mul_le_mul_of_nonneg_right (pow_le_pow_of_le_one (by linarith) (by linarith) (by omega)) hw0
      have k2 : (1 - unit F) ^ (c + i) * (A + w p) - ((i + 1 : ℕ) : ℝ) * τ ≤ acc.val + (s p).val := by
        push_cast; nlinarith
      have k3 := mul_le_mul_of_nonneg_left k2 (by linarith : (0 : ℝ) ≤ 1 - unit F)
      rw [e]
      have k4 : 0 ≤ unit F * (((i + 1 : ℕ) : ℝ) * τ) := by positivity
      nlinarith
    · refine g2.trans ?_
      have k1 : (1 + unit F) ^ c * (w p + τ) ≤ (1 + unit F) ^ (c + i) * (w p + τ) :=
        mul_le_mul_of_nonneg_right (pow_le_pow_right₀ (by linarith) (by omega)) (by linarith)
      have k2 : acc.val + (s p).val ≤ (1 + unit F) ^ (c + i) * (A + w p + ((i + 1 : ℕ) : ℝ) * τ) := by
        push_cast; nlinarith
      have k3 := mul_le_mul_of_nonneg_left k2 (by linarith : (0 : ℝ) ≤ 1 + unit F)
      rw [e', mul_assoc]
      exact k3

namespace Spec

/-- The textbook distances. -/
noncomputable def dist (name : String) (a b : List ℝ) : ℝ :=
  if name = "l1" then ((a.zip b).map fun p => |p.1 - p.2|).sum
  else if name = "sql2" then ((a.zip b).map fun p => (p.1 - p.2) ^ 2).sum
  else if name = "l2" then Real.sqrt ((a.zip b).map fun p => (p.1 - p.2) ^ 2).sum
  else ((a.zip b).map fun p => |p.1 - p.2|).foldr max 0

/-- Absolute error from results too small for the format: none for sums of differences, half the smallest number for
every square. -/
noncomputable def slack (F : Fmt) (name : String) (n : ℕ) : ℝ :=
  if name = "sql2" then n * tiny F else if name = "l2" then Real.sqrt (n * tiny F) else 0

/-- `x'` is `x` up to `n` roundings and an absolute error `β`. -/
def Close (F : Fmt) (n : ℕ) (β x x' : ℝ) : Prop :=
  (1 - unit F) ^ n * x - β ≤ x' ∧ x' ≤ (1 + unit F) ^ n * (x + β)

end Spec

theorem Spec.Close.weaken {n m : ℕ} {β γ x x' : ℝ} (h : Close F n β x x') (hnm : n ≤ m) (hβ : β ≤ γ) (hx : 0 ≤ x)
    (hβ0 : 0 ≤ β) : Close F m γ x x' := by
  have hu := unit_pos F
  have hu' := unit_le (F := F)
  constructor
  · have := mul_le_mul_of_nonneg_right
      (pow_le_pow_of_le_one (by linarith : (0 : ℝ) ≤ 1 - unit F) (by linarith) hnm) hx
    linarith [h.1]
  · refine h.2.trans ?_
    exact mul_le_mul (pow_le_pow_right₀ (by linarith) hnm) (by linarith) (by linarith) (by positivity)

def pairs (a b : List (Flt F)) : List (ℝ × ℝ) := (a.map (·.val)).zip (b.map (·.val))

theorem pairs_eq (a b : List (Flt F)) : pairs a b = (a.zip b).map fun p => (p.1.val, p.2.val) := by
  unfold pairs; rw [List.zip_map]; rfl

theorem l1_close (a b : List (Flt F)) :
    Close F (1 + (a.zip b).length) 0 (((pairs a b).map fun p => |p.1 - p.2|).sum) (distFold accL1 a b).val := by
  have h := sum_rel (F := F) (fun p : Flt F × Flt F => fabs (p.1 - p.2)) (fun p => |p.1.val - p.2.val|) 1 (le_refl 0)
    (a.zip b) 0 0 0 (le_refl _) (le_refl _) (by simp [zero_val]) (by simp [zero_val]) ?_
  · obtain ⟨_, h1, h2⟩ := h
    rw [pairs_eq, List.map_map]
    constructor
    · simpa [Function.comp_def, distFold, accL1, accSq] using h1
    · simpa [Function.comp_def, distFold, accL1, accSq] using h2
  · intro p _
    obtain ⟨h1, h2⟩ := abs_sub_rel p.1 p.2
    refine ⟨abs_nonneg _, abs_nonneg _, ?_, ?_⟩
    · rw [pow_one, sub_zero]; exact h1
    · rw [pow_one, add_zero]; exact h2

theorem sq_close (a b : List (Flt F)) :
    0 ≤ (distFold accSq a b).val ∧
    Close F (3 + (a.zip b).length) ((a.zip b).length * tiny F) (((pairs a b).map fun p => (p.1 - p.2) ^ 2).sum)
      (distFold accSq a b).val := by
  have h := sum_rel (F := F) (fun p : Flt F × Flt F => (p.1 - p.2) * (p.1 - p.2)) (fun p => (p.1.val - p.2.val) ^ 2) 3
    (tiny_pos F).le (a.zip b) 0 0 0 (le_refl _) (le_refl _) (by simp [zero_val]) (by simp [zero_val]) ?_
  · obtain ⟨h0, h1, h2⟩ := h
    rw [pairs_eq, List.map_map]
    refine ⟨h0, ?_, ?_⟩
    · simpa [Function.comp_def, distFold, accL1, accSq] using h1
    · simpa [Function.comp_def, distFold, accL1, accSq] using h2
  · intro p _
    obtain ⟨h0, h1, h2⟩ := sq_rel p.1 p.2
    exact ⟨h0, sq_nonneg _, h1, h2⟩

/-- A square root of a number of the format is not too small. -/
theorem sqrt_rel (hF : 2 * ((F.frac : ℤ) + 1) ≤ -F.low) {x : Flt F} (hx : 0 ≤ x.val) :
    (1 - unit F) * Real.sqrt x.val ≤ (fsqrt x).val ∧ (fsqrt x).val ≤ (1 + unit F) * Real.sqrt x.val := by
  refine rel (Real.sqrt_nonneg _) ?_
  rw [sqrt_val]
  rcases hx.eq_or_lt with h0 | h0
  · rw [← h0, Real.sqrt_zero, fl_zero]; simp
  · refine fl_err_normal F (Real.sqrt_pos.2 h0).ne' ?_
    obtain ⟨k, hk⟩ := rep_grid F x.isRep
    have hk1 : 1 ≤ k := by
      by_contra hc
      have : (k : ℝ) ≤ 0 := by exact_mod_cast (by omega : k ≤ 0)
      have := mul_nonpos_of_nonpos_of_nonneg this (two_zpow_pos F.low).le
      rw [← hk] at this
      linarith
    have h1 : (2 : ℝ) ^ F.low ≤ x.val := by
      rw [hk]
      exact le_mul_of_one_le_left (two_zpow_pos _).le (by exact_mod_cast hk1)
    by_contra hc
    have hu : ulp F (Real.sqrt x.val) = F.low := le_antisymm (not_lt.1 hc) (ulp_low F _)
    have h2 := lt_ulp F (Real.sqrt x.val)
    rw [hu, abs_of_pos (Real.sqrt_pos.2 h0)] at h2
    have h3 := mul_self_lt_mul_self (Real.sqrt_nonneg _) h2
    rw [Real.mul_self_sqrt hx, ← zpow_add₀ (by norm_num : (2 : ℝ) ≠ 0)] at h3
    have h4 : (2 : ℝ) ^ (F.low + (F.frac + 1) + (F.low + (F.frac + 1))) ≤ 2 ^ F.low := by
      refine zpow_le_zpow_right₀ (by norm_num) ?_
      linarith
    linarith

theorem sum_sq_nonneg (l : List (ℝ × ℝ)) : 0 ≤ (l.map fun p => (p.1 - p.2) ^ 2).sum :=
  List.sum_nonneg (by simp only [List.mem_map]; rintro _ ⟨p, -, rfl⟩; positivity)

theorem sqrt_add_le {x y : ℝ} (hx : 0 ≤ x) (hy : 0 ≤ y) : Real.sqrt (x + y) ≤ Real.sqrt x + Real.sqrt y := by
  have h1 := Real.sqrt_nonneg x
  have h2 := Real.sqrt_nonneg y
  rw [Real.sqrt_le_left (add_nonneg h1 h2)]
  nlinarith [Real.sq_sqrt hx, Real.sq_sqrt hy, mul_nonneg h1 h2]

theorem l2_close (hF : 2 * ((F.frac : ℤ) + 1) ≤ -F.low) (a b : List (Flt F)) :
    Close F (4 + (a.zip b).length) (Real.sqrt ((a.zip b).length * tiny F))
      (Real.sqrt ((pairs a b).map fun p => (p.1 - p.2) ^ 2).sum) (fsqrt (distFold accSq a b)).val := by
  have hu := unit_pos F
  have hu' := unit_le (F := F)
  obtain ⟨h0, h1, h2⟩ := sq_close a b
  obtain ⟨g1, g2⟩ := sqrt_rel hF h0
  have hS := sum_sq_nonneg (pairs a b)
  generalize ((pairs a b).map fun p => (p.1 - p.2) ^ 2).sum = S at h1 h2 hS ⊢
  have hτ : 0 ≤ ((a.zip b).length : ℝ) * tiny F := mul_nonneg (Nat.cast_nonneg _) (tiny_pos F).le
  generalize ((a.zip b).length : ℝ) * tiny F = τ at h1 h2 hτ ⊢
  rw [show 4 + (a.zip b).length = (3 + (a.zip b).length) + 1 by ring]
  generalize 3 + (a.zip b).length = N at h1 h2 ⊢
  generalize (distFold accSq a b).val = V at h0 h1 h2 g1 g2
  constructor
  · have k0 : 0 ≤ (1 - unit F) ^ N := pow_nonneg (by linarith) _
    have k1 : (1 - unit F) ^ N ≤ 1 := pow_le_one₀ (by linarith) (by linarith)
    have k2 : (1 - unit F) ^ N * Real.sqrt S ≤ Real.sqrt V + Real.sqrt τ := by
      refine le_trans ?_ (sqrt_add_le h0 hτ)
      apply Real.le_sqrt_of_sq_le
      rw [mul_pow, Real.sq_sqrt hS]
      have : ((1 - unit F) ^ N) ^ 2 ≤ (1 - unit F) ^ N := by nlinarith
      nlinarith
    have k3 := mul_le_mul_of_nonneg_left k2 (by linarith : (0 : ℝ) ≤ 1 - unit F)
    have k4 : 0 ≤ unit F * Real.sqrt τ := mul_nonneg hu.le (Real.sqrt_nonneg _)
    rw [pow_succ]
    nlinarith
  · have k1 : 1 ≤ (1 + unit F) ^ N := one_le_pow₀ (by linarith)
    have k2 : Real.sqrt V ≤ (1 + unit F) ^ N * (Real.sqrt S + Real.sqrt τ) := by
      refine (Real.sqrt_le_sqrt h2).trans ?_
      rw [Real.sqrt_mul (by positivity)]
      refine mul_le_mul ?_ (sqrt_add_le hS hτ) (Real.sqrt_nonneg _) (by positivity)
      rw [Real.sqrt_le_left (by positivity)]
      nlinarith
    have k3 := mul_le_mul_of_nonneg_left k2 (by linarith : (0 : ℝ) ≤ 1 + unit F)
    rw [pow_succ]
    linarith

theorem linf_close_aux : ∀ (l : List (Flt F × Flt F)) (acc : Flt F) (A : ℝ), 0 ≤ A →
    (1 - unit F) * A ≤ acc.val → acc.val ≤ (1 + unit F) * A →
    (1 - unit F) * ((l.map fun p => |p.1.val - p.2.val|).foldr max A) ≤
      (l.foldl (fun acc p => accInf acc (p.1 - p.2)) acc).val ∧
    (l.foldl (fun acc p => accInf acc (p.1 - p.2)) acc).val ≤
      (1 + unit F) * ((l.map fun p => |p.1.val - p.2.val|).foldr max A) := by
  have hu := unit_pos F
  have hu' := unit_le (F := F)
  have swap : ∀ (l : List ℝ) (x A : ℝ), l.foldr max (max A x) = max x (l.foldr max A) := by
    intro l
    induction l with
    | nil => intro x A; exact max_comm _ _
    | cons y l ih => intro x A; simp only [List.foldr_cons]; rw [ih, max_left_comm]
  intro l
  induction l with
  | nil => intro acc A _ h1 h2; exact ⟨h1, h2⟩
  | cons p l ih =>
    intro acc A hA h1 h2
    obtain ⟨g1, g2⟩ := abs_sub_rel p.1 p.2
    have := ih (accInf acc (p.1 - p.2)) (max A |p.1.val - p.2.val|) (le_max_of_le_left hA) ?_ ?_
    · rw [swap] at this
      exact this
    · unfold accInf
      rw [max_val, abs_val, mul_max_of_nonneg _ _ (by linarith)]
      exact max_le_max h1 g1
    · unfold accInf
      rw [max_val, abs_val, mul_max_of_nonneg _ _ (by linarith)]
      exact max_le_max h2 g2

theorem foldr_max_nonneg (l : List ℝ) : 0 ≤ l.foldr max 0 := by
  induction l with
  | nil => exact le_refl _
  | cons x l ih => exact le_max_of_le_right ih

theorem linf_close (a b : List (Flt F)) :
    Close F 1 0 (((pairs a b).map fun p => |p.1 - p.2|).foldr max 0) (distFold accInf a b).val := by
  obtain ⟨h1, h2⟩ := linf_close_aux (a.zip b) (0 : Flt F) 0 (le_refl _) (by simp [zero_val]) (by simp [zero_val])
  rw [pairs_eq, List.map_map]
  constructor
  · rw [pow_one, sub_zero]; exact h1
  · rw [pow_one, add_zero]; exact h2

theorem dist_nonneg (name : String) (a b : List ℝ) : 0 ≤ Spec.dist name a b := by
  unfold Spec.dist
  split_ifs
  · exact List.sum_nonneg (by simp only [List.mem_map]; rintro _ ⟨p, -, rfl⟩; positivity)
  · exact sum_sq_nonneg _
  · exact Real.sqrt_nonneg _
  · exact foldr_max_nonneg _

/-- The computed distance is the textbook one up to rounding. -/
theorem dist_close (hF : 2 * ((F.frac : ℤ) + 1) ≤ -F.low) {cosine hav : List (Flt F) → List (Flt F) → Flt F} {name : String}
    {dim : ℕ} {d : KDT.Dist (Flt F)} (hm : name ∈ KDT.Spec.metricNames) (hd : Dist.ofString cosine hav name dim = .ok d)
    (hs : name = "l2" ∨ name = "sql2" → dim < 16) (a b : List (Flt F)) {n : ℕ} (hn : (a.zip b).length ≤ n) :
    Close F (n + 4) (slack F name n) (Spec.dist name (a.map (·.val)) (b.map (·.val))) (d.dist a b).val := by
  have hD := dist_nonneg name (a.map (·.val)) (b.map (·.val))
  have ht := tiny_pos F
  have hn' : ((a.zip b).length : ℝ) ≤ n := by exact_mod_cast hn
  have hmul : ((a.zip b).length : ℝ) * tiny F ≤ n * tiny F := mul_le_mul_of_nonneg_right hn' ht.le
  have hz : 0 ≤ ((a.zip b).length : ℝ) * tiny F := mul_nonneg (Nat.cast_nonneg _) ht.le
  simp only [KDT.Spec.metricNames, List.mem_cons, List.not_mem_nil, or_false] at hm
  rcases hm with rfl | rfl | rfl | rfl | rfl
  · cases hd
    exact (l1_close a b).weaken (by omega) (le_refl _) hD (le_refl _)
  · have : d = .l2 := by simpa [Dist.ofString, hs (Or.inl rfl)] using hd.symm
    subst this
    exact (l2_close hF a b).weaken (by omega) (Real.sqrt_le_sqrt hmul) hD (Real.sqrt_nonneg _)
  · have : d = .sql2 := by simpa [Dist.ofString, hs (Or.inr rfl)] using hd.symm
    subst this
    exact ((sq_close a b).2).weaken (by omega) hmul hD hz
  · cases hd
    exact (linf_close a b).weaken (by omega) (le_refl _) hD (le_refl _)
  · cases hd
    exact (linf_close a b).weaken (by omega) (le_refl _) hD (le_refl _)

/-! ### Order statistics -/

theorem orderedInsert_head {γ : Type} [LinearOrder γ] {c : γ} {l : List γ} (hp : (c :: l).Pairwise (· ≤ ·)) :
    l.orderedInsert (· ≤ ·) c = c :: l := by
  cases l with
  | nil => rfl
  | cons x l => exact List.orderedInsert_cons_of_le _ _ ((List.pairwise_cons.1 hp).1 x (List.mem_cons_self ..))

theorem orderedInsert_forall₂ {α β : Type} [LinearOrder α] [LinearOrder β] (R : α → β → Prop)
    (hR : ∀ a b c d, R a b → R c d → R (min a c) (min b d) ∧ R (max a c) (max b d)) :
    ∀ (l : List α) (l' : List β), List.Forall₂ R l l' → l.Pairwise (· ≤ ·) → l'.Pairwise (· ≤ ·) →
      ∀ a b, R a b → List.Forall₂ R (l.orderedInsert (· ≤ ·) a) (l'.orderedInsert (· ≤ ·) b) := by
  intro l l' h
  induction h with
  | nil => intro _ _ a b hab; exact .cons hab .nil
  | @cons c d l l' hcd hl ih =>
    intro h1 h2 a b hab
    have key : ∀ {γ : Type} [LinearOrder γ] (x c : γ) (l : List γ), (c :: l).Pairwise (· ≤ ·) →
        (c :: l).orderedInsert (· ≤ ·) x = min x c :: l.orderedInsert (· ≤ ·) (max x c) := by
      intro γ _ x c l hp
      rw [List.orderedInsert_cons]
      split_ifs with hx
      · rw [min_eq_left hx, max_eq_right hx, orderedInsert_head hp]
      · rw [min_eq_right (not_le.1 hx).le, max_eq_left (not_le.1 hx).le]
    rw [key a c l h1, key b d l' h2]
    obtain ⟨m1, m2⟩ := hR a b c d hab hcd
    exact .cons m1 (ih (List.Pairwise.of_cons h1) (List.Pairwise.of_cons h2) _ _ m2)

theorem insertionSort_forall₂ {α β : Type} [LinearOrder α] [LinearOrder β] (R : α → β → Prop)
    (hR : ∀ a b c d, R a b → R c d → R (min a c) (min b d) ∧ R (max a c) (max b d)) {l : List α} {l' : List β}
    (h : List.Forall₂ R l l') : List.Forall₂ R (l.insertionSort (· ≤ ·)) (l'.insertionSort (· ≤ ·)) := by
  induction h with
  | nil => exact .nil
  | cons hab _ ih =>
    exact orderedInsert_forall₂ R hR _ _ ih (List.pairwise_insertionSort _ _) (List.pairwise_insertionSort _ _) _ _ hab

theorem close_minmax (n : ℕ) (β : ℝ) (a c : Flt F) (b d : ℝ) (h1 : Close F n β b a.val) (h2 : Close F n β d c.val) :
    Close F n β (min b d) (min a c).val ∧ Close F n β (max b d) (max a c).val := by
  have hu := unit_pos F
  have hu' := unit_le (F := F)
  have p1 : 0 ≤ (1 - unit F) ^ n := pow_nonneg (by linarith) _
  have p2 : 0 ≤ (1 + unit F) ^ n := pow_nonneg (by linarith) _
  unfold Close at *
  rcases le_total b d with hb | hb <;> rcases le_total a c with ha | ha <;>
  [rw [min_eq_left hb, max_eq_right hb]; rw [min_eq_left hb, max_eq_right hb]; rw [min_eq_right hb, max_eq_left hb];
    rw [min_eq_right hb, max_eq_left hb]] <;>
  [rw [min_eq_left ha, max_eq_right ha]; rw [min_eq_right ha, max_eq_left ha]; rw [min_eq_left ha, max_eq_right ha];
    rw [min_eq_right ha, max_eq_left ha]]
  · exact ⟨h1, h2⟩
  · have ha' : c.val ≤ a.val := ha
    have q1 := mul_le_mul_of_nonneg_left hb p1
    have q2 := mul_le_mul_of_nonneg_left (add_le_add_left hb β) p2
    refine ⟨⟨?_, ?_⟩, ⟨?_, ?_⟩⟩ <;> linarith [h1.1, h1.2, h2.1, h2.2]
  · have ha' : a.val ≤ c.val := ha
    have q1 := mul_le_mul_of_nonneg_left hb p1
    have q2 := mul_le_mul_of_nonneg_left (add_le_add_left hb β) p2
    refine ⟨⟨?_, ?_⟩, ⟨?_, ?_⟩⟩ <;> linarith [h1.1, h1.2, h2.1, h2.2]
  · exact ⟨h2, h1⟩

end Verif.Ieee
