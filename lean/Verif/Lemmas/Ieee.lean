import Verif.Model.Ieee
import Verif.Lemmas.FloatBits
import Mathlib.Tactic.Linarith
import Mathlib.Tactic.Positivity
import Mathlib.Tactic.FieldSimp
import Mathlib.Tactic.Ring

/-!
# Lemmas on IEEE 754 rounding
-/

namespace Verif.Ieee
open Verif.FloatBits

theorem rne_int (n : ℤ) : rne n = n := by
  unfold rne; simp

theorem rne_err (y : ℝ) : |(rne y : ℝ) - y| ≤ 1 / 2 := by
  have h1 := Int.floor_add_fract y
  have h2 := Int.fract_nonneg y
  have h3 := Int.fract_lt_one y
  unfold rne
  split_ifs with a b c <;> push_cast <;> rw [abs_le] <;> constructor <;> linarith

theorem rne_le_of (y : ℝ) : ⌊y⌋ ≤ rne y ∧ rne y ≤ ⌊y⌋ + 1 := by
  unfold rne; split_ifs <;> omega

theorem rne_mono {x y : ℝ} (h : x ≤ y) : rne x ≤ rne y := by
  have hf := Int.floor_mono h
  rcases hf.lt_or_eq with h1 | h1
  · have := rne_le_of x; have := rne_le_of y; omega
  · have hx := Int.floor_add_fract x
    have hy := Int.floor_add_fract y
    have hfr : Int.fract x ≤ Int.fract y := by
      have : (⌊x⌋ : ℝ) = ⌊y⌋ := by rw [h1]
      linarith
    unfold rne
    rw [h1]
    split_ifs <;> first | omega | (exfalso; linarith)

theorem rne_neg (y : ℝ) : rne (-y) = -rne y := by
  by_cases h0 : Int.fract y = 0
  · have : y = ⌊y⌋ := by have := Int.floor_add_fract y; linarith
    rw [this, ← Int.cast_neg, rne_int, rne_int]
  · have hfr : Int.fract (-y) = 1 - Int.fract y := Int.fract_neg h0
    have hfl : ⌊-y⌋ = -⌊y⌋ - 1 := by
      have h1 := Int.floor_add_fract y
      have h2 := Int.floor_add_fract (-y)
      have : ((⌊-y⌋ : ℤ) : ℝ) = ((-⌊y⌋ - 1 : ℤ) : ℝ) := by push_cast; linarith
      exact_mod_cast this
    unfold rne
    rw [hfr, hfl]
    split_ifs with a b c d e f g <;> first | omega | (exfalso; linarith) | skip
    all_goals
      rename_i h1 h2
      simp only [Int.even_sub_one, even_neg] at *
      try omega
      try contradiction

/-- A tie goes to the even integer. -/
theorem rne_tie {y : ℝ} (h : |(rne y : ℝ) - y| = 1 / 2) : Even (rne y) := by
  have h1 := Int.floor_add_fract y
  have h2 := Int.fract_nonneg y
  have h3 := Int.fract_lt_one y
  unfold rne at h ⊢
  split_ifs at h ⊢ with a b c
  · exfalso
    rw [show ((⌊y⌋ : ℤ) : ℝ) - y = -Int.fract y by linarith, abs_neg, abs_of_nonneg h2] at h
    linarith
  · exfalso
    push_cast at h
    rw [show ((⌊y⌋ : ℤ) : ℝ) + 1 - y = 1 - Int.fract y by linarith, abs_of_nonneg (by linarith)] at h
    linarith
  · exact c
  · simpa [Int.even_add_one] using c

/-- No integer is nearer. -/
theorem rne_nearest (y : ℝ) (n : ℤ) : |(rne y : ℝ) - y| ≤ |(n : ℝ) - y| := by
  by_cases h : n = rne y
  · rw [h]
  · have h1 : (1 : ℝ) ≤ |(n : ℝ) - rne y| := by
      have : 1 ≤ |n - rne y| := Int.one_le_abs (sub_ne_zero.2 h)
      have h2 : ((1 : ℤ) : ℝ) ≤ ((|n - rne y| : ℤ) : ℝ) := by exact_mod_cast this
      simpa using h2
    have h2 := rne_err y
    have h3 : |(n : ℝ) - rne y| ≤ |(n : ℝ) - y| + |(rne y : ℝ) - y| := by
      rw [← abs_neg ((rne y : ℝ) - y)]
      have := abs_add_le ((n : ℝ) - y) (-((rne y : ℝ) - y))
      rwa [show (n : ℝ) - y + -((rne y : ℝ) - y) = n - rne y by ring] at this
    linarith

namespace Spec

/-- A number of the format, were its exponent not bounded above: an integer of at most `frac + 1` bits times a
power of two not below that of the smallest number. -/
def Rep (F : Fmt) (z : ℝ) : Prop :=
  ∃ m e : ℤ, |m| < 2 ^ (F.frac + 1) ∧ F.low ≤ e ∧ z = m * (2 : ℝ) ^ e

end Spec
open Spec

variable (F : Fmt)

theorem two_zpow_pos (e : ℤ) : (0 : ℝ) < 2 ^ e := by positivity

theorem ulp_low (x : ℝ) : F.low ≤ ulp F x := le_max_right _ _

/-- `x` has fewer than `frac + 1` bits before its unit in the last place. -/
theorem lt_ulp (x : ℝ) : |x| < 2 ^ (ulp F x + (F.frac + 1)) := by
  refine (Int.lt_zpow_succ_log_self (b := 2) (by norm_num) |x|).trans_le ?_
  push_cast
  refine zpow_le_zpow_right₀ (by norm_num) ?_
  have : Int.log 2 |x| - F.frac ≤ ulp F x := le_max_left _ _
  linarith

/-- Above the smallest exponent the leading bit is there. -/
theorem ulp_le {x : ℝ} (h0 : x ≠ 0) (h : F.low < ulp F x) : (2 : ℝ) ^ (ulp F x + F.frac) ≤ |x| := by
  have hu : ulp F x = Int.log 2 |x| - F.frac := by
    unfold ulp at h ⊢
    rcases max_choice (Int.log 2 |x| - F.frac) F.low with e | e <;> rw [e] at h ⊢
    exact absurd h (lt_irrefl _)
  have := Int.zpow_log_le_self (b := 2) (by norm_num) (abs_pos.2 h0)
  push_cast at this
  rw [hu, sub_add_cancel]
  exact this

theorem ulp_of_lt {x : ℝ} (h0 : x ≠ 0) {e : ℤ} (he : F.low ≤ e) (h : |x| < 2 ^ (e + (F.frac + 1))) : ulp F x ≤ e := by
  refine max_le ?_ he
  have := (Int.lt_zpow_iff_log_lt (b := 2) (by norm_num) (abs_pos.2 h0) (x := e + (F.frac + 1))).1 (by exact_mod_cast h)
  linarith

theorem ulp_mono {x y : ℝ} (h0 : x ≠ 0) (h : |x| ≤ |y|) : ulp F x ≤ ulp F y :=
  ulp_of_lt F h0 (ulp_low F y) (h.trans_lt (lt_ulp F y))

theorem fl_zero : fl F 0 = 0 := by
  unfold fl; rw [zero_div, show (0 : ℝ) = ((0 : ℤ) : ℝ) by simp, rne_int]; simp

theorem fl_neg (x : ℝ) : fl F (-x) = -fl F x := by
  unfold fl
  have : ulp F (-x) = ulp F x := by unfold ulp; rw [abs_neg]
  rw [this, neg_div, rne_neg]; push_cast; ring

/-- A multiple of the unit in the last place is not changed. -/
theorem rne_mul {e e' : ℤ} (m : ℤ) (h : e ≤ e') : (rne (m * 2 ^ e' / 2 ^ e) : ℝ) * 2 ^ e = m * 2 ^ e' := by
  obtain ⟨n, hn⟩ := Int.eq_ofNat_of_zero_le (sub_nonneg.2 h)
  have h1 : (m * 2 ^ e' / 2 ^ e : ℝ) = ((m * 2 ^ n : ℤ) : ℝ) := by
    rw [mul_div_assoc, ← zpow_sub₀ (by norm_num : (2 : ℝ) ≠ 0), hn]
    push_cast
    simp
  rw [h1, rne_int]
  push_cast
  rw [mul_assoc, ← zpow_natCast (2 : ℝ) n, ← zpow_add₀ (by norm_num : (2 : ℝ) ≠ 0), show (n : ℤ) + e = e' by
    have : e' - e = (n : ℤ) := hn
    linarith]

theorem fl_rep {z : ℝ} (h : Rep F z) : fl F z = z := by
  obtain ⟨m, e, hm, he, rfl⟩ := h
  by_cases h0 : (m : ℝ) * 2 ^ e = 0
  · rw [h0, fl_zero]
  · have : ulp F (m * 2 ^ e) ≤ e := by
      refine ulp_of_lt F h0 he ?_
      rw [abs_mul, abs_of_pos (two_zpow_pos e), zpow_add₀ (by norm_num : (2 : ℝ) ≠ 0), mul_comm]
      refine mul_lt_mul_of_pos_left ?_ (two_zpow_pos e)
      have h1 : ((|m| : ℤ) : ℝ) < ((2 ^ (F.frac + 1) : ℤ) : ℝ) := by exact_mod_cast hm
      push_cast at h1
      exact_mod_cast h1
    exact rne_mul m this

theorem rep_le {m e : ℤ} (hm : |m| ≤ 2 ^ (F.frac + 1)) (he : F.low ≤ e) : Rep F (m * (2 : ℝ) ^ e) := by
  rcases hm.lt_or_eq with h | h
  · exact ⟨m, e, h, he, rfl⟩
  · rcases abs_choice m with c | c
    · refine ⟨2 ^ F.frac, e + 1, ?_, by linarith, ?_⟩
      · rw [abs_of_pos (by positivity)]; exact pow_lt_pow_right₀ (by norm_num) (by omega)
      · rw [← c, h, zpow_add₀ (by norm_num : (2 : ℝ) ≠ 0)]; push_cast; ring
    · refine ⟨-2 ^ F.frac, e + 1, ?_, by linarith, ?_⟩
      · rw [abs_neg, abs_of_pos (by positivity)]; exact pow_lt_pow_right₀ (by norm_num) (by omega)
      · have : m = -2 ^ (F.frac + 1) := by omega
        rw [this, zpow_add₀ (by norm_num : (2 : ℝ) ≠ 0)]; push_cast; ring

theorem rep_fl (x : ℝ) : Rep F (fl F x) := by
  refine rep_le F ?_ (ulp_low F x)
  have h := lt_ulp F x
  rw [add_comm, zpow_add₀ (by norm_num : (2 : ℝ) ≠ 0)] at h
  have h1 : |x / 2 ^ ulp F x| ≤ ((2 ^ (F.frac + 1) : ℤ) : ℝ) := by
    rw [abs_div, abs_of_pos (two_zpow_pos _), div_le_iff₀ (two_zpow_pos _)]
    push_cast
    exact_mod_cast h.le
  rw [abs_le] at h1 ⊢
  constructor
  · have := rne_mono h1.1
    rwa [← Int.cast_neg, rne_int] at this
  · have := rne_mono h1.2
    rwa [rne_int] at this

theorem fl_idem (x : ℝ) : fl F (fl F x) = fl F x := fl_rep F (rep_fl F x)

theorem fl_mono_nonneg {x y : ℝ} (hx : 0 ≤ x) (h : x ≤ y) : fl F x ≤ fl F y := by
  rcases hx.eq_or_lt with rfl | hx
  · rw [fl_zero]
    refine mul_nonneg ?_ (two_zpow_pos _).le
    have := rne_mono (x := ((0 : ℤ) : ℝ)) (y := y / 2 ^ ulp F y) (by push_cast; positivity)
    rw [rne_int] at this
    exact_mod_cast this
  · have hy := hx.trans_le h
    have hu : ulp F x ≤ ulp F y := ulp_mono F hx.ne' (by rwa [abs_of_pos hx, abs_of_pos hy])
    rcases hu.eq_or_lt with hu | hu
    · unfold fl
      rw [hu]
      refine mul_le_mul_of_nonneg_right ?_ (two_zpow_pos _).le
      exact_mod_cast rne_mono (div_le_div_of_nonneg_right h (two_zpow_pos _).le)
    · have h1 := ulp_le F hy.ne' ((ulp_low F x).trans_lt hu)
      rw [abs_of_pos hy] at h1
      have h2 : x ≤ 2 ^ (ulp F y + F.frac) := by
        have := lt_ulp F x
        rw [abs_of_pos hx] at this
        exact this.le.trans (zpow_le_zpow_right₀ (by norm_num) (by linarith))
      have h3 : fl F x ≤ 2 ^ (ulp F y + F.frac) := by
        have h4 := rne_mul 1 (show ulp F x ≤ ulp F y + F.frac by linarith [(Int.natCast_nonneg F.frac : (0 : ℤ) ≤ _)])
        rw [Int.cast_one, one_mul] at h4
        rw [← h4]
        refine mul_le_mul_of_nonneg_right ?_ (two_zpow_pos _).le
        exact_mod_cast rne_mono (div_le_div_of_nonneg_right h2 (two_zpow_pos _).le)
      have h5 : (2 : ℝ) ^ (ulp F y + F.frac) ≤ fl F y := by
        have h4 := rne_mul 1 (show ulp F y ≤ ulp F y + F.frac by linarith [(Int.natCast_nonneg F.frac : (0 : ℤ) ≤ _)])
        rw [Int.cast_one, one_mul] at h4
        rw [← h4]
        refine mul_le_mul_of_nonneg_right ?_ (two_zpow_pos _).le
        exact_mod_cast rne_mono (div_le_div_of_nonneg_right h1 (two_zpow_pos _).le)
      exact h3.trans h5

theorem fl_mono {x y : ℝ} (h : x ≤ y) : fl F x ≤ fl F y := by
  rcases le_total 0 x with hx | hx
  · exact fl_mono_nonneg F hx h
  · rcases le_total 0 y with hy | hy
    · have h1 := fl_mono_nonneg F (le_refl 0) (neg_nonneg.2 hx)
      have h2 := fl_mono_nonneg F (le_refl 0) hy
      rw [fl_neg, fl_zero] at h1
      rw [fl_zero] at h2
      linarith
    · have := fl_mono_nonneg F (neg_nonneg.2 hy) (neg_le_neg h)
      rw [fl_neg, fl_neg] at this
      linarith

/-- The error is at most half a unit in the last place. -/
theorem fl_err (x : ℝ) : |fl F x - x| ≤ 2 ^ ulp F x / 2 := by
  have h := rne_err (x / 2 ^ ulp F x)
  have h1 : fl F x - x = ((rne (x / 2 ^ ulp F x) : ℝ) - x / 2 ^ ulp F x) * 2 ^ ulp F x := by
    unfold fl
    rw [sub_mul, div_mul_cancel₀ _ (two_zpow_pos _).ne']
  rw [h1, abs_mul, abs_of_pos (two_zpow_pos _)]
  have := mul_le_mul_of_nonneg_right h (two_zpow_pos (ulp F x)).le
  linarith

/-- The unit roundoff: half the distance from 1 to the next number. -/
noncomputable def unit : ℝ := (2 : ℝ) ^ (-(F.frac : ℤ) - 1)
/-- The largest rounding error of a result below the normal numbers. -/
noncomputable def tiny : ℝ := (2 : ℝ) ^ (F.low - 1)

theorem unit_pos : 0 < unit F := two_zpow_pos _
theorem tiny_pos : 0 < tiny F := two_zpow_pos _

theorem fl_err_normal {x : ℝ} (h0 : x ≠ 0) (h : F.low < ulp F x) : |fl F x - x| ≤ unit F * |x| := by
  refine (fl_err F x).trans ?_
  have h1 := ulp_le F h0 h
  rw [zpow_add₀ (by norm_num : (2 : ℝ) ≠ 0)] at h1
  have h2 : unit F * (2 ^ ulp F x * 2 ^ (F.frac : ℤ)) = 2 ^ ulp F x / 2 := by
    unfold unit
    rw [zpow_sub₀ (by norm_num : (2 : ℝ) ≠ 0), zpow_neg]
    have := two_zpow_pos (F.frac : ℤ)
    field_simp
  rw [← h2]
  exact mul_le_mul_of_nonneg_left h1 (unit_pos F).le

/-- The error is relative, or that of the smallest numbers. -/
theorem fl_err_mixed (x : ℝ) : |fl F x - x| ≤ unit F * |x| + tiny F := by
  by_cases h0 : x = 0
  · rw [h0, fl_zero]; simp [(tiny_pos F).le]
  · rcases (ulp_low F x).lt_or_eq with h | h
    · have := fl_err_normal F h0 h
      linarith [tiny_pos F]
    · have := fl_err F x
      have h1 : (2 : ℝ) ^ ulp F x / 2 = tiny F := by
        unfold tiny; rw [← h, zpow_sub₀ (by norm_num : (2 : ℝ) ≠ 0)]; norm_num
      have h2 : 0 ≤ unit F * |x| := mul_nonneg (unit_pos F).le (abs_nonneg x)
      linarith

/-- On a multiple of the smallest number the error is relative. -/
theorem fl_err_mul {x : ℝ} (k : ℤ) (hx : x = k * 2 ^ F.low) : |fl F x - x| ≤ unit F * |x| := by
  by_cases h0 : x = 0
  · rw [h0, fl_zero]; simp
  · rcases (ulp_low F x).lt_or_eq with h | h
    · exact fl_err_normal F h0 h
    · have : fl F x = x := by
        unfold fl
        rw [← h]
        have := rne_mul k (le_refl F.low)
        rwa [← hx] at this
      rw [this, sub_self, abs_zero]
      exact mul_nonneg (unit_pos F).le (abs_nonneg x)

theorem rep_grid {z : ℝ} (h : Rep F z) : ∃ k : ℤ, z = k * 2 ^ F.low := by
  obtain ⟨m, e, -, he, rfl⟩ := h
  obtain ⟨n, hn⟩ := Int.eq_ofNat_of_zero_le (sub_nonneg.2 he)
  refine ⟨m * 2 ^ n, ?_⟩
  push_cast
  rw [mul_assoc, ← zpow_natCast (2 : ℝ) n, ← zpow_add₀ (by norm_num : (2 : ℝ) ≠ 0), show (n : ℤ) + F.low = e by
    have : e - F.low = (n : ℤ) := hn
    linarith]

theorem fl_add_err {x y : ℝ} (hx : Rep F x) (hy : Rep F y) : |fl F (x + y) - (x + y)| ≤ unit F * |x + y| := by
  obtain ⟨a, ha⟩ := rep_grid F hx
  obtain ⟨b, hb⟩ := rep_grid F hy
  exact fl_err_mul F (a + b) (by rw [ha, hb]; push_cast; ring)

theorem rep_neg {x : ℝ} (hx : Rep F x) : Rep F (-x) := by
  obtain ⟨m, e, hm, he, rfl⟩ := hx
  exact ⟨-m, e, by rwa [abs_neg], he, by push_cast; ring⟩

theorem fl_sub_err {x y : ℝ} (hx : Rep F x) (hy : Rep F y) : |fl F (x - y) - (x - y)| ≤ unit F * |x - y| := by
  rw [sub_eq_add_neg x y]; exact fl_add_err F hx (rep_neg F hy)

theorem fl_nearest_nonneg {x z : ℝ} (hx : 0 ≤ x) (hz : Rep F z) : |fl F x - x| ≤ |z - x| := by
  rcases hx.eq_or_lt with rfl | hx
  · rw [fl_zero, sub_self, abs_zero]; exact abs_nonneg _
  · have key : ∀ (k : ℤ), |fl F x - x| ≤ |k * 2 ^ ulp F x - x| := by
      intro k
      have h := rne_nearest (x / 2 ^ ulp F x) k
      have h2 : ∀ m : ℤ, |(m : ℝ) * 2 ^ ulp F x - x| = |(m : ℝ) - x / 2 ^ ulp F x| * 2 ^ ulp F x := by
        intro m
        have hp := two_zpow_pos (ulp F x)
        rw [← abs_of_pos hp, ← abs_mul, abs_of_pos hp, sub_mul, div_mul_cancel₀ _ hp.ne']
      unfold fl
      rw [h2, h2]
      exact mul_le_mul_of_nonneg_right h (two_zpow_pos _).le
    obtain ⟨m, e, hm, he, rfl⟩ := hz
    rcases le_or_gt (ulp F x) e with h | h
    · rw [← rne_mul m h]
      exact key _
    · have h1 := ulp_le F hx.ne' (he.trans_lt h)
      rw [abs_of_pos hx] at h1
      have h2 : (m : ℝ) * 2 ^ e ≤ 2 ^ (ulp F x + F.frac) := by
        have h3 : (m : ℝ) ≤ 2 ^ (F.frac + 1) := by exact_mod_cast ((abs_lt.1 hm).2).le
        calc (m : ℝ) * 2 ^ e ≤ 2 ^ (F.frac + 1) * 2 ^ e := mul_le_mul_of_nonneg_right h3 (two_zpow_pos _).le
          _ = 2 ^ ((F.frac + 1 : ℕ) + e : ℤ) := by rw [zpow_add₀ (by norm_num : (2 : ℝ) ≠ 0), zpow_natCast]
          _ ≤ _ := zpow_le_zpow_right₀ (by norm_num) (by push_cast; omega)
      have h3 := key (2 ^ F.frac)
      have h4 : (((2 ^ F.frac : ℤ)) : ℝ) * 2 ^ ulp F x = 2 ^ (ulp F x + F.frac) := by
        rw [zpow_add₀ (by norm_num : (2 : ℝ) ≠ 0), zpow_natCast]; push_cast; ring
      rw [h4] at h3
      refine h3.trans ?_
      rw [abs_of_nonpos (by linarith), abs_of_nonpos (by linarith)]
      linarith

theorem fl_nearest (x : ℝ) {z : ℝ} (hz : Rep F z) : |fl F x - x| ≤ |z - x| := by
  rcases le_total 0 x with hx | hx
  · exact fl_nearest_nonneg F hx hz
  · have := fl_nearest_nonneg F (neg_nonneg.2 hx) (rep_neg F hz)
    rw [fl_neg, show -fl F x - -x = -(fl F x - x) by ring, show -z - -x = -(z - x) by ring, abs_neg, abs_neg] at this
    exact this

/-! ### Bits -/

open Verif.FloatBits.Spec in
theorem mag_of {d k : ℕ} (hk : k < 2 ^ (F.frac + 1)) (h : d = 0 ∨ 2 ^ F.frac ≤ k) :
    mag F (d * 2 ^ F.frac + k) = k * (2 : ℝ) ^ (F.low + d) := by
  have hp : 0 < 2 ^ F.frac := by positivity
  unfold mag
  rcases lt_or_ge k (2 ^ F.frac) with h1 | h1
  · have h2 : d = 0 := by rcases h with h | h <;> omega
    subst h2
    rw [zero_mul, zero_add, Nat.div_eq_of_lt h1, Nat.mod_eq_of_lt h1, if_pos rfl]
    simp
  · obtain ⟨r, rfl⟩ := Nat.exists_eq_add_of_le h1
    have hr : r < 2 ^ F.frac := by rw [pow_succ] at hk; omega
    have e : d * 2 ^ F.frac + (2 ^ F.frac + r) = r + 2 ^ F.frac * (d + 1) := by ring
    rw [e, Nat.add_mul_div_left _ _ hp, Nat.add_mul_mod_self_left, Nat.div_eq_of_lt hr, Nat.mod_eq_of_lt hr,
      if_neg (by omega)]
    congr 2
    push_cast
    ring

open Verif.FloatBits.Spec in
theorem rep_mag (m : ℕ) : Rep F (mag F m) := by
  have hp : 0 < 2 ^ F.frac := by positivity
  have hm := Nat.mod_lt m hp
  unfold mag
  split_ifs with h
  · refine ⟨(m % 2 ^ F.frac : ℕ), F.low, ?_, le_refl _, by push_cast; rfl⟩
    rw [abs_of_nonneg (by positivity), pow_succ]
    exact_mod_cast (by omega : m % 2 ^ F.frac < 2 ^ F.frac * 2)
  · refine ⟨(2 ^ F.frac + m % 2 ^ F.frac : ℕ), F.low + (m / 2 ^ F.frac : ℕ) - 1, ?_, ?_, by push_cast; rfl⟩
    swap
    · have : 1 ≤ m / 2 ^ F.frac := Nat.pos_of_ne_zero h
      generalize m / 2 ^ F.frac = q at this ⊢
      omega
    rw [abs_of_nonneg (by positivity), pow_succ]
    exact_mod_cast (by omega : 2 ^ F.frac + m % 2 ^ F.frac < 2 ^ F.frac * 2)

/-- The exponent of the first power of two too large for the format. -/
def top : ℤ := F.low + F.frac + 2 ^ F.expo - 2

theorem expo_pos (hF : Proper F) : 2 ≤ 2 ^ F.expo := by
  unfold Proper Fmt.inf at hF
  have : F.expo ≠ 0 := by rintro h; rw [h] at hF; simp at hF
  calc 2 = 2 ^ 1 := rfl
    _ ≤ 2 ^ F.expo := Nat.pow_le_pow_right (by norm_num) (by omega)

open Verif.FloatBits.Spec in
theorem mag_inf (hF : Proper F) : mag F F.inf = 2 ^ top F := by
  have he := expo_pos F hF
  have hp : 0 < 2 ^ F.frac := by positivity
  have e : F.inf = (2 ^ F.expo - 2) * 2 ^ F.frac + 2 ^ F.frac := by
    unfold Fmt.inf
    rw [show 2 ^ F.expo - 1 = (2 ^ F.expo - 2) + 1 by omega]
    ring
  rw [e, mag_of F (by rw [pow_succ]; omega) (Or.inr (le_refl _))]
  unfold top
  rw [show F.low + ((2 ^ F.expo - 2 : ℕ) : ℤ) = (F.low + F.frac + 2 ^ F.expo - 2) - F.frac by
    rw [Nat.cast_sub he]; push_cast; ring, zpow_sub₀ (by norm_num : (2 : ℝ) ≠ 0)]
  push_cast
  rw [zpow_natCast]
  field_simp

open Verif.FloatBits.Spec in
/-- The magnitude bits of a number of the format. -/
theorem exists_mag {z : ℝ} (h : Rep F z) (hz : 0 ≤ z) (ht : z < 2 ^ top F) (hF : Proper F) :
    ∃ m < F.inf, mag F m = z := by
  by_cases h0 : z = 0
  · refine ⟨0, by unfold Proper at hF; omega, ?_⟩
    rw [mag_zero, h0]
  · have hz' : 0 < z := lt_of_le_of_ne hz (Ne.symm h0)
    have hfl := fl_rep F h
    unfold fl at hfl
    obtain ⟨d, hd⟩ := Int.eq_ofNat_of_zero_le (sub_nonneg.2 (ulp_low F z))
    replace hd : ulp F z = F.low + d := by
      have : ulp F z - F.low = (d : ℤ) := hd
      linarith
    have hk0 : 0 ≤ rne (z / 2 ^ ulp F z) := by
      have := rne_mono (x := ((0 : ℤ) : ℝ)) (y := z / 2 ^ ulp F z) (by push_cast; positivity)
      rwa [rne_int] at this
    obtain ⟨k, hk⟩ := Int.eq_ofNat_of_zero_le hk0
    rw [hk] at hfl
    have hkz : (k : ℝ) * 2 ^ ulp F z = z := hfl
    have hk1 : k < 2 ^ (F.frac + 1) := by
      have h1 := lt_ulp F z
      rw [abs_of_pos hz', zpow_add₀ (by norm_num : (2 : ℝ) ≠ 0), mul_comm] at h1
      nth_rewrite 1 [← hkz] at h1
      have h2 := lt_of_mul_lt_mul_right h1 (two_zpow_pos _).le
      have h3 : (k : ℝ) < ((2 ^ (F.frac + 1) : ℕ) : ℝ) := by push_cast; exact_mod_cast h2
      exact_mod_cast h3
    have hk2 : d = 0 ∨ 2 ^ F.frac ≤ k := by
      rcases Nat.eq_zero_or_pos d with h1 | h1
      · exact Or.inl h1
      · right
        have h2 := ulp_le F h0 (by omega)
        rw [abs_of_pos hz', zpow_add₀ (by norm_num : (2 : ℝ) ≠ 0), mul_comm] at h2
        nth_rewrite 2 [← hkz] at h2
        have h3 := le_of_mul_le_mul_right h2 (two_zpow_pos _)
        rw [zpow_natCast] at h3
        exact_mod_cast h3
    have hm := mag_of F hk1 hk2
    rw [← hd, hkz] at hm
    refine ⟨d * 2 ^ F.frac + k, ?_, hm⟩
    rw [← (mag_strictMono F).lt_iff_lt, hm, mag_inf F hF]
    exact ht

/-! ### Ties -/

/-- When another number is as near, the chosen significand is even. -/
theorem tie_nonneg {x z : ℝ} (hx : 0 < x) (hz : Rep F z) (hne : z ≠ fl F x) (h : |z - x| = |fl F x - x|) :
    Even (rne (x / 2 ^ ulp F x)) := by
  have hp := two_zpow_pos (ulp F x)
  have h2 : ∀ m : ℤ, |(m : ℝ) * 2 ^ ulp F x - x| = |(m : ℝ) - x / 2 ^ ulp F x| * 2 ^ ulp F x := by
    intro m
    rw [← abs_of_pos hp, ← abs_mul, abs_of_pos hp, sub_mul, div_mul_cancel₀ _ hp.ne']
  have key : ∀ k : ℤ, z = k * 2 ^ ulp F x → Even (rne (x / 2 ^ ulp F x)) := by
    intro k hk
    apply rne_tie
    have hk1 : k ≠ rne (x / 2 ^ ulp F x) := by
      rintro rfl
      exact hne hk
    rw [hk] at h
    unfold fl at h
    rw [h2, h2] at h
    have h3 := mul_right_cancel₀ hp.ne' h
    have h4 := rne_err (x / 2 ^ ulp F x)
    have h5 : (1 : ℝ) ≤ |(k : ℝ) - rne (x / 2 ^ ulp F x)| := by
      have : 1 ≤ |k - rne (x / 2 ^ ulp F x)| := Int.one_le_abs (sub_ne_zero.2 hk1)
      have h6 : ((1 : ℤ) : ℝ) ≤ ((|k - rne (x / 2 ^ ulp F x)| : ℤ) : ℝ) := by exact_mod_cast this
      simpa using h6
    have h6 := abs_add_le ((k : ℝ) - x / 2 ^ ulp F x) (-((rne (x / 2 ^ ulp F x) : ℝ) - x / 2 ^ ulp F x))
    rw [abs_neg, show (k : ℝ) - x / 2 ^ ulp F x + -((rne (x / 2 ^ ulp F x) : ℝ) - x / 2 ^ ulp F x) =
      k - rne (x / 2 ^ ulp F x) by ring] at h6
    linarith
  obtain ⟨m, e, hm, he, hze⟩ := hz
  rcases le_or_gt (ulp F x) e with hle | hlt
  · rw [← rne_mul m hle] at hze
    exact key _ hze
  · have h1 := ulp_le F hx.ne' (he.trans_lt hlt)
    rw [abs_of_pos hx] at h1
    have h3 : z ≤ 2 ^ (ulp F x + F.frac) := by
      have h3 : (m : ℝ) ≤ 2 ^ (F.frac + 1) := by exact_mod_cast ((abs_lt.1 hm).2).le
      calc z = (m : ℝ) * 2 ^ e := hze
        _ ≤ 2 ^ (F.frac + 1) * 2 ^ e := mul_le_mul_of_nonneg_right h3 (two_zpow_pos _).le
        _ = 2 ^ ((F.frac + 1 : ℕ) + e : ℤ) := by rw [zpow_add₀ (by norm_num : (2 : ℝ) ≠ 0), zpow_natCast]
        _ ≤ _ := zpow_le_zpow_right₀ (by norm_num) (by push_cast; omega)
    have h4 : (((2 ^ F.frac : ℤ)) : ℝ) * 2 ^ ulp F x = 2 ^ (ulp F x + F.frac) := by
      rw [zpow_add₀ (by norm_num : (2 : ℝ) ≠ 0), zpow_natCast]; push_cast; ring
    have h5 : |fl F x - x| ≤ |(((2 ^ F.frac : ℤ)) : ℝ) * 2 ^ ulp F x - x| := by
      unfold fl
      rw [h2, h2]
      exact mul_le_mul_of_nonneg_right (rne_nearest _ _) hp.le
    rw [h4] at h5
    refine key (2 ^ F.frac) ?_
    rw [h4]
    rw [← h, abs_of_nonpos (by linarith), abs_of_nonpos (by linarith)] at h5
    linarith

open Verif.FloatBits.Spec in
theorem tie_bits (hf : 1 ≤ F.frac) (hF : Proper F) {x z : ℝ} (hx : 0 < x) (hz : Rep F z) (hne : z ≠ fl F x)
    (h : |z - x| = |fl F x - x|) (ht : fl F x < 2 ^ top F) : ∃ m < F.inf, Even m ∧ mag F m = fl F x := by
  have hev := tie_nonneg F hx hz hne h
  have hp := two_zpow_pos (ulp F x)
  obtain ⟨d, hd⟩ := Int.eq_ofNat_of_zero_le (sub_nonneg.2 (ulp_low F x))
  replace hd : ulp F x = F.low + d := by
    have : ulp F x - F.low = (d : ℤ) := hd
    linarith
  have hk0 : 0 ≤ rne (x / 2 ^ ulp F x) := by
    have := rne_mono (x := ((0 : ℤ) : ℝ)) (y := x / 2 ^ ulp F x) (by push_cast; positivity)
    rwa [rne_int] at this
  have hk1 : rne (x / 2 ^ ulp F x) ≤ 2 ^ (F.frac + 1) := by
    have h1 := lt_ulp F x
    rw [abs_of_pos hx, add_comm, zpow_add₀ (by norm_num : (2 : ℝ) ≠ 0), ← div_lt_iff₀ hp] at h1
    have h2 : x / 2 ^ ulp F x ≤ ((2 ^ (F.frac + 1) : ℤ) : ℝ) := by push_cast; exact_mod_cast h1.le
    have := rne_mono h2
    rwa [rne_int] at this
  have hk2 : d = 0 ∨ 2 ^ F.frac ≤ rne (x / 2 ^ ulp F x) := by
    rcases Nat.eq_zero_or_pos d with h1 | h1
    · exact Or.inl h1
    · right
      have h2 := ulp_le F hx.ne' (by omega)
      rw [abs_of_pos hx, add_comm, zpow_add₀ (by norm_num : (2 : ℝ) ≠ 0), ← le_div_iff₀ hp] at h2
      have h3 : ((2 ^ F.frac : ℤ) : ℝ) ≤ x / 2 ^ ulp F x := by push_cast; exact_mod_cast h2
      have := rne_mono h3
      rwa [rne_int] at this
  obtain ⟨k, hk⟩ := Int.eq_ofNat_of_zero_le hk0
  have hfl : fl F x = k * 2 ^ (F.low + (d : ℤ)) := by unfold fl; rw [hk, hd]; rfl
  rw [hk] at hev hk1 hk2
  have he2 : Even (2 ^ F.frac) := (Nat.even_pow.2 ⟨even_two, by omega⟩)
  have hkev : Even k := by exact_mod_cast hev
  have hk1' : k ≤ 2 ^ (F.frac + 1) := by exact_mod_cast hk1
  have hk2' : d = 0 ∨ 2 ^ F.frac ≤ k := by
    rcases hk2 with h | h
    · exact Or.inl h
    · exact Or.inr (by exact_mod_cast h)
  have fin : ∀ m, mag F m = fl F x → m < F.inf := by
    intro m hm
    rw [← (mag_strictMono F).lt_iff_lt, hm, mag_inf F hF]
    exact ht
  rcases hk1'.lt_or_eq with hlt | heq
  · have hm := mag_of F hlt hk2'
    rw [← hfl] at hm
    exact ⟨_, fin _ hm, (he2.mul_left d).add hkev, hm⟩
  · have hm := mag_of F (d := d + 1) (k := 2 ^ F.frac) (pow_lt_pow_right₀ (by norm_num) (by omega)) (Or.inr (le_refl _))
    have e : ((2 ^ F.frac : ℕ) : ℝ) * 2 ^ (F.low + ((d + 1 : ℕ) : ℤ)) = fl F x := by
      rw [hfl, heq]
      push_cast
      rw [← add_assoc, zpow_add_one₀ (by norm_num : (2 : ℝ) ≠ 0)]
      ring
    rw [e] at hm
    exact ⟨_, fin _ hm, (he2.mul_left (d + 1)).add he2, hm⟩

end Verif.Ieee
