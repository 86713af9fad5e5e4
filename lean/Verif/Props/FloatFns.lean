import Verif.Model.FloatFns
import Verif.Lemmas.Doubles
import Mathlib.Analysis.SpecialFunctions.Exp
import Mathlib.Analysis.Complex.ExponentialBounds
import Mathlib.Analysis.SpecialFunctions.Pow.Real
import Mathlib.Analysis.SpecialFunctions.Gamma.BohrMollerup

/-!
# Property C151: `logit`, `expit`, `exp2` and `gamma` of float and integer columns
-/

namespace Verif.FloatFns
open Verif.FloatBits Verif.Ieee Verif.Pl
open Verif.Ieee.Spec

namespace Spec

/-- A library `exp` with at most a quarter of relative error (real ones have far less). -/
def GoodExp (exp : EReal → EReal) : Prop :=
  Monotone exp ∧ (∀ x, 0 ≤ exp x) ∧ exp 0 = 1 ∧
    ∀ y : ℝ, y ≤ 0 → exp y ≤ ((5 / 4 * Real.exp y : ℝ) : EReal) ∧ (-50 ≤ y → ((3 / 4 * Real.exp y : ℝ) : EReal) ≤ exp y)

/-- A library `ln`: increasing, real for positive numbers, of the right sign. -/
def GoodLn (ln : EReal → EReal) : Prop :=
  (∀ a b : ℝ, 0 < a → a ≤ b → ln a ≤ ln b) ∧ (∀ a : ℝ, 0 < a → ∃ v : ℝ, ln a = v) ∧ ln 1 = 0

/-- A library `exp2`: increasing, nonnegative, correctly rounded at integers. -/
def GoodExp2 (F : Fmt) (e : EReal → EReal) : Prop :=
  Monotone e ∧ (∀ x, 0 ≤ e x) ∧ ∀ k : ℤ, e ((k : ℝ) : EReal) = rnd F (2 ^ k)

/-- A library `tgamma`: correctly rounded at positive integers, increasing from 2 on. -/
def GoodGamma (F : Fmt) (g : Fv → Fv) : Prop :=
  (∀ n : ℕ, g (some ((n + 1 : ℝ) : EReal)) = some (rnd F n.factorial)) ∧
    ∀ x y : EReal, 2 ≤ x → x ≤ y → ∀ a, g (some x) = some a → ∃ b, g (some y) = some b ∧ a ≤ b

end Spec
open Spec

/-- The formats in use. -/
def Std (F : Fmt) : Prop := F = f32 ∨ F = f64

variable {F : Fmt}

theorem rnd_small {x : ℝ} (h : |fl F x| < 2 ^ top F) : rnd F x = (fl F x : EReal) := by
  unfold rnd; exact if_neg (not_le.2 h)

theorem top_ge (hF : Std F) : 100 ≤ top F := by
  rcases hF with rfl | rfl <;> norm_num [top, f32, f64]

theorem low_le (hF : Std F) : F.low ≤ -149 := by
  rcases hF with rfl | rfl <;> norm_num [f32, f64]

theorem rep_pow (hF : Std F) {k : ℤ} (hk : F.low ≤ k) : Rep F (2 ^ k) :=
  ⟨1, k, by rcases hF with rfl | rfl <;> norm_num [f32, f64], hk, by simp⟩

theorem fl_one (hF : Std F) : fl F 1 = 1 := by
  have := fl_rep F (rep_pow hF (k := 0) (by linarith [low_le hF]))
  simpa using this

theorem rnd_mono (hF : Std F) {x y : ℝ} (h : x ≤ y) : rnd F x ≤ rnd F y := by
  have hm := fl_mono F h
  have hp := two_zpow_pos (top F)
  have hz : fl F 0 = 0 := fl_zero F
  unfold rnd
  change (if (2 : ℝ) ^ top F ≤ |fl F x| then if 0 < x then (⊤ : EReal) else ⊥ else (fl F x : EReal)) ≤
    if (2 : ℝ) ^ top F ≤ |fl F y| then if 0 < y then (⊤ : EReal) else ⊥ else (fl F y : EReal)
  by_cases hx : (2 : ℝ) ^ top F ≤ |fl F x|
  · rw [if_pos hx]
    by_cases h0 : 0 < x
    · have h1 := fl_mono F h0.le
      have h2 := fl_mono F (h0.trans_le h).le
      rw [hz] at h1 h2
      rw [abs_of_nonneg h1] at hx
      rw [if_pos h0, if_pos (by rw [abs_of_nonneg h2]; linarith), if_pos (h0.trans_le h)]
    · rw [if_neg h0]; exact bot_le
  · rw [if_neg hx]
    by_cases hy : (2 : ℝ) ^ top F ≤ |fl F y|
    · rw [if_pos hy]
      by_cases h0 : 0 < y
      · rw [if_pos h0]; exact le_top
      · exfalso
        have h1 := fl_mono F (not_lt.1 h0)
        rw [hz] at h1
        rw [abs_of_nonpos h1] at hy
        apply hx
        rw [abs_of_nonpos (hm.trans h1)]
        linarith
    · rw [if_neg hy]; exact_mod_cast hm

theorem rnd_rep {x : ℝ} (hx : Rep F x) (h : |x| < 2 ^ top F) : rnd F x = (x : EReal) := by
  have := fl_rep F hx
  rw [rnd_small (by rwa [this]), this]

theorem rnd_one (hF : Std F) : rnd F 1 = 1 := by
  have h := rnd_rep (F := F) (x := 1) (by simpa using rep_pow hF (k := 0) (by linarith [low_le hF]))
    (by rw [abs_one]; exact one_lt_zpow₀ (by norm_num) (by linarith [top_ge hF]))
  simpa using h

theorem rnd_zero (hF : Std F) : rnd F 0 = 0 := by
  have h := rnd_rep (F := F) (x := 0) ⟨0, F.low, by simp, le_refl _, by simp⟩ (by rw [abs_zero]; exact two_zpow_pos _)
  simpa using h

theorem onePlus_ge (hF : Std F) {t : EReal} (ht : 0 ≤ t) : 1 ≤ onePlus F t := by
  unfold onePlus
  split_ifs with h
  · exact le_top
  · rw [← rnd_one hF]
    exact rnd_mono hF (by linarith [EReal.toReal_nonneg ht])

theorem onePlus_mono (hF : Std F) {s t : EReal} (hs : 0 ≤ s) (h : s ≤ t) : onePlus F s ≤ onePlus F t := by
  unfold onePlus
  by_cases ht : t = ⊤
  · rw [if_pos ht]; exact le_top
  · have hs' : s ≠ ⊤ := fun e => ht (top_le_iff.1 (e ▸ h))
    rw [if_neg ht, if_neg hs']
    refine rnd_mono hF ?_
    have := EReal.toReal_le_toReal h (fun e => by rw [e] at hs; simp at hs) ht
    linarith

theorem one_le_toReal {s : EReal} (h : 1 ≤ s) (ht : s ≠ ⊤) : 1 ≤ s.toReal := by
  induction s with
  | bot => exact absurd (le_bot_iff.1 h) (by decide)
  | coe x => exact_mod_cast h
  | top => exact absurd rfl ht

theorem recip_range (hF : Std F) {s : EReal} (h : 1 ≤ s) : 0 ≤ recip F s ∧ recip F s ≤ 1 := by
  unfold recip
  split_ifs with ht
  · exact ⟨le_refl _, zero_le_one⟩
  · have h1 := one_le_toReal h ht
    rw [← rnd_zero hF]
    refine ⟨rnd_mono hF (by positivity), ?_⟩
    rw [← rnd_one hF]
    exact rnd_mono hF ((div_le_one (by linarith)).2 h1)

theorem recip_anti (hF : Std F) {s t : EReal} (hs : 1 ≤ s) (h : s ≤ t) : recip F t ≤ recip F s := by
  by_cases ht : t = ⊤
  · rw [show recip F t = 0 by unfold recip; rw [if_pos ht]]
    exact (recip_range hF hs).1
  · have hs' : s ≠ ⊤ := fun e => ht (top_le_iff.1 (e ▸ h))
    unfold recip
    rw [if_neg ht, if_neg hs']
    refine rnd_mono hF (one_div_le_one_div_of_le (by linarith [one_le_toReal hs hs']) ?_)
    exact EReal.toReal_le_toReal h (fun e => by rw [e] at hs; exact absurd (le_bot_iff.1 hs) (by decide)) ht

/-- **C151.**  `expit` of a float column: NaN stays, everything else lies between 0 and 1, is increasing in the value, and is one
half at 0; whatever the library's `exp`, as long as it is increasing, nonnegative and right at 0. -/
theorem expit_float (hF : Std F) {exp : EReal → EReal} (he : GoodExp exp) :
    expit F exp none = none ∧
      (∀ x, ∃ p, expit F exp (some x) = some p ∧ 0 ≤ p ∧ p ≤ 1 ∧
        ∀ y, x ≤ y → ∃ q, expit F exp (some y) = some q ∧ p ≤ q) ∧
      expit F exp (some 0) = some ((1 / 2 : ℝ) : EReal) := by
  obtain ⟨hm, h0, h1, -⟩ := he
  refine ⟨rfl, fun x => ⟨_, rfl, (recip_range hF (onePlus_ge hF (h0 _))).1, (recip_range hF (onePlus_ge hF (h0 _))).2,
    fun y hxy => ⟨_, rfl, recip_anti hF (onePlus_ge hF (h0 _)) (onePlus_mono hF (h0 _) (hm (EReal.neg_le_neg_iff.2 hxy)))⟩⟩, ?_⟩
  change some (recip F (onePlus F (exp (-0)))) = _
  have e1 : onePlus F 1 = ((2 : ℝ) : EReal) := by
    unfold onePlus
    rw [if_neg (by exact EReal.coe_ne_top 1), show (1 : EReal).toReal = 1 from EReal.toReal_one]
    rw [rnd_rep (by norm_num; simpa using rep_pow hF (k := 1) (by linarith [low_le hF]))]
    · norm_num
    · rw [show |(1 + 1 : ℝ)| = 2 ^ (1 : ℤ) by norm_num]
      exact zpow_lt_zpow_right₀ (by norm_num) (by linarith [top_ge hF])
  rw [neg_zero, h1, e1]
  unfold recip
  rw [if_neg (EReal.coe_ne_top 2), EReal.toReal_coe, rnd_rep]
  · simpa using rep_pow hF (k := -1) (by linarith [low_le hF])
  · rw [show |(1 / 2 : ℝ)| = 2 ^ (-1 : ℤ) by norm_num]
    exact zpow_lt_zpow_right₀ (by norm_num) (by linarith [top_ge hF])

theorem ulp_one (hF : Std F) {z : ℝ} (h1 : 1 ≤ z) (h2 : z < 2) : ulp F z = -(F.frac : ℤ) := by
  have hfl : ⌊z⌋₊ = 1 := by
    rw [Nat.floor_eq_iff (by linarith)]
    constructor
    · exact_mod_cast h1
    · norm_num; linarith
  have hl : Int.log 2 |z| = 0 := by
    rw [abs_of_pos (by linarith), Int.log_of_one_le_right _ h1, hfl]; simp
  unfold ulp
  rw [hl]
  rcases hF with rfl | rfl <;> norm_num [f32, f64]

theorem div_ulp (n : ℕ) (t : ℝ) : (1 + t) / 2 ^ (-(n : ℤ)) = 2 ^ n + t * 2 ^ n := by
  rw [zpow_neg, div_inv_eq_mul, zpow_natCast]; ring

theorem half_pow (n : ℕ) : (2 : ℝ) ^ (-((n : ℤ) + 1)) * 2 ^ n = 1 / 2 := by
  rw [← zpow_natCast, ← zpow_add₀ (by norm_num)]
  rw [show -((n : ℤ) + 1) + n = -1 by ring]; norm_num

theorem half_lt_one (n : ℕ) : (2 : ℝ) ^ (-((n : ℤ) + 1)) < 1 := zpow_lt_one_of_neg₀ (by norm_num) (by omega)

theorem fl_tie_one (hF : Std F) : fl F (1 + 2 ^ (-((F.frac : ℤ) + 1))) = 1 := by
  have hp := two_zpow_pos (-((F.frac : ℤ) + 1))
  have hu := ulp_one hF (z := 1 + 2 ^ (-((F.frac : ℤ) + 1))) (by linarith) (by linarith [half_lt_one F.frac])
  unfold fl
  rw [hu, div_ulp, half_pow]
  have hf : ⌊(2 ^ F.frac + 1 / 2 : ℝ)⌋ = 2 ^ F.frac := by
    rw [Int.floor_eq_iff]; push_cast; constructor <;> linarith
  have hr : Int.fract (2 ^ F.frac + 1 / 2 : ℝ) = 1 / 2 := by
    rw [Int.fract, hf]; push_cast; ring
  unfold rne
  have hev : Even ((2 : ℤ) ^ F.frac) := Int.even_pow.2 ⟨even_two, by rcases hF with rfl | rfl <;> norm_num [f32, f64]⟩
  rw [hr, hf, if_neg (lt_irrefl _), if_neg (lt_irrefl _), if_pos hev]
  push_cast
  rw [← zpow_natCast, ← zpow_add₀ (by norm_num)]
  simp

theorem fl_above_one (hF : Std F) {t : ℝ} (h : (2 : ℝ) ^ (-((F.frac : ℤ) + 1)) < t) :
    1 + (2 : ℝ) ^ (-(F.frac : ℤ)) ≤ fl F (1 + t) := by
  have hp := two_zpow_pos (-((F.frac : ℤ) + 1))
  have hle : (2 : ℝ) ^ (-(F.frac : ℤ)) ≤ 1 := zpow_le_one_of_nonpos₀ (by norm_num) (by omega)
  rcases lt_or_ge t 1 with h1 | h1
  · have hu := ulp_one hF (z := 1 + t) (by linarith) (by linarith)
    unfold fl
    rw [hu, div_ulp]
    have hq : (0 : ℝ) < 2 ^ F.frac := by positivity
    have h2 : (1 : ℝ) / 2 < t * 2 ^ F.frac := by
      rw [← half_pow F.frac]; exact mul_lt_mul_of_pos_right h hq
    have h3 := abs_le.1 (rne_err (2 ^ F.frac + t * 2 ^ F.frac))
    have h4 : ((2 ^ F.frac : ℤ) : ℝ) < rne (2 ^ F.frac + t * 2 ^ F.frac) := by push_cast; linarith [h3.1]
    have h5 : (2 : ℤ) ^ F.frac + 1 ≤ rne (2 ^ F.frac + t * 2 ^ F.frac) := by
      have : (2 ^ F.frac : ℤ) < rne (2 ^ F.frac + t * 2 ^ F.frac) := by exact_mod_cast h4
      omega
    have h6 : (2 : ℝ) ^ F.frac + 1 ≤ rne (2 ^ F.frac + t * 2 ^ F.frac) := by exact_mod_cast h5
    have h7 := mul_le_mul_of_nonneg_right h6 (two_zpow_pos (-(F.frac : ℤ))).le
    refine le_trans (le_of_eq ?_) h7
    rw [add_mul, ← zpow_natCast, ← zpow_add₀ (by norm_num)]
    simp
  · have h2 : fl F 2 = 2 := by simpa using fl_rep F (rep_pow hF (k := 1) (by linarith [low_le hF]))
    have := fl_mono F (show (2 : ℝ) ≤ 1 + t by linarith)
    rw [h2] at this
    linarith

theorem onePlus_one_iff (hF : Std F) {t : EReal} (ht : 0 ≤ t) :
    (t ≤ ((2 ^ (-((F.frac : ℤ) + 1)) : ℝ) : EReal) → onePlus F t = 1) ∧
      (((2 ^ (-((F.frac : ℤ) + 1)) : ℝ) : EReal) < t → ((1 + 2 ^ (-(F.frac : ℤ)) : ℝ) : EReal) ≤ onePlus F t) := by
  induction t with
  | bot => simp at ht
  | top =>
    refine ⟨fun h => absurd (top_le_iff.1 h) (EReal.coe_ne_top _), fun _ => ?_⟩
    unfold onePlus; rw [if_pos rfl]; exact le_top
  | coe t =>
    have h0 : 0 ≤ t := by exact_mod_cast ht
    unfold onePlus
    rw [if_neg (EReal.coe_ne_top t), EReal.toReal_coe]
    constructor
    · intro h
      have h' : t ≤ 2 ^ (-((F.frac : ℤ) + 1)) := by exact_mod_cast h
      have e : fl F (1 + t) = 1 := by
        refine le_antisymm ?_ ?_
        · have := fl_mono F (show 1 + t ≤ 1 + 2 ^ (-((F.frac : ℤ) + 1)) by linarith)
          rwa [fl_tie_one hF] at this
        · have := fl_mono F (show (1 : ℝ) ≤ 1 + t by linarith)
          rwa [fl_one hF] at this
      rw [rnd_small (by rw [e, abs_one]; exact one_lt_zpow₀ (by norm_num) (by linarith [top_ge hF])), e]
      rfl
    · intro h
      have h' : (2 : ℝ) ^ (-((F.frac : ℤ) + 1)) < t := by exact_mod_cast h
      have h1 := fl_above_one hF h'
      unfold rnd
      split_ifs with h2 h3
      · exact le_top
      · exact absurd (by linarith) h3
      · exact_mod_cast h1

theorem recip_below (hF : Std F) {s : EReal} (h : ((1 + 2 ^ (-(F.frac : ℤ)) : ℝ) : EReal) ≤ s) : recip F s < 1 := by
  have hp := two_zpow_pos (-((F.frac : ℤ) + 1))
  have hlt := half_lt_one F.frac
  have hrep : Rep F (1 - 2 ^ (-((F.frac : ℤ) + 1))) := by
    refine ⟨2 ^ (F.frac + 1) - 1, -((F.frac : ℤ) + 1), ?_, ?_, ?_⟩
    · have : (1 : ℤ) ≤ 2 ^ (F.frac + 1) := one_le_pow₀ (by norm_num)
      rw [abs_of_nonneg (by linarith)]; linarith
    · rcases hF with rfl | rfl <;> norm_num [f32, f64]
    · push_cast
      rw [sub_mul, ← zpow_natCast, ← zpow_add₀ (by norm_num)]
      push_cast
      simp
  have hr := rnd_rep hrep (by
    rw [abs_of_pos (by linarith)]
    exact lt_of_lt_of_le (by linarith) (one_le_zpow₀ (by norm_num : (1 : ℝ) ≤ 2) (by linarith [top_ge hF])))
  have hb : (((1 - 2 ^ (-((F.frac : ℤ) + 1)) : ℝ)) : EReal) < 1 := by
    rw [← EReal.coe_one, EReal.coe_lt_coe_iff]; linarith only [hp]
  refine lt_of_le_of_lt ?_ hb
  rw [← hr]
  unfold recip
  split_ifs with ht
  · rw [← rnd_zero hF]; exact rnd_mono hF (by linarith)
  · refine rnd_mono hF ?_
    have hs : 1 + (2 : ℝ) ^ (-(F.frac : ℤ)) ≤ s.toReal := by
      have := EReal.toReal_le_toReal h (EReal.coe_ne_bot _) ht
      rwa [EReal.toReal_coe] at this
    have e : (2 : ℝ) ^ (-(F.frac : ℤ)) = 2 * 2 ^ (-((F.frac : ℤ) + 1)) := by
      rw [neg_add, zpow_add₀ (by norm_num)]; norm_num; ring
    rw [e] at hs
    have hu2 : (2 : ℝ) ^ (-((F.frac : ℤ) + 1)) ≤ 1 / 2 := by
      rw [show (1 / 2 : ℝ) = 2 ^ (-1 : ℤ) by norm_num]
      exact zpow_le_zpow_right₀ (by norm_num) (by omega)
    generalize (2 : ℝ) ^ (-((F.frac : ℤ) + 1)) = u at *
    rw [div_le_iff₀ (by linarith)]
    nlinarith

/-- `expit` is exactly 1 as soon as the exponential is lost in the sum. -/
theorem expit_one_iff (hF : Std F) {exp : EReal → EReal} (h0 : ∀ x, 0 ≤ exp x) (x : EReal) :
    expit F exp (some x) = some 1 ↔ exp (-x) ≤ ((2 ^ (-((F.frac : ℤ) + 1)) : ℝ) : EReal) := by
  change some (recip F (onePlus F (exp (-x)))) = some 1 ↔ _
  obtain ⟨h1, h2⟩ := onePlus_one_iff hF (h0 (-x))
  constructor
  · intro h
    by_contra hc
    have := recip_below hF (h2 (not_le.1 hc))
    rw [Option.some.inj h] at this
    exact lt_irrefl _ this
  · intro h
    rw [h1 h]
    unfold recip
    rw [if_neg (by exact EReal.coe_ne_top 1), show (1 : EReal).toReal = 1 from EReal.toReal_one, one_div_one, rnd_one hF]

theorem exp_bounds : 5 / 4 * 2 ^ 53 ≤ Real.exp 37 ∧ Real.exp 36 < 3 / 4 * 2 ^ 53 ∧ 5 / 4 * 2 ^ 24 ≤ Real.exp 17 ∧
    Real.exp 16 < 3 / 4 * 2 ^ 24 := by
  have h1 := Real.exp_one_gt_d9
  have h2 := Real.exp_one_lt_d9
  have e : ∀ n : ℕ, Real.exp n = Real.exp 1 ^ n := fun n => by rw [← Real.exp_nat_mul, mul_one]
  have lo : ∀ n : ℕ, (2.7182818283 : ℝ) ^ n ≤ Real.exp n := fun n => by
    rw [e]; exact pow_le_pow_left₀ (by norm_num) h1.le n
  have hi : ∀ n : ℕ, Real.exp n ≤ (2.7182818286 : ℝ) ^ n := fun n => by
    rw [e]; exact pow_le_pow_left₀ (Real.exp_pos 1).le h2.le n
  refine ⟨?_, ?_, ?_, ?_⟩
  · have := lo 37; push_cast at this; refine le_trans ?_ this; norm_num
  · have := hi 36; push_cast at this; refine lt_of_le_of_lt this ?_; norm_num
  · have := lo 17; push_cast at this; refine le_trans ?_ this; norm_num
  · have := hi 16; push_cast at this; refine lt_of_le_of_lt this ?_; norm_num

theorem exp_up {exp : EReal → EReal} (he : GoodExp exp) {a : ℝ} (ha : 0 ≤ a) {n : ℕ} (h : 5 / 4 * 2 ^ n ≤ Real.exp a) {x : EReal}
    (hx : (a : EReal) ≤ x) : exp (-x) ≤ ((2 ^ (-(n : ℤ)) : ℝ) : EReal) := by
  obtain ⟨hm, -, -, hb⟩ := he
  refine (hm (EReal.neg_le_neg_iff.2 hx)).trans ?_
  rw [← EReal.coe_neg]
  refine (hb (-a) (by linarith)).1.trans ?_
  rw [EReal.coe_le_coe_iff, Real.exp_neg, zpow_neg, zpow_natCast]
  have h1 := Real.exp_pos a
  have h2 : (0 : ℝ) < 2 ^ n := by positivity
  rw [← one_div, ← one_div, mul_one_div, div_le_div_iff₀ h1 h2]
  linarith

theorem exp_down {exp : EReal → EReal} (he : GoodExp exp) {a : ℝ} (ha : 0 ≤ a) (ha' : a ≤ 50) {n : ℕ}
    (h : Real.exp a < 3 / 4 * 2 ^ n) {x : EReal} (hx : x ≤ a) : ((2 ^ (-(n : ℤ)) : ℝ) : EReal) < exp (-x) := by
  obtain ⟨hm, -, -, hb⟩ := he
  refine lt_of_lt_of_le ?_ (hm (EReal.neg_le_neg_iff.2 hx))
  rw [← EReal.coe_neg]
  refine lt_of_lt_of_le ?_ ((hb (-a) (by linarith)).2 (by linarith))
  rw [EReal.coe_lt_coe_iff, Real.exp_neg, zpow_neg, zpow_natCast]
  have h1 := Real.exp_pos a
  have h2 : (0 : ℝ) < 2 ^ n := by positivity
  rw [← one_div, ← one_div, mul_one_div, div_lt_div_iff₀ h2 h1]
  linarith

/-- **C151.**  `expit` of a double is exactly 1 from 37 on and below 1 up to 36: `logit` of it is infinite from 37 on. -/
theorem expit_double_saturates {exp ln : EReal → EReal} (he : GoodExp exp) (x : EReal) :
    ((37 : ℝ) ≤ x → expit f64 exp (some x) = some 1 ∧ logit f64 ln (expit f64 exp (some x)) = some ⊤) ∧
      (x ≤ (36 : ℝ) → expit f64 exp (some x) ≠ some 1) := by
  obtain ⟨b1, b2, -, -⟩ := exp_bounds
  have hi := expit_one_iff (F := f64) (.inr rfl) he.2.1 x
  constructor
  · intro h
    have e := hi.2 (exp_up he (by norm_num) (n := 53) b1 h)
    refine ⟨e, ?_⟩
    rw [e]; simp [logit]
  · intro h hc
    exact absurd (hi.1 hc) (not_le.2 (exp_down he (by norm_num) (by norm_num) (n := 53) b2 h))

theorem fl_int32 (i : ℤ) (hi : |i| ≤ 2 ^ 24) : rnd f32 i = ((i : ℝ) : EReal) := by
  refine rnd_rep (by simpa using rep_le f32 (m := i) (e := 0) (by simpa [f32] using hi) (by norm_num [f32])) ?_
  rw [← Int.cast_abs]
  calc ((|i| : ℤ) : ℝ) ≤ 2 ^ (24 : ℤ) := by exact_mod_cast hi
    _ < _ := zpow_lt_zpow_right₀ (by norm_num) (by norm_num [top, f32])

/-- The cast of an integer keeps the order with small integers. -/
theorem cast_le (i : ℤ) {a : ℤ} (ha : |a| ≤ 2 ^ 24) : (a ≤ i → ((a : ℝ) : EReal) ≤ rnd f32 i) ∧ (i ≤ a → rnd f32 i ≤ ((a : ℝ) : EReal)) := by
  rw [← fl_int32 a ha]
  exact ⟨fun h => rnd_mono (.inl rfl) (by exact_mod_cast h), fun h => rnd_mono (.inl rfl) (by exact_mod_cast h)⟩

/-- **C151.**  `expit` of an integer column is computed in 32 bits: exactly 1 for 17 and above, not for 16 and below. -/
theorem expit_int {e32 e64 : EReal → EReal} (he : GoodExp e32) (c : Col ℤ) :
    ∃ r, plExpit e32 e64 (.int c) = .float32 r ∧
      List.Forall₂ (fun a b => (a = none ↔ b = none) ∧ ∀ i, a = some i → ∃ p, b = some (some p) ∧ 0 ≤ p ∧ p ≤ 1 ∧ (p = 1 ↔ 17 ≤ i)) c r := by
  obtain ⟨-, -, b1, b2⟩ := exp_bounds
  refine ⟨_, rfl, ?_⟩
  unfold map1
  rw [List.forall₂_map_right_iff, List.forall₂_same]
  rintro (- | i) -
  · simp
  · refine ⟨by simp, fun j hj => ?_⟩
    cases hj
    obtain ⟨-, hr, -⟩ := expit_float (F := f32) (.inl rfl) he
    obtain ⟨p, hp, h0, h1, -⟩ := hr (rnd f32 i)
    refine ⟨p, by rw [Option.map_some, hp], h0, h1, ?_⟩
    have hi := expit_one_iff (F := f32) (.inl rfl) he.2.1 (rnd f32 i)
    rw [hp, Option.some_inj] at hi
    rw [hi]
    constructor
    · intro h
      by_contra hc
      have hle := (cast_le i (a := 16) (by norm_num)).2 (by omega)
      exact absurd h (not_le.2 (exp_down he (by norm_num) (by norm_num) (n := 24) b2 (by exact_mod_cast hle)))
    · intro h
      have hle := (cast_le i (a := 17) (by norm_num)).1 h
      exact exp_up he (by norm_num) (n := 24) b1 (by exact_mod_cast hle)

/-- A library that meets the demands: the exact functions. -/
noncomputable def exactExp (x : EReal) : EReal := if x = ⊥ then 0 else if x = ⊤ then ⊤ else (Real.exp x.toReal : EReal)

theorem exactExp_coe (y : ℝ) : exactExp y = (Real.exp y : EReal) := by
  unfold exactExp; rw [if_neg (EReal.coe_ne_bot y), if_neg (EReal.coe_ne_top y), EReal.toReal_coe]

theorem exactExp_good : GoodExp exactExp := by
  have hn : ∀ x, 0 ≤ exactExp x := fun x => by
    unfold exactExp
    split_ifs
    · exact le_refl _
    · exact le_top
    · exact_mod_cast (Real.exp_pos _).le
  refine ⟨fun x y h => ?_, hn, ?_, fun y _ => ?_⟩
  · by_cases a : x = ⊥
    · rw [show exactExp x = 0 by unfold exactExp; rw [if_pos a]]; exact hn y
    · by_cases b : y = ⊤
      · rw [show exactExp y = ⊤ by unfold exactExp; rw [if_neg (by rw [b]; decide), if_pos b]]; exact le_top
      · have a' : y ≠ ⊥ := fun e => a (le_bot_iff.1 (e ▸ h))
        have b' : x ≠ ⊤ := fun e => b (top_le_iff.1 (e ▸ h))
        unfold exactExp
        rw [if_neg a, if_neg b', if_neg a', if_neg b]
        exact EReal.coe_le_coe_iff.2 (Real.exp_le_exp.2 (EReal.toReal_le_toReal h a b))
  · have := exactExp_coe 0
    rw [Real.exp_zero] at this
    exact_mod_cast this
  · rw [exactExp_coe, EReal.coe_le_coe_iff, EReal.coe_le_coe_iff]
    have := Real.exp_pos y
    exact ⟨by linarith, fun _ => by linarith⟩

example : ∃ r, plExpit exactExp exactExp (.int [some 3, none, some 40]) = .float32 r ∧ ∃ a b, r = [some (some a), none, some (some b)] ∧
    a ≠ 1 ∧ b = 1 := by
  obtain ⟨r, h1, h2⟩ := expit_int (e64 := exactExp) exactExp_good [some 3, none, some 40]
  refine ⟨r, h1, ?_⟩
  cases h2 with
  | cons h2 t => cases t with
    | cons h3 t => cases t with
      | cons h4 t =>
        cases t
        obtain ⟨a, ha, -, -, ha'⟩ := h2.2 3 rfl
        obtain ⟨b, hb, -, -, hb'⟩ := h4.2 40 rfl
        rw [ha, hb, h3.1.1 rfl]
        exact ⟨a, b, rfl, fun h => absurd (ha'.1 h) (by norm_num), hb'.2 (by norm_num)⟩

example : expit f64 exactExp (some ((1000 : ℝ) : EReal)) = some 1 ∧ expit f64 exactExp (some ((2 : ℝ) : EReal)) ≠ some 1 ∧
    expit f64 exactExp (some 0) = some ((1 / 2 : ℝ) : EReal) :=
  ⟨((expit_double_saturates (ln := id) exactExp_good _).1 (EReal.coe_le_coe_iff.2 (by norm_num))).1,
    (expit_double_saturates (ln := id) exactExp_good _).2 (EReal.coe_le_coe_iff.2 (by norm_num)),
    (expit_float (.inr rfl) exactExp_good).2.2⟩

/-! ### `logit` -/

theorem one_sub_ge (hF : Std F) {x : ℝ} (hx : Rep F x) (h1 : x < 1) : (2 : ℝ) ^ (-((F.frac : ℤ) + 1)) ≤ fl F (1 - x) := by
  have hl : F.low ≤ -((F.frac : ℤ) + 1) := by rcases hF with rfl | rfl <;> norm_num [f32, f64]
  rw [← fl_rep F (rep_pow hF hl)]
  apply fl_mono
  rcases lt_or_ge x (1 / 2) with h2 | h2
  · have : (2 : ℝ) ^ (-((F.frac : ℤ) + 1)) ≤ 1 / 2 := by
      rw [show (1 / 2 : ℝ) = 2 ^ (-1 : ℤ) by norm_num]
      exact zpow_le_zpow_right₀ (by norm_num) (by omega)
    linarith
  · obtain ⟨m, e, hm, -, rfl⟩ := hx
    have hm0 : 0 < m := by
      by_contra hc
      have : (m : ℝ) ≤ 0 := by exact_mod_cast not_lt.1 hc
      have := mul_nonpos_of_nonpos_of_nonneg this (two_zpow_pos e).le
      linarith
    rw [abs_of_pos hm0] at hm
    have he : -((F.frac : ℤ) + 1) ≤ e := by
      by_contra hc
      have h3 : (2 : ℝ) ^ e ≤ 2 ^ (-((F.frac : ℤ) + 2)) := zpow_le_zpow_right₀ (by norm_num) (by omega)
      have h4 : (m : ℝ) < 2 ^ (F.frac + 1) := by exact_mod_cast hm
      have h5 : (m : ℝ) * 2 ^ e < 2 ^ (F.frac + 1) * 2 ^ (-((F.frac : ℤ) + 2)) :=
        mul_lt_mul h4 h3 (two_zpow_pos e) (by positivity)
      rw [← zpow_natCast, ← zpow_add₀ (by norm_num)] at h5
      rw [show ((F.frac + 1 : ℕ) : ℤ) + -((F.frac : ℤ) + 2) = -1 by push_cast; ring] at h5
      norm_num at h5
      linarith
    obtain ⟨j, hj⟩ := Int.eq_ofNat_of_zero_le (by omega : 0 ≤ e + ((F.frac : ℤ) + 1))
    have e1 : (2 : ℝ) ^ e = 2 ^ j * 2 ^ (-((F.frac : ℤ) + 1)) := by
      rw [← zpow_natCast, ← zpow_add₀ (by norm_num)]; congr 1; omega
    have e2 : (1 : ℝ) = 2 ^ (F.frac + 1) * 2 ^ (-((F.frac : ℤ) + 1)) := by
      rw [← zpow_natCast, ← zpow_add₀ (by norm_num)]; push_cast; simp
    have hp := two_zpow_pos (-((F.frac : ℤ) + 1))
    have h6 : (m : ℝ) * 2 ^ j < 2 ^ (F.frac + 1) := by
      rw [e1, ← mul_assoc] at h1
      rw [e2] at h1
      exact lt_of_mul_lt_mul_right h1 hp.le
    have h7 : m * 2 ^ j + 1 ≤ 2 ^ (F.frac + 1) := by
      have : m * 2 ^ j < 2 ^ (F.frac + 1) := by exact_mod_cast h6
      omega
    have h8 : (m : ℝ) * 2 ^ j + 1 ≤ 2 ^ (F.frac + 1) := by exact_mod_cast h7
    rw [e1, ← mul_assoc]
    rw [e2]
    rw [← sub_mul]
    nlinarith

/-- The quotient inside `logit` is a positive float, in the order of `x`, at most 1 iff up to one half. -/
theorem logit_quot (hF : Std F) {x : ℝ} (hx : Rep F x) (h0 : 0 < x) (h1 : x < 1) :
    ∃ q : ℝ, rnd F (x / fl F (1 - x)) = q ∧ 0 < q ∧ (x ≤ 1 / 2 → q ≤ 1) ∧ (1 / 2 ≤ x → 1 ≤ q) := by
  have hd := one_sub_ge hF hx h1
  have hp := two_zpow_pos (-((F.frac : ℤ) + 1))
  have hd1 : fl F (1 - x) ≤ 1 := by
    have := fl_mono F (show 1 - x ≤ 1 by linarith); rwa [fl_one hF] at this
  have hd0 : 0 < fl F (1 - x) := lt_of_lt_of_le hp hd
  have hfx := fl_rep F hx
  have hlow : x ≤ fl F (x / fl F (1 - x)) := by
    have h := fl_mono F (show x ≤ x / fl F (1 - x) by rw [le_div_iff₀ hd0]; nlinarith)
    rwa [hfx] at h
  have hup : fl F (x / fl F (1 - x)) ≤ 2 ^ ((F.frac : ℤ) + 1) := by
    have hl : F.low ≤ (F.frac : ℤ) + 1 := by linarith [low_le hF, Int.natCast_nonneg F.frac]
    rw [← fl_rep F (rep_pow hF hl)]
    apply fl_mono
    rw [div_le_iff₀ hd0]
    have : (2 : ℝ) ^ ((F.frac : ℤ) + 1) * 2 ^ (-((F.frac : ℤ) + 1)) = 1 := by
      rw [← zpow_add₀ (by norm_num)]; simp
    have := mul_le_mul_of_nonneg_left hd (two_zpow_pos ((F.frac : ℤ) + 1)).le
    linarith
  have htop : (2 : ℝ) ^ ((F.frac : ℤ) + 1) < 2 ^ top F :=
    zpow_lt_zpow_right₀ (by norm_num) (by rcases hF with rfl | rfl <;> norm_num [top, f32, f64])
  refine ⟨fl F (x / fl F (1 - x)), rnd_small ?_, by linarith, fun h => ?_, fun h => ?_⟩
  · rw [abs_of_pos (by linarith)]; linarith
  · have h2 := fl_mono F (show x ≤ 1 - x by linarith)
    rw [hfx] at h2
    have := fl_mono F ((div_le_one hd0).2 h2)
    rwa [fl_one hF] at this
  · have h2 := fl_mono F (show 1 - x ≤ x by linarith)
    rw [hfx] at h2
    have := fl_mono F ((one_le_div hd0).2 h2)
    rwa [fl_one hF] at this

/-- **C151.**  `logit` of a float: NaN outside `[0, 1]` and for NaN, the infinities exactly at 0 and 1, and in between a number of
the right sign that increases with the value. -/
theorem logit_float (hF : Std F) {ln : EReal → EReal} (hl : GoodLn ln) :
    logit F ln none = none ∧ (∀ x : EReal, x < 0 ∨ 1 < x → logit F ln (some x) = none) ∧
      logit F ln (some 0) = some ⊥ ∧ logit F ln (some 1) = some ⊤ ∧
      ∀ x y : ℝ, Rep F x → Rep F y → 0 < x → x ≤ y → y < 1 → ∃ u v : ℝ, logit F ln (some x) = some (u : EReal) ∧
        logit F ln (some y) = some (v : EReal) ∧ u ≤ v ∧ (x ≤ 1 / 2 → u ≤ 0) ∧ (1 / 2 ≤ x → 0 ≤ u) := by
  obtain ⟨l1, l2, l3⟩ := hl
  refine ⟨rfl, fun x hx => ?_, by simp [logit], by simp [logit], ?_⟩
  · unfold logit
    dsimp only
    rw [if_neg (by rintro rfl; rcases hx with h | h <;> [exact lt_irrefl _ h; exact absurd h (by exact_mod_cast (by norm_num))]),
      if_neg (by rintro rfl; rcases hx with h | h <;> [exact absurd h (by exact_mod_cast (by norm_num)); exact lt_irrefl _ h]), if_pos hx]
  · have key : ∀ x : ℝ, Rep F x → 0 < x → x < 1 → ∃ q v : ℝ, rnd F (x / fl F (1 - x)) = q ∧ 0 < q ∧ ln q = v ∧
        logit F ln (some x) = some (v : EReal) ∧ (x ≤ 1 / 2 → q ≤ 1) ∧ (1 / 2 ≤ x → 1 ≤ q) := by
      intro x hx h0 h1
      obtain ⟨q, hq, hq0, hq1, hq2⟩ := logit_quot hF hx h0 h1
      obtain ⟨v, hv⟩ := l2 q hq0
      refine ⟨q, v, hq, hq0, hv, ?_, hq1, hq2⟩
      unfold logit
      dsimp only
      rw [if_neg (by exact_mod_cast h0.ne'), if_neg (by exact_mod_cast h1.ne),
        if_neg (by rw [not_or, not_lt, not_lt]; exact ⟨by exact_mod_cast h0.le, by exact_mod_cast h1.le⟩)]
      unfold logitIn
      rw [EReal.toReal_coe, hq, hv]
    intro x y hx hy h0 hxy h1
    obtain ⟨q, u, e1, e2, e3, e4, e5, e6⟩ := key x hx h0 (by linarith)
    obtain ⟨q', v, f1, f2, f3, f4, -, -⟩ := key y hy (by linarith) h1
    refine ⟨u, v, e4, f4, ?_, fun h => ?_, fun h => ?_⟩
    · have hqq : q ≤ q' := by
        rw [← EReal.coe_le_coe_iff, ← e1, ← f1]
        refine rnd_mono hF ?_
        have hd' := lt_of_lt_of_le (two_zpow_pos _) (one_sub_ge hF hy h1)
        exact div_le_div₀ (by linarith) hxy hd' (fl_mono F (by linarith))
      rw [← EReal.coe_le_coe_iff, ← e3, ← f3]
      exact l1 q q' e2 hqq
    · have := l1 q 1 e2 (e5 h)
      rw [EReal.coe_one, l3, e3] at this
      exact_mod_cast this
    · have := l1 1 q one_pos (e6 h)
      rw [EReal.coe_one, l3, e3] at this
      exact_mod_cast this

/-- The exact logarithm. -/
noncomputable def exactLn (x : EReal) : EReal := (Real.log x.toReal : EReal)

theorem exactLn_good : GoodLn exactLn := by
  refine ⟨fun a b ha h => ?_, fun a _ => ⟨Real.log a, rfl⟩, ?_⟩
  · change ((Real.log a : ℝ) : EReal) ≤ ((Real.log b : ℝ) : EReal)
    exact EReal.coe_le_coe_iff.2 (Real.log_le_log ha h)
  · unfold exactLn; rw [EReal.toReal_one, Real.log_one]; rfl

example : ∃ u v : ℝ, logit f64 exactLn (some ((1 / 4 : ℝ) : EReal)) = some (u : EReal) ∧
    logit f64 exactLn (some ((3 / 4 : ℝ) : EReal)) = some (v : EReal) ∧ u ≤ v ∧ u ≤ 0 := by
  obtain ⟨u, v, h1, h2, h3, h4, -⟩ := (logit_float (F := f64) (.inr rfl) exactLn_good).2.2.2.2 (1 / 4) (3 / 4)
    ⟨1, -2, by norm_num [f64], by norm_num [f64], by norm_num⟩ ⟨3, -2, by norm_num [f64], by norm_num [f64], by norm_num⟩
    (by norm_num) (by norm_num) (by norm_num)
  exact ⟨u, v, h1, h2, h3, h4 (by norm_num)⟩

/-! ### `exp2` and `gamma` -/

theorem rnd_pow (hF : Std F) (k : ℤ) :
    (F.low ≤ k → k < top F → rnd F (2 ^ k) = ((2 ^ k : ℝ) : EReal)) ∧ (top F ≤ k → rnd F (2 ^ k) = ⊤) := by
  constructor
  · intro h1 h2
    refine rnd_rep (rep_pow hF h1) ?_
    rw [abs_of_pos (two_zpow_pos k)]
    exact zpow_lt_zpow_right₀ (by norm_num) h2
  · intro h
    have hl : F.low ≤ k := by linarith [top_ge hF, low_le hF]
    have e := fl_rep F (rep_pow hF hl)
    unfold rnd
    rw [e, abs_of_pos (two_zpow_pos k)]
    rw [if_pos (by exact zpow_le_zpow_right₀ (by norm_num) h), if_pos (two_zpow_pos k)]

theorem rnd_tiny : rnd f32 (2 ^ (-150 : ℤ)) = 0 := by
  have hl : Int.log 2 |(2 : ℝ) ^ (-150 : ℤ)| = -150 := by
    rw [abs_of_pos (two_zpow_pos _)]
    exact_mod_cast Int.log_zpow (R := ℝ) (b := 2) (by norm_num) (-150)
  have hu : ulp f32 (2 ^ (-150 : ℤ)) = -149 := by
    unfold ulp; rw [hl]; norm_num [f32]
  have e : fl f32 (2 ^ (-150 : ℤ)) = 0 := by
    unfold fl
    rw [hu, ← zpow_sub₀ (by norm_num)]
    have hf : ⌊((2 : ℝ) ^ (-150 - -149 : ℤ))⌋ = 0 := by
      rw [Int.floor_eq_iff]; norm_num
    have hr : Int.fract ((2 : ℝ) ^ (-150 - -149 : ℤ)) = 1 / 2 := by
      rw [Int.fract, hf]; norm_num
    unfold rne
    rw [hr, hf, if_neg (lt_irrefl _), if_neg (lt_irrefl _), if_pos Even.zero]
    simp
  rw [rnd_small (by rw [e, abs_zero]; exact two_zpow_pos _), e]
  rfl

/-- **C151.**  `exp2` of an integer column is exact from -149 to 127, 0 below and infinite from 128 on. -/
theorem exp2_int {e32 e64 : EReal → EReal} (he : GoodExp2 f32 e32) (c : Col ℤ) :
    ∃ r, plExp2 e32 e64 (.int c) = .float32 r ∧
      List.Forall₂ (fun a b => (a = none ↔ b = none) ∧ ∀ k : ℤ, a = some k → ∃ p, b = some (some p) ∧
        (-149 ≤ k → k ≤ 127 → p = ((2 ^ k : ℝ) : EReal)) ∧ (k < -149 → p = 0) ∧ (128 ≤ k → p = ⊤)) c r := by
  obtain ⟨hm, h0, hk⟩ := he
  refine ⟨_, rfl, ?_⟩
  unfold map1
  rw [List.forall₂_map_right_iff, List.forall₂_same]
  rintro (- | i) -
  · simp
  · refine ⟨by simp, fun j hj => ?_⟩
    cases hj
    refine ⟨_, rfl, fun h1 h2 => ?_, fun h => ?_, fun h => ?_⟩
    · rw [fl_int32 i (by rw [abs_le]; constructor <;> norm_num <;> omega), hk i]
      exact (rnd_pow (.inl rfl) i).1 (by simpa [f32] using h1) (by norm_num [top, f32]; omega)
    · refine le_antisymm ?_ (h0 _)
      have := hm ((cast_le i (a := -150) (by norm_num)).2 (by omega))
      rw [hk] at this
      rwa [rnd_tiny] at this
    · have := hm ((cast_le i (a := 128) (by norm_num)).1 h)
      rw [hk, (rnd_pow (F := f32) (.inl rfl) 128).2 (by norm_num [top, f32])] at this
      exact top_le_iff.1 this

/-- **C151.**  The same values as doubles are exact up to 1023. -/
theorem exp2_double {e32 e64 : EReal → EReal} (he : GoodExp2 f64 e64) (k : ℤ) (h1 : -1074 ≤ k) (h2 : k ≤ 1023) :
    plExp2 e32 e64 (.float64 [some (some ((k : ℝ) : EReal))]) = .float64 [some (some ((2 ^ k : ℝ) : EReal))] := by
  change Result.float64 [some (some (e64 ((k : ℝ) : EReal)))] = _
  rw [he.2.2, (rnd_pow (F := f64) (.inr rfl) k).1 (by simpa [f64] using h1) (by norm_num [top, f64]; omega)]

/-- The correctly rounded power of two. -/
noncomputable def roundedExp2 (F : Fmt) (x : EReal) : EReal :=
  if x = ⊥ then 0 else if x = ⊤ then ⊤ else rnd F ((2 : ℝ) ^ x.toReal)

theorem roundedExp2_good (hF : Std F) : GoodExp2 F (roundedExp2 F) := by
  have hn : ∀ x, 0 ≤ roundedExp2 F x := by
    intro x
    unfold roundedExp2
    split_ifs
    · exact le_refl _
    · exact le_top
    · rw [← rnd_zero hF]; exact rnd_mono hF (by positivity)
  refine ⟨fun x y h => ?_, hn, fun k => ?_⟩
  · by_cases a : x = ⊥
    · rw [show roundedExp2 F x = 0 by unfold roundedExp2; rw [if_pos a]]; exact hn y
    · by_cases b : y = ⊤
      · rw [show roundedExp2 F y = ⊤ by unfold roundedExp2; rw [if_neg (by rw [b]; decide), if_pos b]]; exact le_top
      · have a' : y ≠ ⊥ := fun e => a (le_bot_iff.1 (e ▸ h))
        have b' : x ≠ ⊤ := fun e => b (top_le_iff.1 (e ▸ h))
        unfold roundedExp2
        rw [if_neg a, if_neg b', if_neg a', if_neg b]
        exact rnd_mono hF (Real.rpow_le_rpow_of_exponent_le (by norm_num) (EReal.toReal_le_toReal h a b))
  · unfold roundedExp2
    rw [if_neg (EReal.coe_ne_bot _), if_neg (EReal.coe_ne_top _), EReal.toReal_coe, Real.rpow_intCast]

example : ∃ r, plExp2 (roundedExp2 f32) (roundedExp2 f64) (.int [some 10, some 200]) = .float32 r ∧
    r = [some (some ((1024 : ℝ) : EReal)), some (some ⊤)] ∧
    plExp2 (roundedExp2 f32) (roundedExp2 f64) (.float64 [some (some (((200 : ℤ) : ℝ) : EReal))]) =
      .float64 [some (some ((2 ^ (200 : ℤ) : ℝ) : EReal))] := by
  obtain ⟨r, h1, h2⟩ := exp2_int (e64 := roundedExp2 f64) (roundedExp2_good (F := f32) (.inl rfl)) [some 10, some 200]
  refine ⟨r, h1, ?_, exp2_double (roundedExp2_good (.inr rfl)) 200 (by norm_num) (by norm_num)⟩
  cases h2 with
  | cons h2 t => cases t with
    | cons h3 t =>
      cases t
      obtain ⟨a, ha, ha', -⟩ := h2.2 10 rfl
      obtain ⟨b, hb, -, -, hb'⟩ := h3.2 200 rfl
      rw [ha, hb, ha' (by norm_num) (by norm_num), hb' (by norm_num)]
      norm_num

/-- The factorials in range. -/
theorem rnd_fact32 (n : ℕ) : (n ≤ 34 → ∃ v : ℝ, rnd f32 n.factorial = v) ∧ (35 ≤ n → rnd f32 n.factorial = ⊤) := by
  constructor
  · intro h
    have hrep : Rep f32 (((2 ^ 24 - 1 : ℤ) : ℝ) * 2 ^ (104 : ℤ)) := ⟨2 ^ 24 - 1, 104, by norm_num [f32], by norm_num [f32], rfl⟩
    have h1 : (n.factorial : ℝ) ≤ ((2 ^ 24 - 1 : ℤ) : ℝ) * 2 ^ (104 : ℤ) := by
      have : n.factorial ≤ (34).factorial := Nat.factorial_le h
      have h2 : (34).factorial ≤ (2 ^ 24 - 1) * 2 ^ 104 := by decide +kernel
      have h3 : ((n.factorial : ℕ) : ℝ) ≤ (((2 ^ 24 - 1) * 2 ^ 104 : ℕ) : ℝ) := by exact_mod_cast this.trans h2
      refine h3.trans (le_of_eq ?_)
      norm_num
    have h4 := fl_mono f32 h1
    rw [fl_rep f32 hrep] at h4
    have h5 := fl_mono f32 (show (0 : ℝ) ≤ n.factorial by positivity)
    rw [fl_zero] at h5
    refine ⟨_, rnd_small ?_⟩
    rw [abs_of_nonneg h5]
    refine lt_of_le_of_lt h4 ?_
    norm_num [top, f32]
  · intro h
    have h1 : ((2 : ℝ) ^ (128 : ℤ)) ≤ n.factorial := by
      have h2 : 2 ^ 128 ≤ (35).factorial := by decide +kernel
      exact_mod_cast h2.trans (Nat.factorial_le h)
    have h3 := rnd_mono (F := f32) (.inl rfl) h1
    rw [(rnd_pow (F := f32) (.inl rfl) 128).2 (by norm_num [top, f32])] at h3
    exact top_le_iff.1 h3

/-- **C151.**  `gamma` of a positive integer is a number up to 35 and infinite from 36 on, though the factorials up to 170 are
doubles. -/
theorem gamma_int {g32 g64 : Fv → Fv} (hg : GoodGamma f32 g32) (c : Col ℤ) :
    ∃ r, plGamma g32 g64 (.int c) = .float32 r ∧
      List.Forall₂ (fun a b => (a = none ↔ b = none) ∧ ∀ k : ℤ, a = some k →
        (1 ≤ k → k ≤ 35 → ∃ v : ℝ, b = some (some (v : EReal)) ∧ v = fl f32 (k.toNat - 1).factorial) ∧
        (36 ≤ k → b = some (some ⊤))) c r := by
  obtain ⟨hn, hm⟩ := hg
  refine ⟨_, rfl, ?_⟩
  unfold map1
  rw [List.forall₂_map_right_iff, List.forall₂_same]
  rintro (- | i) -
  · simp
  · refine ⟨by simp, fun j hj => ?_⟩
    cases hj
    rw [Option.map_some]
    refine ⟨fun h1 h2 => ?_, fun h => ?_⟩
    · obtain ⟨n, hni⟩ := Int.eq_ofNat_of_zero_le (by omega : 0 ≤ i - 1)
      obtain ⟨v, hv⟩ := (rnd_fact32 n).1 (by omega)
      rw [fl_int32 i (by rw [abs_le]; constructor <;> norm_num <;> omega),
        show (i : ℝ) = n + 1 by have : i = n + 1 := by omega
                                rw [this]; push_cast; ring, hn n, hv]
      refine ⟨v, rfl, ?_⟩
      rw [show i.toNat - 1 = n by omega]
      unfold rnd at hv
      split_ifs at hv with a b
      · exact absurd hv.symm (EReal.coe_ne_top v)
      · exact absurd hv.symm (EReal.coe_ne_bot v)
      · exact_mod_cast hv.symm
    · have hle := (cast_le i (a := 36) (by norm_num)).1 h
      have h35 := hn 35
      rw [(rnd_fact32 35).2 le_rfl, show ((35 : ℕ) : ℝ) + 1 = ((36 : ℤ) : ℝ) by norm_num] at h35
      obtain ⟨b, hb, hb'⟩ := hm _ _ (show (((2 : ℝ)) : EReal) ≤ _ from EReal.coe_le_coe_iff.2 (by norm_num)) hle ⊤ h35
      rw [hb, top_le_iff.1 hb']

/-- **C151.**  As doubles, the same positive integers have a number as gamma value up to 171. -/
theorem gamma_double {g32 g64 : Fv → Fv} (hg : GoodGamma f64 g64) (n : ℕ) (h : n ≤ 170) :
    plGamma g32 g64 (.float64 [some (some ((n + 1 : ℝ) : EReal))]) = .float64 [some (some ((fl f64 n.factorial : ℝ) : EReal))] := by
  change Result.float64 [some (g64 (some ((n + 1 : ℝ) : EReal)))] = _
  rw [hg.1 n, rnd_small]
  have hrep : Rep f64 (((2 ^ 53 - 1 : ℤ) : ℝ) * 2 ^ (971 : ℤ)) := ⟨2 ^ 53 - 1, 971, by norm_num [f64], by norm_num [f64], rfl⟩
  have h1 : (n.factorial : ℝ) ≤ ((2 ^ 53 - 1 : ℤ) : ℝ) * 2 ^ (971 : ℤ) := by
    have : n.factorial ≤ (170).factorial := Nat.factorial_le h
    have h2 : (170).factorial ≤ (2 ^ 53 - 1) * 2 ^ 971 := by decide +kernel
    have h3 : ((n.factorial : ℕ) : ℝ) ≤ (((2 ^ 53 - 1) * 2 ^ 971 : ℕ) : ℝ) := Nat.cast_le.2 (this.trans h2)
    refine h3.trans (le_of_eq ?_)
    rw [Nat.cast_mul, Nat.cast_pow, Nat.cast_ofNat, show (971 : ℤ) = ((971 : ℕ) : ℤ) by norm_num, zpow_natCast]
    congr 1
  have h4 := fl_mono f64 h1
  rw [fl_rep f64 hrep] at h4
  have h5 := fl_mono f64 (show (0 : ℝ) ≤ n.factorial by positivity)
  rw [fl_zero] at h5
  rw [abs_of_nonneg h5]
  refine lt_of_le_of_lt h4 ?_
  rw [show top f64 = 53 + 971 by norm_num [top, f64], zpow_add₀ (by norm_num)]
  exact mul_lt_mul_of_pos_right (by norm_num) (two_zpow_pos _)

/-- The correctly rounded gamma function (NaN up to 0). -/
noncomputable def roundedGamma (F : Fmt) : Fv → Fv
  | none => none
  | some x => if x ≤ 0 then none else if x = ⊤ then some ⊤ else some (rnd F (Real.Gamma x.toReal))

theorem roundedGamma_good (hF : Std F) : GoodGamma F (roundedGamma F) := by
  refine ⟨fun n => ?_, fun x y hx hxy a ha => ?_⟩
  · unfold roundedGamma
    dsimp only
    have hp : (0 : ℝ) < n + 1 := by positivity
    rw [if_neg (not_le.2 (by exact_mod_cast hp)), if_neg (EReal.coe_ne_top _), EReal.toReal_coe, Real.Gamma_nat_eq_factorial]
  · have h2 : (0 : EReal) < 2 := by exact_mod_cast (by norm_num : (0 : ℝ) < 2)
    have hx0 := h2.trans_le hx
    have hy0 := hx0.trans_le hxy
    unfold roundedGamma at ha ⊢
    dsimp only at ha ⊢
    rw [if_neg (not_le.2 hx0)] at ha
    rw [if_neg (not_le.2 hy0)]
    by_cases hy : y = ⊤
    · rw [if_pos hy]; exact ⟨⊤, rfl, le_top⟩
    · have hxt : x ≠ ⊤ := fun e => hy (top_le_iff.1 (e ▸ hxy))
      rw [if_neg hy]
      rw [if_neg hxt] at ha
      cases ha
      refine ⟨_, rfl, rnd_mono hF ?_⟩
      have hxb : x ≠ ⊥ := fun e => by rw [e] at hx0; simp at hx0
      have hxr := EReal.toReal_le_toReal hxy hxb hy
      have h2r : (2 : ℝ) ≤ x.toReal := by
        have := EReal.toReal_le_toReal (show ((2 : ℝ) : EReal) ≤ x from hx) (EReal.coe_ne_bot _) hxt
        rwa [EReal.toReal_coe] at this
      exact Real.Gamma_strictMonoOn_Ici.monotoneOn h2r (h2r.trans hxr) hxr

example : ∃ r v, plGamma (roundedGamma f32) (roundedGamma f64) (.int [some 5, some 36]) = .float32 r ∧
    r = [some (some v), some (some ⊤)] ∧ v = ((fl f32 24 : ℝ) : EReal) := by
  obtain ⟨r, h1, h2⟩ := gamma_int (g64 := roundedGamma f64) (roundedGamma_good (F := f32) (.inl rfl)) [some 5, some 36]
  cases h2 with
  | cons h2 t => cases t with
    | cons h3 t =>
      cases t
      obtain ⟨v, hv, hv'⟩ := (h2.2 5 rfl).1 (by norm_num) (by norm_num)
      refine ⟨_, (v : EReal), h1, ?_, ?_⟩
      · rw [hv, (h3.2 36 rfl).2 (by norm_num)]
      · rw [hv', show (Int.toNat 5 - 1).factorial = 24 by decide]; norm_num

example : plGamma (roundedGamma f32) (roundedGamma f64) (.float64 [some (some (((35 : ℕ) + 1 : ℝ) : EReal))]) =
    .float64 [some (some ((fl f64 (35).factorial : ℝ) : EReal))] :=
  gamma_double (roundedGamma_good (.inr rfl)) 35 (by norm_num)

end Verif.FloatFns
