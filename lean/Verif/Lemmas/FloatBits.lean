import Verif.Spec.FloatBits
import Mathlib.Tactic.Linarith
import Mathlib.Tactic.Positivity
import Mathlib.Tactic.Ring
import Mathlib.Tactic.NormNum
import Mathlib.Tactic.FieldSimp
import Mathlib.Tactic.FinCases

/-!
# Lemmas on the bits of floats
-/

namespace Verif.FloatBits
open Verif.Pl


open Spec

theorem mag_zero (F : Fmt) : mag F 0 = 0 := by
  unfold mag
  simp

theorem mag_step (F : Fmt) (m : ℕ) :
    mag F (m + 1) = mag F m + (2 : ℝ) ^ (F.low + (m / 2 ^ F.frac : ℕ) - if m / 2 ^ F.frac = 0 then 0 else 1) := by
  have hp : 0 < 2 ^ F.frac := by positivity
  have e := Nat.div_add_mod m (2 ^ F.frac)
  have hm := Nat.mod_lt m hp
  generalize hq : m / 2 ^ F.frac = q at e ⊢
  generalize hr : m % 2 ^ F.frac = r at e hm ⊢
  by_cases hc : r + 1 < 2 ^ F.frac
  · have h1 : (m + 1) / 2 ^ F.frac = q := by
      rw [← e, add_assoc, Nat.mul_add_div hp, Nat.div_eq_of_lt hc, add_zero]
    have h2 : (m + 1) % 2 ^ F.frac = r + 1 := by
      rw [← e, add_assoc, Nat.mul_add_mod, Nat.mod_eq_of_lt hc]
    unfold mag
    rw [h1, h2, hq, hr]
    by_cases h0 : q = 0
    · subst h0
      simp only [if_true]
      push_cast
      simp
      ring
    · simp only [if_neg h0]
      push_cast
      ring
  · have hr1 : r + 1 = 2 ^ F.frac := by omega
    have h1 : (m + 1) / 2 ^ F.frac = q + 1 := by
      rw [← e, add_assoc, hr1, Nat.mul_add_div hp, Nat.div_self hp]
    have h2 : (m + 1) % 2 ^ F.frac = 0 := by
      rw [← e, add_assoc, hr1, Nat.mul_add_mod, Nat.mod_self]
    unfold mag
    rw [h1, h2, hq, hr]
    have hrr : (r : ℝ) = 2 ^ F.frac - 1 := by
      have : ((r + 1 : ℕ) : ℝ) = ((2 ^ F.frac : ℕ) : ℝ) := by rw [hr1]
      push_cast at this
      linarith
    by_cases h0 : q = 0
    · subst h0
      simp only [if_true]
      push_cast
      rw [hrr]
      simp
      ring
    · simp only [if_neg h0, if_neg (Nat.succ_ne_zero q)]
      push_cast
      rw [hrr]
      have : (2 : ℝ) ^ (F.low + ((q : ℤ) + 1) - 1) = 2 * (2 : ℝ) ^ (F.low + (q : ℤ) - 1) := by
        rw [show F.low + ((q : ℤ) + 1) - 1 = (F.low + (q : ℤ) - 1) + 1 by ring, zpow_add_one₀ (by norm_num)]
        ring
      rw [this]
      ring

theorem mag_strictMono (F : Fmt) : StrictMono (mag F) := by
  apply strictMono_nat_of_lt_succ
  intro m
  rw [mag_step]
  have : (0 : ℝ) < (2 : ℝ) ^ (F.low + (m / 2 ^ F.frac : ℕ) - if m / 2 ^ F.frac = 0 then 0 else 1) := by positivity
  linarith

theorem magE_lt (F : Fmt) {a b : ℕ} (h : a < b) (hb : b ≤ F.inf) : magE F a < magE F b := by
  unfold magE
  change b ≤ (2 ^ F.expo - 1) * 2 ^ F.frac at hb
  rw [if_pos (by omega)]
  split
  · exact EReal.coe_lt_coe_iff.2 (mag_strictMono F h)
  · exact EReal.coe_lt_top _

theorem magE_zero (F : Fmt) (h : 0 < F.inf) : magE F 0 = 0 := by
  unfold magE
  rw [if_pos (by exact h), mag_zero]
  rfl

theorem magE_pos (F : Fmt) {a : ℕ} (h : 0 < a) (ha : a ≤ F.inf) : 0 < magE F a := by
  rw [← magE_zero F (by omega)]
  exact magE_lt F h ha

/-- The position of a float on the line of the integers. -/
def pos (F : Fmt) (b : ℕ) : ℤ := if b / F.sign % 2 = 0 then (F.abs b : ℤ) else -(F.abs b : ℤ)

/-- The number at a position. -/
noncomputable def at_ (F : Fmt) (z : ℤ) : EReal := if 0 ≤ z then magE F z.natAbs else -magE F z.natAbs

theorem num_pos (F : Fmt) (hF : 0 < F.inf) (b : ℕ) : num F b = at_ F (pos F b) := by
  unfold num at_ pos Fmt.abs Fmt.sign
  by_cases hs : b / 2 ^ (F.expo + F.frac) % 2 = 0
  · rw [if_pos hs, if_pos hs, if_pos (by omega), Int.natAbs_natCast]
  · rw [if_neg hs, if_neg hs]
    by_cases h0 : b % 2 ^ (F.expo + F.frac) = 0
    · rw [h0, magE_zero F hF]
      simp [magE_zero F hF]
    · rw [if_neg (by omega), Int.natAbs_neg, Int.natAbs_natCast]

theorem at_lt (F : Fmt) {x y : ℤ} (h : x < y) (hx : -(F.inf : ℤ) ≤ x) (hy : y ≤ F.inf) : at_ F x < at_ F y := by
  unfold at_
  by_cases hx0 : 0 ≤ x
  · rw [if_pos hx0, if_pos (by omega)]
    exact magE_lt F (by omega) (by omega)
  · rw [if_neg hx0]
    have h1 : -magE F x.natAbs < 0 := by
      rw [EReal.neg_lt_comm, neg_zero]
      exact magE_pos F (by omega) (by omega)
    by_cases hy0 : 0 ≤ y
    · rw [if_pos hy0]
      rcases hy0.lt_or_eq with hy1 | hy1
      · exact h1.trans (magE_pos F (by omega) (by omega))
      · rw [← hy1]
        simp only [Int.natAbs_zero]
        rw [magE_zero F (by omega)]
        exact h1
    · rw [if_neg hy0, EReal.neg_lt_neg_iff]
      exact magE_lt F (by omega) (by omega)

theorem at_lt_iff (F : Fmt) {x y : ℤ} (hx : -(F.inf : ℤ) ≤ x) (hx' : x ≤ F.inf) (hy : -(F.inf : ℤ) ≤ y) (hy' : y ≤ F.inf) :
    at_ F x < at_ F y ↔ x < y := by
  constructor
  · intro h
    by_contra hc
    rcases (not_lt.1 hc).lt_or_eq with h1 | h1
    · exact absurd (at_lt F h1 hy hx') (not_lt.2 h.le)
    · rw [h1] at h; exact lt_irrefl _ h
  · intro h
    exact at_lt F h hx hy'

theorem at_le_iff (F : Fmt) {x y : ℤ} (hx : -(F.inf : ℤ) ≤ x) (hx' : x ≤ F.inf) (hy : -(F.inf : ℤ) ≤ y) (hy' : y ≤ F.inf) :
    at_ F x ≤ at_ F y ↔ x ≤ y := by
  rw [← not_lt, at_lt_iff F hy hy' hx hx', not_lt]

theorem pos_range (F : Fmt) {b : ℕ} (h : IsNum F b) : -(F.inf : ℤ) ≤ pos F b ∧ pos F b ≤ F.inf := by
  have h2 : F.abs b ≤ F.inf := h.2
  unfold pos
  split <;> omega

/-- A format has room for at least one finite number besides zero. -/
def Proper (F : Fmt) : Prop := 1 < F.inf

theorem f32_proper : Proper f32 := by unfold Proper Fmt.inf f32; norm_num
theorem f64_proper : Proper f64 := by unfold Proper Fmt.inf f64; norm_num

theorem inf_lt_sign (F : Fmt) : F.inf < F.sign := by
  unfold Fmt.inf Fmt.sign
  rw [pow_add]
  have : 0 < 2 ^ F.expo := by positivity
  exact Nat.mul_lt_mul_of_pos_right (by omega) (by positivity)

theorem split_bits (F : Fmt) {b : ℕ} (h : b < 2 ^ (1 + F.expo + F.frac)) :
    (b < F.sign ∧ b / F.sign % 2 = 0 ∧ F.abs b = b) ∨
      (F.sign ≤ b ∧ b / F.sign % 2 = 1 ∧ F.abs b = b - F.sign ∧ b < 2 * F.sign) := by
  have hs : 0 < F.sign := by unfold Fmt.sign; positivity
  have h2 : b < 2 * F.sign := by
    unfold Fmt.sign
    rwa [← pow_succ', show F.expo + F.frac + 1 = 1 + F.expo + F.frac by ring]
  unfold Fmt.abs
  by_cases hb : b < F.sign
  · left
    exact ⟨hb, by rw [Nat.div_eq_of_lt hb], Nat.mod_eq_of_lt hb⟩
  · right
    have hq : b / F.sign = 1 := Nat.div_eq_of_lt_le (by omega) (by omega)
    refine ⟨by omega, by rw [hq], ?_, h2⟩
    rw [Nat.mod_eq_sub_mod (by omega), Nat.mod_eq_of_lt (by omega)]

theorem isNum_iff (F : Fmt) (b : ℕ) : IsNum F b ↔ (b ≤ F.inf ∨ (F.sign ≤ b ∧ b ≤ F.sign + F.inf)) := by
  have hi := inf_lt_sign F
  have h2s : 2 ^ (1 + F.expo + F.frac) = 2 * F.sign := by
    unfold Fmt.sign
    rw [← pow_succ', show F.expo + F.frac + 1 = 1 + F.expo + F.frac by ring]
  constructor
  · rintro ⟨h1, h2⟩
    change F.abs b ≤ F.inf at h2
    rcases split_bits F h1 with ⟨_, _, h⟩ | ⟨_, _, h, _⟩ <;> omega
  · intro h
    have h1 : b < 2 ^ (1 + F.expo + F.frac) := by omega
    refine ⟨h1, ?_⟩
    change F.abs b ≤ F.inf
    rcases split_bits F h1 with ⟨_, _, h⟩ | ⟨_, _, h, _⟩ <;> omega

theorem nextUp_pos (F : Fmt) (hF : Proper F) {b : ℕ} (h : IsNum F b) (hi : b ≠ F.inf) :
    IsNum F (F.nextUp b) ∧ pos F (F.nextUp b) = pos F b + 1 := by
  have hlt := inf_lt_sign F
  have hF1 : 1 < F.inf := hF
  have hn : (F.isNan b || b == F.inf) = false := by
    have : F.abs b ≤ F.inf := h.2
    unfold Fmt.isNan
    simp only [Bool.or_eq_false_iff, decide_eq_false_iff_not, beq_eq_false_iff_ne]
    exact ⟨by omega, hi⟩
  have hb := (isNum_iff F b).1 h
  have key : ∀ c, IsNum F c → (c < F.sign → pos F c = c) ∧ (F.sign ≤ c → pos F c = -((c : ℤ) - F.sign)) := by
    intro c hc
    unfold pos
    rcases split_bits F hc.1 with ⟨h1, h2, h3⟩ | ⟨h1, h2, h3, _⟩
    · rw [h2, h3]
      exact ⟨fun _ => rfl, fun h => by omega⟩
    · rw [h2, h3]
      refine ⟨fun h => by omega, fun _ => ?_⟩
      simp only [one_ne_zero, if_false]
      omega
  unfold Fmt.nextUp
  rw [hn]
  simp only [Bool.false_eq_true, if_false]
  rcases split_bits F h.1 with ⟨h1, h2, h3⟩ | ⟨h1, h2, h3, h4⟩
  · by_cases h0 : F.abs b = 0
    · rw [if_pos h0]
      have hc : IsNum F 1 := (isNum_iff F 1).2 (by omega)
      refine ⟨hc, ?_⟩
      rw [(key 1 hc).1 (by omega), (key b h).1 h1]
      omega
    · rw [if_neg h0, if_pos h3.symm]
      have hc : IsNum F (b + 1) := (isNum_iff F _).2 (by omega)
      refine ⟨hc, ?_⟩
      rw [(key _ hc).1 (by omega), (key b h).1 h1]
      push_cast; ring
  · by_cases h0 : F.abs b = 0
    · rw [if_pos h0]
      have hc : IsNum F 1 := (isNum_iff F 1).2 (by omega)
      refine ⟨hc, ?_⟩
      rw [(key 1 hc).1 (by omega), (key b h).2 h1]
      omega
    · rw [if_neg h0, if_neg (by omega)]
      have hc : IsNum F (b - 1) := (isNum_iff F _).2 (by omega)
      refine ⟨hc, ?_⟩
      rw [(key _ hc).2 (by omega), (key b h).2 h1]
      omega

theorem nextDown_pos (F : Fmt) (hF : Proper F) {b : ℕ} (h : IsNum F b) (hi : b ≠ F.sign + F.inf) :
    IsNum F (F.nextDown b) ∧ pos F (F.nextDown b) = pos F b - 1 := by
  have hlt := inf_lt_sign F
  have hF1 : 1 < F.inf := hF
  have hn : (F.isNan b || b == F.sign + F.inf) = false := by
    have : F.abs b ≤ F.inf := h.2
    unfold Fmt.isNan
    simp only [Bool.or_eq_false_iff, decide_eq_false_iff_not, beq_eq_false_iff_ne]
    exact ⟨by omega, hi⟩
  have hb := (isNum_iff F b).1 h
  have key : ∀ c, IsNum F c → (c < F.sign → pos F c = c) ∧ (F.sign ≤ c → pos F c = -((c : ℤ) - F.sign)) := by
    intro c hc
    unfold pos
    rcases split_bits F hc.1 with ⟨h1, h2, h3⟩ | ⟨h1, h2, h3, _⟩
    · rw [h2, h3]
      exact ⟨fun _ => rfl, fun h => by omega⟩
    · rw [h2, h3]
      refine ⟨fun h => by omega, fun _ => ?_⟩
      simp only [one_ne_zero, if_false]
      omega
  unfold Fmt.nextDown
  rw [hn]
  simp only [Bool.false_eq_true, if_false]
  rcases split_bits F h.1 with ⟨h1, h2, h3⟩ | ⟨h1, h2, h3, h4⟩
  · by_cases h0 : F.abs b = 0
    · rw [if_pos h0]
      have hc : IsNum F (F.sign + 1) := (isNum_iff F _).2 (by omega)
      refine ⟨hc, ?_⟩
      rw [(key _ hc).2 (by omega), (key b h).1 h1]
      omega
    · rw [if_neg h0, if_pos h3.symm]
      have hc : IsNum F (b - 1) := (isNum_iff F _).2 (by omega)
      refine ⟨hc, ?_⟩
      rw [(key _ hc).1 (by omega), (key b h).1 h1]
      omega
  · by_cases h0 : F.abs b = 0
    · rw [if_pos h0]
      have hc : IsNum F (F.sign + 1) := (isNum_iff F _).2 (by omega)
      refine ⟨hc, ?_⟩
      rw [(key _ hc).2 (by omega), (key b h).2 h1]
      omega
    · rw [if_neg h0, if_neg (by omega)]
      have hc : IsNum F (b + 1) := (isNum_iff F _).2 (by omega)
      refine ⟨hc, ?_⟩
      rw [(key _ hc).2 (by omega), (key b h).2 h1]
      push_cast; ring

theorem nextUp_isNext (F : Fmt) (hF : Proper F) {b : ℕ} (h : IsNum F b) (hi : b ≠ F.inf) : IsNext F b (F.nextUp b) := by
  have h0 : 0 < F.inf := by unfold Proper at hF; omega
  obtain ⟨h1, h2⟩ := nextUp_pos F hF h hi
  have hr := pos_range F h
  have hr' := pos_range F h1
  refine ⟨h1, ?_, ?_⟩
  · rw [num_pos F h0, num_pos F h0, at_lt_iff F hr.1 hr.2 hr'.1 hr'.2]
    omega
  · intro d hd hlt
    have hrd := pos_range F hd
    rw [num_pos F h0, num_pos F h0] at hlt ⊢
    rw [at_lt_iff F hr.1 hr.2 hrd.1 hrd.2] at hlt
    rw [at_le_iff F hr'.1 hr'.2 hrd.1 hrd.2]
    omega

theorem nextDown_isPrev (F : Fmt) (hF : Proper F) {b : ℕ} (h : IsNum F b) (hi : b ≠ F.sign + F.inf) :
    IsPrev F b (F.nextDown b) := by
  have h0 : 0 < F.inf := by unfold Proper at hF; omega
  obtain ⟨h1, h2⟩ := nextDown_pos F hF h hi
  have hr := pos_range F h
  have hr' := pos_range F h1
  refine ⟨h1, ?_, ?_⟩
  · rw [num_pos F h0, num_pos F h0, at_lt_iff F hr'.1 hr'.2 hr.1 hr.2]
    omega
  · intro d hd hlt
    have hrd := pos_range F hd
    rw [num_pos F h0, num_pos F h0] at hlt ⊢
    rw [at_lt_iff F hrd.1 hrd.2 hr.1 hr.2] at hlt
    rw [at_le_iff F hrd.1 hrd.2 hr'.1 hr'.2]
    omega

/-- The infinities of a format, and what is not a number. -/
theorem nextUp_fixed (F : Fmt) {b : ℕ} (h : ¬ IsNum F b ∨ b = F.inf) (hb : b < 2 ^ (1 + F.expo + F.frac)) :
    F.nextUp b = b := by
  unfold Fmt.nextUp
  rw [if_pos]
  rcases h with h | h
  · have : F.inf < F.abs b := by
      by_contra hc
      exact h ⟨hb, not_lt.1 hc⟩
    simp [Fmt.isNan, this]
  · simp [h]

theorem nextDown_fixed (F : Fmt) {b : ℕ} (h : ¬ IsNum F b ∨ b = F.sign + F.inf) (hb : b < 2 ^ (1 + F.expo + F.frac)) :
    F.nextDown b = b := by
  unfold Fmt.nextDown
  rw [if_pos]
  rcases h with h | h
  · have : F.inf < F.abs b := by
      by_contra hc
      exact h ⟨hb, not_lt.1 hc⟩
    simp [Fmt.isNan, this]
  · simp [h]

theorem at_top (F : Fmt) : at_ F F.inf = ⊤ := by
  unfold at_ magE
  rw [if_pos (by omega), Int.natAbs_natCast, if_neg (by exact lt_irrefl _)]

theorem at_bot (F : Fmt) (hF : Proper F) : at_ F (-F.inf) = ⊥ := by
  unfold Proper at hF
  unfold at_ magE
  rw [if_neg (by omega), Int.natAbs_neg, Int.natAbs_natCast, if_neg (by exact lt_irrefl _), EReal.neg_top]

theorem num_top_iff (F : Fmt) (hF : Proper F) {b : ℕ} (h : IsNum F b) : num F b = ⊤ ↔ b = F.inf := by
  have h0 : 0 < F.inf := by unfold Proper at hF; omega
  have hr := pos_range F h
  rw [num_pos F h0]
  have hs := inf_lt_sign F
  constructor
  · intro he
    have hp : pos F b = F.inf := by
      by_contra hc
      have := at_lt F (lt_of_le_of_ne hr.2 hc) hr.1 le_rfl
      rw [he] at this
      exact not_top_lt this
    unfold pos at hp
    rcases split_bits F h.1 with ⟨h1, h2, h3⟩ | ⟨h1, h2, h3, h4⟩
    · rw [h2, h3] at hp
      simpa using hp
    · rw [h2, h3] at hp
      simp only [one_ne_zero, if_false] at hp
      omega
  · intro he
    have : pos F b = F.inf := by
      unfold pos
      rcases split_bits F h.1 with ⟨h1, h2, h3⟩ | ⟨h1, h2, h3, h4⟩
      · rw [h2, h3, he]; rfl
      · omega
    rw [this, at_top F]

theorem num_bot_iff (F : Fmt) (hF : Proper F) {b : ℕ} (h : IsNum F b) : num F b = ⊥ ↔ b = F.sign + F.inf := by
  have h0 : 0 < F.inf := by unfold Proper at hF; omega
  have hr := pos_range F h
  rw [num_pos F h0]
  have hs := inf_lt_sign F
  constructor
  · intro he
    have hp : pos F b = -F.inf := by
      by_contra hc
      have := at_lt F (lt_of_le_of_ne hr.1 (Ne.symm hc)) le_rfl hr.2
      rw [he] at this
      exact not_lt_bot this
    unfold pos at hp
    rcases split_bits F h.1 with ⟨h1, h2, h3⟩ | ⟨h1, h2, h3, h4⟩
    · rw [h2, h3] at hp
      simp only [if_true] at hp
      omega
    · rw [h2, h3] at hp
      simp only [one_ne_zero, if_false] at hp
      omega
  · intro he
    have : pos F b = -F.inf := by
      unfold pos
      rcases split_bits F h.1 with ⟨h1, h2, h3⟩ | ⟨h1, h2, h3, h4⟩
      · omega
      · rw [h2, h3, he]
        simp
    rw [this, at_bot F hF]

theorem mag32 (e m : ℕ) (h1 : 2 ^ 23 ≤ m) (h2 : m ≤ 2 ^ 24) :
    mag f32 ((e + 126) * 2 ^ 23 + m) = m * (2 : ℝ) ^ ((e : ℤ) - 23) := by
  unfold mag f32
  simp only
  rcases h2.lt_or_eq with h2 | h2
  · have hq : ((e + 126) * 2 ^ 23 + m) / 2 ^ 23 = e + 127 := by omega
    have hr : ((e + 126) * 2 ^ 23 + m) % 2 ^ 23 = m - 2 ^ 23 := by omega
    rw [hq, hr, if_neg (by omega), show 2 ^ 23 + (m - 2 ^ 23) = m by omega]
    rw [show (-149 : ℤ) + ((e + 127 : ℕ) : ℤ) - 1 = (e : ℤ) - 23 by push_cast; ring]
  · have hq : ((e + 126) * 2 ^ 23 + m) / 2 ^ 23 = e + 128 := by omega
    have hr : ((e + 126) * 2 ^ 23 + m) % 2 ^ 23 = 0 := by omega
    rw [hq, hr, if_neg (by omega), h2]
    clear hq hr h2 h1
    push_cast
    rw [show (-149 : ℤ) + ((e : ℤ) + 128) - 1 = ((e : ℤ) - 23) + 1 by ring, zpow_add_one₀ (by norm_num)]
    ring

/-- The rounded magnitude is next to the integer on both sides. -/
theorem roundMag_between (a : ℕ) (ha : 0 < a) :
    mag f32 (roundMag a - 1) < a ∧ (a : ℝ) < mag f32 (roundMag a + 1) ∧ (a ≤ 2 ^ 24 → mag f32 (roundMag a) = a) ∧
      0 < roundMag a ∧ roundMag a ≤ (Nat.log2 a + 128) * 2 ^ 23 := by
  have hm := mag_strictMono f32
  have hlo : 2 ^ Nat.log2 a ≤ a := Nat.log2_self_le (by omega)
  have hhi : a < 2 ^ (Nat.log2 a + 1) := Nat.lt_log2_self
  unfold roundMag
  generalize Nat.log2 a = e at hlo hhi ⊢
  simp only
  by_cases he : e ≤ 23
  · rw [if_pos he]
    have hpw : 2 ^ e * 2 ^ (23 - e) = 2 ^ 23 := by rw [← pow_add, show e + (23 - e) = 23 by omega]
    have b1 : 2 ^ 23 ≤ a * 2 ^ (23 - e) := by
      rw [← hpw]
      exact Nat.mul_le_mul_right _ hlo
    have b2 : a * 2 ^ (23 - e) ≤ 2 ^ 24 := by
      have := Nat.mul_le_mul_right (2 ^ (23 - e)) hhi.le
      rw [pow_succ, mul_right_comm, hpw] at this
      omega
    have ev : mag f32 ((e + 126) * 2 ^ 23 + a * 2 ^ (23 - e)) = a := by
      rw [mag32 e _ b1 b2]
      push_cast
      rw [mul_assoc]
      have : (2 : ℝ) ^ (23 - e) * 2 ^ ((e : ℤ) - 23) = 1 := by
        rw [← zpow_natCast, ← zpow_add₀ (by norm_num)]
        rw [show ((23 - e : ℕ) : ℤ) + ((e : ℤ) - 23) = 0 by omega, zpow_zero]
      rw [this, mul_one]
    refine ⟨?_, ?_, fun _ => ev, by omega, by omega⟩
    · conv_rhs => rw [← ev]
      exact hm (by omega)
    · conv_lhs => rw [← ev]
      exact hm (by omega)
  · rw [if_neg he]
    have hd : 0 < 2 ^ (e - 23) := by positivity
    have hpw : 2 ^ 23 * 2 ^ (e - 23) = 2 ^ e := by rw [← pow_add, show 23 + (e - 23) = e by omega]
    have hq1 : 2 ^ 23 ≤ a / 2 ^ (e - 23) := by
      rw [Nat.le_div_iff_mul_le hd, hpw]
      exact hlo
    have hq2 : a / 2 ^ (e - 23) < 2 ^ 24 := by
      rw [Nat.div_lt_iff_lt_mul hd, pow_succ 2 23, mul_right_comm, hpw, ← pow_succ]
      exact hhi
    have hmod := Nat.mod_lt a hd
    have hdm := Nat.div_add_mod a (2 ^ (e - 23))
    have hcast : (2 : ℝ) ^ ((e : ℤ) - 23) = ((2 ^ (e - 23) : ℕ) : ℝ) := by
      push_cast
      rw [← zpow_natCast, show ((e - 23 : ℕ) : ℤ) = (e : ℤ) - 23 by omega]
    have v1 : mag f32 ((e + 126) * 2 ^ 23 + a / 2 ^ (e - 23)) = ((a / 2 ^ (e - 23) * 2 ^ (e - 23) : ℕ) : ℝ) := by
      rw [mag32 e _ hq1 hq2.le, hcast]
      push_cast
      rfl
    have v2 : mag f32 ((e + 126) * 2 ^ 23 + (a / 2 ^ (e - 23) + 1)) = (((a / 2 ^ (e - 23) + 1) * 2 ^ (e - 23) : ℕ) : ℝ) := by
      rw [mag32 e _ (by omega) hq2, hcast]
      push_cast
      rfl
    have hbig : 2 ^ 24 ≤ a := le_trans (Nat.pow_le_pow_right (by norm_num) (by omega)) hlo
    have hexact : a ≤ 2 ^ 24 → a = 2 ^ 24 := fun h => le_antisymm h hbig
    have he24 : a = 2 ^ 24 → e = 24 := by
      intro h
      rw [h] at hlo
      have := (Nat.pow_le_pow_iff_right (by norm_num : 1 < 2)).1 hlo
      omega
    generalize hqd : a / 2 ^ (e - 23) = q at *
    generalize hrd : a % 2 ^ (e - 23) = r at *
    generalize hdd : 2 ^ (e - 23) = d at *
    have c1 : q * d + r = a := by rw [mul_comm]; exact hdm
    have c2 : (q + 1) * d = q * d + d := by ring
    have lo1 : ((q * d : ℕ) : ℝ) ≤ a := by exact_mod_cast (by omega : q * d ≤ a)
    have hi1 : (a : ℝ) < (((q + 1) * d : ℕ) : ℝ) := by exact_mod_cast (by omega : a < (q + 1) * d)
    have hx : ∀ m, (m = q ∨ (m = q + 1 ∧ 0 < r)) →
        mag f32 ((e + 126) * 2 ^ 23 + m - 1) < a ∧ (a : ℝ) < mag f32 ((e + 126) * 2 ^ 23 + m + 1) ∧
          0 < (e + 126) * 2 ^ 23 + m ∧ (e + 126) * 2 ^ 23 + m ≤ (e + 128) * 2 ^ 23 := by
      rintro m (rfl | ⟨rfl, hr⟩)
      · refine ⟨lt_of_lt_of_le (v1 ▸ hm (by omega)) lo1, ?_, by omega, by omega⟩
        rw [add_assoc, v2]
        exact hi1
      · refine ⟨?_, ?_, by omega, by omega⟩
        · rw [show (e + 126) * 2 ^ 23 + (q + 1) - 1 = (e + 126) * 2 ^ 23 + q by omega, v1]
          exact_mod_cast (by omega : q * d < a)
        · refine lt_trans hi1 ?_
          rw [← v2]
          exact hm (by omega)
    have hsel : (if 2 * r < d then q else if d < 2 * r then q + 1 else if q % 2 = 0 then q else q + 1) = q ∨
        ((if 2 * r < d then q else if d < 2 * r then q + 1 else if q % 2 = 0 then q else q + 1) = q + 1 ∧ 0 < r) := by
      split_ifs <;> omega
    obtain ⟨x1, x2, x3, x4⟩ := hx _ hsel
    refine ⟨x1, x2, ?_, x3, x4⟩
    intro hle
    have ha24 := hexact hle
    have := he24 ha24
    subst this
    have hd2 : d = 2 := by rw [← hdd]; norm_num
    subst hd2
    have hr0 : r = 0 := by omega
    rw [hr0, if_pos (by norm_num), v1]
    exact_mod_cast (by omega : q * 2 = a)

theorem at_finite (F : Fmt) {m : ℕ} (h : m < F.inf) : at_ F m = (mag F m : EReal) ∧ at_ F (-m) = ((-mag F m : ℝ) : EReal) := by
  have hm : magE F m = (mag F m : EReal) := by
    unfold magE
    rw [if_pos (by exact h)]
  unfold at_
  constructor
  · rw [if_pos (by omega), Int.natAbs_natCast, hm]
  · rw [Int.natAbs_neg, Int.natAbs_natCast, hm]
    by_cases h0 : m = 0
    · subst h0
      simp [mag_zero]
    · rw [if_neg (by omega)]
      rfl

/-- The position of the float of an integer. -/
theorem ofInt_pos (i : ℤ) (hi : i.natAbs < 2 ^ 64) :
    IsNum f32 (ofInt i) ∧ ofInt i ≠ f32.inf ∧ ofInt i ≠ f32.sign + f32.inf ∧
      ((i = 0 ∧ pos f32 (ofInt i) = 0) ∨ (0 < i ∧ pos f32 (ofInt i) = roundMag i.natAbs) ∨
        (i < 0 ∧ pos f32 (ofInt i) = -(roundMag i.natAbs : ℤ))) := by
  have hinf : f32.inf = 255 * 2 ^ 23 := by unfold Fmt.inf f32; norm_num
  have hsign : f32.sign = 2 ^ 31 := by unfold Fmt.sign f32; norm_num
  have key : ∀ c, IsNum f32 c → (c < f32.sign → pos f32 c = c) ∧ (f32.sign ≤ c → pos f32 c = -((c : ℤ) - f32.sign)) := by
    intro c hc
    unfold pos
    rcases split_bits f32 hc.1 with ⟨h1, h2, h3⟩ | ⟨h1, h2, h3, _⟩
    · rw [h2, h3]
      exact ⟨fun _ => rfl, fun h => by omega⟩
    · rw [h2, h3]
      refine ⟨fun h => by omega, fun _ => ?_⟩
      simp only [one_ne_zero, if_false]
      omega
  rcases lt_trichotomy i 0 with h | h | h
  · obtain ⟨_, _, _, h4, h5⟩ := roundMag_between i.natAbs (by omega)
    have hl : Nat.log2 i.natAbs < 64 := (Nat.log2_lt (by omega)).2 hi
    have hm : roundMag i.natAbs < 255 * 2 ^ 23 := lt_of_le_of_lt h5 (Nat.mul_lt_mul_of_pos_right (by omega) (by norm_num))
    have hb : ofInt i = f32.sign + roundMag i.natAbs := by
      unfold ofInt
      rw [if_neg (by omega), if_neg (by omega)]
    have hn : IsNum f32 (ofInt i) := (isNum_iff f32 _).2 (by omega)
    refine ⟨hn, by omega, by omega, Or.inr (Or.inr ⟨h, ?_⟩)⟩
    rw [(key _ hn).2 (by omega), hb]
    push_cast
    ring
  · subst h
    have hb : ofInt 0 = 0 := rfl
    have hn : IsNum f32 (ofInt 0) := (isNum_iff f32 _).2 (by omega)
    refine ⟨hn, by omega, by omega, Or.inl ⟨rfl, ?_⟩⟩
    rw [(key _ hn).1 (by omega), hb]
    rfl
  · obtain ⟨_, _, _, h4, h5⟩ := roundMag_between i.natAbs (by omega)
    have hl : Nat.log2 i.natAbs < 64 := (Nat.log2_lt (by omega)).2 hi
    have hm : roundMag i.natAbs < 255 * 2 ^ 23 := lt_of_le_of_lt h5 (Nat.mul_lt_mul_of_pos_right (by omega) (by norm_num))
    have hb : ofInt i = roundMag i.natAbs := by
      unfold ofInt
      rw [if_neg (by omega), if_pos h]
    have hn : IsNum f32 (ofInt i) := (isNum_iff f32 _).2 (by omega)
    refine ⟨hn, by omega, by omega, Or.inr (Or.inl ⟨h, ?_⟩)⟩
    rw [(key _ hn).1 (by omega), hb]

theorem roundMag_small (a : ℕ) (ha : 0 < a) (h : a < 2 ^ 64) : roundMag a + 1 < f32.inf := by
  have hinf : f32.inf = 255 * 2 ^ 23 := by unfold Fmt.inf f32; norm_num
  obtain ⟨_, _, _, _, h5⟩ := roundMag_between a ha
  have hl : Nat.log2 a < 64 := (Nat.log2_lt (by omega)).2 h
  have : (Nat.log2 a + 128) * 2 ^ 23 ≤ 191 * 2 ^ 23 := Nat.mul_le_mul_right _ (by omega)
  omega

end Verif.FloatBits
