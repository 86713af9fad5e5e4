import Verif.Lemmas.ConfDbl

/-!
# Property C157: the Matthews correlation and the confusion matrix in double arithmetic
-/

namespace Verif.ConfDbl
open Verif Verif.Doubles Verif.Ieee Verif.Ieee.Spec Verif.Confusion
open Verif.FloatBits (f64)

namespace Spec

/-- The product of the four marginal counts. -/
def margins (c : Counts) : ℕ := (c.tp + c.fn) * (c.tp + c.fp) * (c.fp + c.tn) * (c.fn + c.tn)

/-- The Matthews correlation of four counts in exact arithmetic. -/
noncomputable def phi (c : Counts) : ℝ := ((c.tp : ℝ) * c.tn - c.fn * c.fp) / Real.sqrt (margins c)

/-- The `u32` products of `pl_mcc` do not wrap. -/
def Fits (c : Counts) : Prop := c.tp * c.tn < 2 ^ 32 ∧ c.fn * c.fp < 2 ^ 32

/-- Both labels and both predictions occur. -/
def Proper (c : Counts) : Prop := 0 < c.tp + c.fn ∧ 0 < c.tp + c.fp ∧ 0 < c.fp + c.tn ∧ 0 < c.fn + c.tn

/-- A column of fewer than `2 ^ 32` rows. -/
def Rows (c : Counts) : Prop := c.tp + c.fn + c.fp + c.tn < 2 ^ 32

/-- The column `v` is the share `a / b` up to `e`: NaN for `b = 0`, else a number in [0, 1] that is exactly 0 and 1 where the share
is. -/
def Share (e : ℝ) (v : Val ℝ) (a b : ℕ) : Prop :=
  (b = 0 → v = .nan) ∧
  (0 < b → ∃ x, v = .num x ∧ 0 ≤ x ∧ x ≤ 1 ∧ (x = 0 ↔ a = 0) ∧ (x = 1 ↔ a = b) ∧ |x - (a : ℝ) / b| ≤ e)

/-- The column `v` is `y` up to `e`, a number between `lo` and `hi`, and exactly `hi` only if `top`. -/
def Near (e lo hi : ℝ) (top : Prop) (v : Val ℝ) (y : ℝ) : Prop :=
  ∃ x, v = .num x ∧ lo ≤ x ∧ x ≤ hi ∧ (x = hi ↔ top) ∧ |x - y| ≤ e

end Spec

open Spec

/-- The numerator of `pl_mcc`. -/
private noncomputable def N (c : Counts) : ℝ := (c.tp : ℝ) * c.tn - c.fn * c.fp

/-- The denominator of `pl_mcc`. -/
private noncomputable def D (c : Counts) : ℝ :=
  rd (Real.sqrt (rd (rd (rd (((c.tp + c.fn : ℕ) : ℝ) * (c.tp + c.fp : ℕ)) * (c.fp + c.tn : ℕ)) * (c.fn + c.tn : ℕ))))

private theorem D_ge_one {c : Counts} (hp : Proper c) : 1 ≤ D c := by
  obtain ⟨h1, h2, h3, h4⟩ := hp
  have e1 : (1 : ℝ) ≤ (c.tp + c.fn : ℕ) := by exact_mod_cast h1
  have e2 : (1 : ℝ) ≤ (c.tp + c.fp : ℕ) := by exact_mod_cast h2
  have e3 : (1 : ℝ) ≤ (c.fp + c.tn : ℕ) := by exact_mod_cast h3
  have e4 : (1 : ℝ) ≤ (c.fn + c.tn : ℕ) := by exact_mod_cast h4
  exact one_le_rd (Real.one_le_sqrt.2 (one_le_rd (one_le_mul_of_one_le_of_one_le (one_le_rd
    (one_le_mul_of_one_le_of_one_le (one_le_rd (one_le_mul_of_one_le_of_one_le e1 e2)) e3)) e4)))

private theorem N_int (c : Counts) : N c = (((c.tp * c.tn : ℕ) : ℤ) - ((c.fn * c.fp : ℕ) : ℤ) : ℤ) := by
  unfold N; push_cast; ring

private theorem plMcc_eq {c : Counts} (hr : Rows c) (hf : Fits c) (hp : Proper c) : plMcc c = .num (rd (N c / D c)) := by
  have hD := D_ge_one hp
  unfold Rows at hr
  unfold plMcc
  simp only
  rw [Nat.mod_eq_of_lt hf.1, Nat.mod_eq_of_lt hf.2, rd_nat (n := c.tp * c.tn) (by have := hf.1; omega),
    rd_nat (n := c.fn * c.fp) (by have := hf.2; omega),
    rd_nat (n := c.tp + c.fn) (by omega), rd_nat (n := c.tp + c.fp) (by omega), rd_nat (n := c.fp + c.tn) (by omega),
    rd_nat (n := c.fn + c.tn) (by omega)]
  rw [show rd (((c.tp * c.tn : ℕ) : ℝ) - ((c.fn * c.fp : ℕ) : ℝ)) = N c by
    rw [N_int, ← rd_int (n := ((c.tp * c.tn : ℕ) : ℤ) - ((c.fn * c.fp : ℕ) : ℤ))]
    · push_cast; rfl
    · obtain ⟨f1, f2⟩ := hf
      rw [abs_le]; constructor <;> omega]
  change rnd (Val.fdiv (.num (N c)) (.num (D c))) = _
  rw [Val.fdiv, if_neg (by linarith)]
  rfl

private theorem sq_aux {a b x d : ℝ} (ha : 0 ≤ a) (hb : 0 ≤ b) (hx : 0 ≤ x) (hd : 0 ≤ d) :
    (a * d - x * b) ^ 2 ≤ (a + x) * (a + b) * (b + d) * (x + d) := by
  have p1 := mul_nonneg ha hb
  have p2 := mul_nonneg ha hx
  have p3 := mul_nonneg ha hd
  have p4 := mul_nonneg hb hx
  have p5 := mul_nonneg hb hd
  have p6 := mul_nonneg hx hd
  have e1 : a * a ≤ (a + x) * (a + b) := by nlinarith
  have e2 : d * d ≤ (b + d) * (x + d) := by nlinarith
  have e3 : x * b ≤ (a + x) * (a + b) := by nlinarith [mul_nonneg ha ha]
  have e4 : x * b ≤ (b + d) * (x + d) := by nlinarith [mul_nonneg hd hd]
  have f1 := mul_le_mul e1 e2 (mul_nonneg hd hd) (by positivity)
  have f2 := mul_le_mul e3 e4 (by nlinarith) (by positivity)
  rcases le_total (x * b) (a * d) with h | h
  · have : (a * d - x * b) ^ 2 ≤ (a * d) ^ 2 := pow_le_pow_left₀ (by linarith) (by nlinarith) 2
    nlinarith
  · have : (x * b - a * d) ^ 2 ≤ (x * b) ^ 2 := pow_le_pow_left₀ (by linarith) (by nlinarith) 2
    nlinarith

private theorem N_sq (c : Counts) : N c ^ 2 ≤ margins c := by
  have := sq_aux (a := c.tp) (b := c.fp) (x := c.fn) (d := c.tn) (by positivity) (by positivity) (by positivity) (by positivity)
  unfold N margins
  push_cast
  exact this

/-- One rounded operation changes a number of size at least one by a factor within `2 ^ -53` of one. -/
private theorem rd_rel1 {x : ℝ} (h : 1 ≤ x) : x * (1 - 2 ^ (-53 : ℤ)) ≤ rd x ∧ rd x ≤ x * (1 + 2 ^ (-53 : ℤ)) := by
  have small : (2 : ℝ) ^ (-1000 : ℤ) ≤ 1 := zpow_le_one_of_nonpos₀ (by norm_num) (by norm_num)
  have := rd_rel (x := x) (by rw [abs_of_pos (by linarith)]; linarith)
  rw [abs_of_pos (show 0 < x by linarith), abs_le] at this
  constructor <;> nlinarith [this.1, this.2]

private theorem D_err {c : Counts} (hp : Proper c) :
    Real.sqrt (margins c) * (1 - 27 / 10 * 2 ^ (-53 : ℤ)) ≤ D c ∧ D c ≤ Real.sqrt (margins c) * (1 + 27 / 10 * 2 ^ (-53 : ℤ)) := by
  obtain ⟨h1, h2, h3, h4⟩ := hp
  have e1 : (1 : ℝ) ≤ (c.tp + c.fn : ℕ) := by exact_mod_cast h1
  have e2 : (1 : ℝ) ≤ (c.tp + c.fp : ℕ) := by exact_mod_cast h2
  have e3 : (1 : ℝ) ≤ (c.fp + c.tn : ℕ) := by exact_mod_cast h3
  have e4 : (1 : ℝ) ≤ (c.fn + c.tn : ℕ) := by exact_mod_cast h4
  have em : ((margins c : ℕ) : ℝ) = (c.tp + c.fn : ℕ) * (c.tp + c.fp : ℕ) * (c.fp + c.tn : ℕ) * (c.fn + c.tn : ℕ) := by
    unfold margins; push_cast; ring
  unfold D
  rw [em]
  generalize ((c.tp + c.fn : ℕ) : ℝ) = p at *
  generalize ((c.tp + c.fp : ℕ) : ℝ) = q at *
  generalize ((c.fp + c.tn : ℕ) : ℝ) = r at *
  generalize ((c.fn + c.tn : ℕ) : ℝ) = s at *
  have hu0 := two_zpow_pos (-53)
  have hu1 : (2 : ℝ) ^ (-53 : ℤ) ≤ 1 / 1000 := by norm_num
  have x1 : 1 ≤ p * q := one_le_mul_of_one_le_of_one_le e1 e2
  obtain ⟨a1, a2⟩ := rd_rel1 x1
  have y1 := one_le_rd x1
  have x2 : 1 ≤ rd (p * q) * r := one_le_mul_of_one_le_of_one_le y1 e3
  obtain ⟨b1, b2⟩ := rd_rel1 x2
  have y2 := one_le_rd x2
  have x3 : 1 ≤ rd (rd (p * q) * r) * s := one_le_mul_of_one_le_of_one_le y2 e4
  obtain ⟨c1, c2⟩ := rd_rel1 x3
  have y3 := one_le_rd x3
  obtain ⟨d1, d2⟩ := rd_rel1 (Real.one_le_sqrt.2 y3)
  generalize (2 : ℝ) ^ (-53 : ℤ) = u at *
  generalize rd (rd (rd (p * q) * r) * s) = z at *
  generalize rd (rd (p * q) * r) = y at *
  generalize rd (p * q) = x at *
  have lo : p * q * r * s * (1 - u) ^ 3 ≤ z := by
    have i1 : p * q * (1 - u) * r ≤ x * r := mul_le_mul_of_nonneg_right a1 (by linarith)
    have i2 : p * q * (1 - u) * r * (1 - u) ≤ y := (mul_le_mul_of_nonneg_right i1 (by linarith)).trans b1
    have i3 := (mul_le_mul_of_nonneg_right (mul_le_mul_of_nonneg_right i2 (by linarith : (0:ℝ) ≤ s)) (by linarith : 0 ≤ 1 - u)).trans c1
    calc _ = p * q * (1 - u) * r * (1 - u) * s * (1 - u) := by ring
      _ ≤ z := i3
  have hi : z ≤ p * q * r * s * (1 + u) ^ 3 := by
    have i1 : x * r ≤ p * q * (1 + u) * r := mul_le_mul_of_nonneg_right a2 (by linarith)
    have i2 : y ≤ p * q * (1 + u) * r * (1 + u) := b2.trans (mul_le_mul_of_nonneg_right i1 (by linarith))
    have i3 := c2.trans (mul_le_mul_of_nonneg_right (mul_le_mul_of_nonneg_right i2 (by linarith : (0:ℝ) ≤ s)) (by linarith : 0 ≤ 1 + u))
    calc z ≤ p * q * (1 + u) * r * (1 + u) * s * (1 + u) := i3
      _ = _ := by ring
  have hP : 0 ≤ p * q * r * s := by positivity
  generalize p * q * r * s = P at *
  have s1 : Real.sqrt P * (1 - 16 / 10 * u) ≤ Real.sqrt z := by
    refine Real.le_sqrt_of_sq_le ?_
    rw [mul_pow, Real.sq_sqrt hP]
    refine le_trans (mul_le_mul_of_nonneg_left ?_ hP) lo
    nlinarith [mul_nonneg hu0.le hu0.le]
  have s2 : Real.sqrt z ≤ Real.sqrt P * (1 + 16 / 10 * u) := by
    rw [Real.sqrt_le_left (by positivity), mul_pow, Real.sq_sqrt hP]
    refine hi.trans (mul_le_mul_of_nonneg_left ?_ hP)
    nlinarith [mul_nonneg hu0.le hu0.le, mul_nonneg (mul_nonneg hu0.le hu0.le) hu0.le]
  have hS := Real.sqrt_nonneg P
  constructor
  · refine le_trans ?_ d1
    refine le_trans ?_ (mul_le_mul_of_nonneg_right s1 (by linarith))
    rw [mul_assoc]
    refine mul_le_mul_of_nonneg_left ?_ hS
    nlinarith
  · refine d2.trans ((mul_le_mul_of_nonneg_right s2 (by linarith)).trans ?_)
    rw [mul_assoc]
    refine mul_le_mul_of_nonneg_left ?_ hS
    nlinarith

private theorem margins_pos {c : Counts} (hp : Proper c) : (1 : ℝ) ≤ margins c := by
  obtain ⟨h1, h2, h3, h4⟩ := hp
  have : 0 < margins c := Nat.mul_pos (Nat.mul_pos (Nat.mul_pos h1 h2) h3) h4
  exact_mod_cast this

private theorem margins_lt {c : Counts} (hr : Rows c) : (margins c : ℝ) ≤ 2 ^ (128 : ℤ) := by
  have : margins c ≤ 2 ^ 32 * 2 ^ 32 * 2 ^ 32 * 2 ^ 32 := by
    unfold Rows at hr
    unfold margins
    gcongr <;> omega
  have h2 : ((margins c : ℕ) : ℝ) ≤ ((2 ^ 32 * 2 ^ 32 * 2 ^ 32 * 2 ^ 32 : ℕ) : ℝ) := by exact_mod_cast this
  refine h2.trans (le_of_eq ?_)
  norm_num

private theorem phi_eq (c : Counts) : phi c = N c / Real.sqrt (margins c) := rfl

private theorem v_err {c : Counts} (hr : Rows c) (hp : Proper c) :
    |rd (N c / D c) - phi c| ≤ 4 * 2 ^ (-53 : ℤ) * |phi c| := by
  by_cases hN : N c = 0
  · rw [phi_eq, hN, zero_div, zero_div, rd_zero]; simp
  have hN1 : 1 ≤ |N c| := by
    rw [N_int] at hN ⊢
    have := Int.one_le_abs (by exact_mod_cast hN : (((c.tp * c.tn : ℕ) : ℤ) - ((c.fn * c.fp : ℕ) : ℤ)) ≠ 0)
    exact_mod_cast this
  obtain ⟨d1, d2⟩ := D_err hp
  have hD := D_ge_one hp
  have hM1 := margins_pos hp
  have hS1 : 1 ≤ Real.sqrt (margins c) := Real.one_le_sqrt.2 hM1
  have hS2 : Real.sqrt (margins c) ≤ 2 ^ (64 : ℤ) := by
    rw [Real.sqrt_le_left (by positivity)]
    refine (margins_lt hr).trans (le_of_eq (by norm_num))
  have hu0 := two_zpow_pos (-53)
  have hu1 : (2 : ℝ) ^ (-53 : ℤ) ≤ 1 / 1000 := by norm_num
  have hq : (2 : ℝ) ^ (-1000 : ℤ) ≤ |N c / D c| := by
    rw [abs_div, abs_of_pos (by linarith : 0 < D c), le_div_iff₀ (by linarith)]
    have h65 : D c ≤ 2 ^ (65 : ℤ) := by
      have : (2 : ℝ) ^ (65 : ℤ) = 2 ^ (64 : ℤ) * 2 := by norm_num
      rw [this]
      refine d2.trans (mul_le_mul hS2 (by linarith) (by linarith) (by positivity))
    refine le_trans (mul_le_mul_of_nonneg_left h65 (two_zpow_pos _).le) (le_trans ?_ hN1)
    rw [← zpow_add₀ (by norm_num : (2 : ℝ) ≠ 0)]
    exact zpow_le_one_of_nonpos₀ (by norm_num) (by norm_num)
  have hr1 := rd_rel hq
  rw [phi_eq]
  generalize N c = n at *
  generalize D c = d at *
  generalize Real.sqrt (margins c) = S at *
  generalize (2 : ℝ) ^ (-53 : ℤ) = u at *
  have hd0 : 0 < d := by linarith
  have hS0 : 0 < S := by linarith
  have k : |n / d - n / S| ≤ 11 / 4 * u * |n / S| := by
    have : n / d - n / S = n / S * ((S - d) / d) := by field_simp
    rw [this, abs_mul, mul_comm]
    refine mul_le_mul_of_nonneg_right ?_ (abs_nonneg _)
    rw [abs_div, abs_of_pos hd0, div_le_iff₀ hd0, abs_le]
    have l1 : S * (1 - 27 / 10 * u) * (11 / 4 * u) ≤ d * (11 / 4 * u) := mul_le_mul_of_nonneg_right d1 (by positivity)
    have l2 : S * (27 / 10 * u) ≤ S * ((1 - 27 / 10 * u) * (11 / 4 * u)) := by
      refine mul_le_mul_of_nonneg_left ?_ hS0.le
      nlinarith
    constructor <;> nlinarith
  have k2 : |n / d| ≤ |n / S| * (1 + 11 / 4 * u) := by
    have := abs_sub_abs_le_abs_sub (n / d) (n / S)
    nlinarith
  have k3 := abs_sub_le (rd (n / d)) (n / d) (n / S)
  have k4 : u * |n / d| ≤ u * (|n / S| * (1 + 11 / 4 * u)) := mul_le_mul_of_nonneg_left k2 hu0.le
  have k5 : u * (|n / S| * (1 + 11 / 4 * u)) ≤ u * |n / S| * (5 / 4) := by
    have : 0 ≤ u * |n / S| := by positivity
    nlinarith
  nlinarith

private theorem phi_sign (c : Counts) (hp : Proper c) : (0 < phi c ↔ c.fn * c.fp < c.tp * c.tn) ∧ (phi c < 0 ↔ c.tp * c.tn < c.fn * c.fp) := by
  have hS : 0 < Real.sqrt (margins c) := Real.sqrt_pos.2 (by have := margins_pos hp; linarith)
  have hn : N c / Real.sqrt (margins c) < 0 ↔ N c < 0 := by rw [div_lt_iff₀ hS, zero_mul]
  rw [phi_eq, div_pos_iff_of_pos_right hS, hn]
  unfold N
  constructor
  · rw [sub_pos]; exact_mod_cast Iff.rfl
  · rw [sub_neg]; exact_mod_cast Iff.rfl

/-- **C157a.**  The Matthews correlation of up to `2 ^ 32` rows whose products do not wrap is within four units of rounding of the exact
one, relatively; it is positive, zero or negative exactly when the exact one is.  With one label or one prediction only it is NaN. -/
theorem mcc_double (c : Counts) (hr : Rows c) (hf : Fits c) :
    (¬ Proper c → plMcc c = .nan) ∧
    (Proper c → ∃ v, plMcc c = .num v ∧ |v - phi c| ≤ 4 * 2 ^ (-53 : ℤ) * |phi c| ∧
      (0 < v ↔ c.fn * c.fp < c.tp * c.tn) ∧ (v < 0 ↔ c.tp * c.tn < c.fn * c.fp)) := by
  constructor
  · intro hn
    unfold Proper at hn
    have h0 : rd (0 : ℝ) = 0 := rd_zero
    obtain ⟨tn, fp, fn, tp⟩ := c
    simp only at hn
    have hc : (tp = 0 ∧ fn = 0) ∨ (tp = 0 ∧ fp = 0) ∨ (fp = 0 ∧ tn = 0) ∨ (fn = 0 ∧ tn = 0) := by omega
    rcases hc with ⟨rfl, rfl⟩ | ⟨rfl, rfl⟩ | ⟨rfl, rfl⟩ | ⟨rfl, rfl⟩ <;>
      simp [plMcc, h0, Val.fdiv, rnd]
  · intro hp
    have he := v_err hr hp
    obtain ⟨s1, s2⟩ := phi_sign c hp
    refine ⟨_, plMcc_eq hr hf hp, he, ?_, ?_⟩
    · rw [← s1]
      have hu1 : 4 * (2 : ℝ) ^ (-53 : ℤ) ≤ 1 / 1000 := by norm_num
      generalize 4 * (2 : ℝ) ^ (-53 : ℤ) = u at *
      have h2 := mul_le_mul_of_nonneg_right hu1 (abs_nonneg (phi c))
      rw [abs_le] at he
      rcases abs_cases (phi c) with ⟨h, h'⟩ | ⟨h, h'⟩ <;> constructor <;> intro hh <;> nlinarith
    · rw [← s2]
      have hu1 : 4 * (2 : ℝ) ^ (-53 : ℤ) ≤ 1 / 1000 := by norm_num
      generalize 4 * (2 : ℝ) ^ (-53 : ℤ) = u at *
      have h2 := mul_le_mul_of_nonneg_right hu1 (abs_nonneg (phi c))
      rw [abs_le] at he
      rcases abs_cases (phi c) with ⟨h, h'⟩ | ⟨h, h'⟩ <;> constructor <;> intro hh <;> nlinarith

private theorem gap_aux {a b x d : ℝ} (ha : 0 ≤ a) (hb : 0 ≤ b) (hx : 0 ≤ x) (hd : 0 ≤ d) (h : 1 ≤ b ∨ 1 ≤ x)
    (hn : 0 ≤ a * d - x * b) : (a + 1) * (a * d - x * b) ^ 2 ≤ a * ((a + x) * (a + b) * (b + d) * (x + d)) := by
  have h1 : (a * d - x * b) ^ 2 ≤ (a * d) ^ 2 := pow_le_pow_left₀ hn (by nlinarith [mul_nonneg hx hb]) 2
  have h2 : a * (a + 1) * (d * (d + 1)) ≤ (a + x) * (a + b) * (b + d) * (x + d) := by
    have p1 := mul_nonneg ha hb
    have p2 := mul_nonneg ha hx
    have p4 := mul_nonneg hb hx
    have p5 := mul_nonneg hb hd
    have p6 := mul_nonneg hx hd
    have e1 : a * (a + 1) ≤ (a + x) * (a + b) := by
      rcases h with h | h
      · nlinarith [mul_le_mul_of_nonneg_left h ha]
      · nlinarith [mul_le_mul_of_nonneg_left h ha]
    have e2 : d * (d + 1) ≤ (b + d) * (x + d) := by
      rcases h with h | h
      · nlinarith [mul_le_mul_of_nonneg_left h hd]
      · nlinarith [mul_le_mul_of_nonneg_left h hd]
    have := mul_le_mul e1 e2 (by positivity) (by positivity)
    linarith
  have h3 : (a + 1) * (a * d) ^ 2 ≤ a * (a * (a + 1) * (d * (d + 1))) := by
    have : 0 ≤ a * a * (a + 1) * d := by positivity
    nlinarith
  exact (mul_le_mul_of_nonneg_left h1 (by linarith)).trans (h3.trans (mul_le_mul_of_nonneg_left h2 ha))

/-- With an error among fewer than `2 ^ 32` rows the exact correlation is away from one. -/
private theorem phi_gap {c : Counts} (hr : Rows c) (hp : Proper c) :
    (1 ≤ c.fp + c.fn → phi c ≤ 1 - 2 ^ (-33 : ℤ)) ∧ (1 ≤ c.tp + c.tn → -(1 - 2 ^ (-33 : ℤ)) ≤ phi c) := by
  have hM := margins_pos hp
  have hS : 0 < Real.sqrt (margins c) := Real.sqrt_pos.2 (by linarith)
  have em : ((margins c : ℕ) : ℝ) = ((c.tp : ℝ) + c.fn) * (c.tp + c.fp) * (c.fp + c.tn) * (c.fn + c.tn) := by
    unfold margins; push_cast; ring
  have key : ∀ (a : ℝ) (n : ℝ), 0 ≤ a → a + 1 ≤ 2 ^ 32 → 0 ≤ n → (a + 1) * n ^ 2 ≤ a * margins c →
      n / Real.sqrt (margins c) ≤ 1 - 2 ^ (-33 : ℤ) := by
    intro a n ha ha2 hn h
    rw [div_le_iff₀ hS]
    refine le_of_sq_le_sq ?_ (mul_nonneg (by norm_num) hS.le)
    rw [mul_pow, Real.sq_sqrt (by linarith)]
    have h32 : n ^ 2 ≤ (1 - 2 ^ (-32 : ℤ)) * margins c := by
      have h1 : (a + 1) * (2 ^ 32 * n ^ 2) ≤ (a + 1) * ((2 ^ 32 - 1) * margins c) := by nlinarith
      have h2 := le_of_mul_le_mul_left h1 (by linarith)
      have e : (1 - 2 ^ (-32 : ℤ)) * (margins c : ℝ) = ((2 ^ 32 - 1) * margins c) / 2 ^ 32 := by norm_num; ring
      rw [e, le_div_iff₀ (by norm_num)]
      linarith
    refine h32.trans (mul_le_mul_of_nonneg_right (by norm_num) (by linarith))
  unfold Rows at hr
  have p33 : (0 : ℝ) ≤ 1 - 2 ^ (-33 : ℤ) := by norm_num
  rw [phi_eq]
  constructor
  · intro h
    rcases le_total 0 (N c) with h0 | h0
    · refine key c.tp _ (by positivity) (by exact_mod_cast (by omega : c.tp + 1 ≤ 2 ^ 32)) h0 ?_
      rw [em]
      refine gap_aux (by positivity) (by positivity) (by positivity) (by positivity) ?_ h0
      rcases Nat.eq_zero_or_pos c.fp with h' | h'
      · exact Or.inr (by exact_mod_cast (by omega : 1 ≤ c.fn))
      · exact Or.inl (by exact_mod_cast h')
    · exact (div_nonpos_of_nonpos_of_nonneg h0 hS.le).trans p33
  · intro h
    rcases le_total (N c) 0 with h0 | h0
    · rw [neg_le, ← neg_div]
      have hn : -N c = (c.fn : ℝ) * c.fp - c.tp * c.tn := by unfold N; ring
      rw [hn]
      have hn0 : 0 ≤ (c.fn : ℝ) * c.fp - c.tp * c.tn := by rw [← hn]; linarith
      refine key c.fn _ (by positivity) (by exact_mod_cast (by omega : c.fn + 1 ≤ 2 ^ 32)) hn0 ?_
      have := gap_aux (a := c.fn) (b := c.tn) (x := c.tp) (d := c.fp) (by positivity) (by positivity) (by positivity) (by positivity)
        (by
          rcases Nat.eq_zero_or_pos c.tn with h' | h'
          · exact Or.inr (by exact_mod_cast (by omega : 1 ≤ c.tp))
          · exact Or.inl (by exact_mod_cast h')) hn0
      rw [em]
      refine this.trans (le_of_eq (by ring))
    · exact (neg_nonpos.2 p33).trans (div_nonneg h0 hS.le)

private theorem phi_le_one {c : Counts} (hp : Proper c) : |phi c| ≤ 1 := by
  have hM := margins_pos hp
  have hS : 0 < Real.sqrt (margins c) := Real.sqrt_pos.2 (by linarith)
  rw [phi_eq, abs_div, abs_of_pos hS, div_le_one hS]
  exact Real.le_sqrt_of_sq_le (by rw [sq_abs]; exact N_sq c)

/-- **C157b.**  One and minus one are never reached by rounding: a result of one or more means that no row is predicted wrongly, a
result of minus one or less that none is predicted rightly. -/
theorem mcc_double_extreme (c : Counts) (hr : Rows c) (hf : Fits c) (v : ℝ) (hv : plMcc c = .num v) :
    |v| ≤ 1 + 4 * 2 ^ (-53 : ℤ) ∧ (1 ≤ v → c.fp = 0 ∧ c.fn = 0) ∧ (v ≤ -1 → c.tp = 0 ∧ c.tn = 0) := by
  have hp : Proper c := by
    by_contra h
    rw [(mcc_double c hr hf).1 h] at hv
    cases hv
  rw [plMcc_eq hr hf hp] at hv
  cases hv
  have he := v_err hr hp
  have h1 := phi_le_one hp
  obtain ⟨g1, g2⟩ := phi_gap hr hp
  have he' : |rd (N c / D c) - phi c| ≤ 4 * 2 ^ (-53 : ℤ) :=
    he.trans (mul_le_of_le_one_right (by positivity) h1)
  have small : 4 * (2 : ℝ) ^ (-53 : ℤ) < 2 ^ (-33 : ℤ) := by norm_num
  refine ⟨?_, fun h => ?_, fun h => ?_⟩
  · have := abs_sub_abs_le_abs_sub (rd (N c / D c)) (phi c)
    linarith
  · by_contra hc
    have := g1 (by omega)
    rw [abs_le] at he'
    generalize 4 * (2 : ℝ) ^ (-53 : ℤ) = u at *
    generalize (2 : ℝ) ^ (-33 : ℤ) = w at *
    linarith [he'.2]
  · by_contra hc
    have := g2 (by omega)
    rw [abs_le] at he'
    generalize 4 * (2 : ℝ) ^ (-53 : ℤ) = u at *
    generalize (2 : ℝ) ^ (-33 : ℤ) = w at *
    linarith [he'.1]

/-- **C157c.**  Partial: as long as the product of three of the four margins is at most `2 ^ 53`, the result is within [-1, 1], and
exactly one (minus one) for the predictions that are all right (all wrong).  Beyond that it is not: `mcc_double_above`. -/
theorem mcc_double_range_partial (c : Counts) (hr : Rows c) (hf : Fits c)
    (h3 : (c.tp + c.fn) * (c.tp + c.fp) * (c.fp + c.tn) ≤ 2 ^ 53) (v : ℝ) (hv : plMcc c = .num v) :
    -1 ≤ v ∧ v ≤ 1 ∧ (v = 1 ↔ c.fp = 0 ∧ c.fn = 0) ∧ (v = -1 ↔ c.tp = 0 ∧ c.tn = 0) := by
  have hp : Proper c := by
    by_contra h
    rw [(mcc_double c hr hf).1 h] at hv
    cases hv
  obtain ⟨-, x1, x2⟩ := mcc_double_extreme c hr hf v hv
  rw [plMcc_eq hr hf hp] at hv
  cases hv
  have hD1 := D_ge_one hp
  have hD0 : 0 < D c := by linarith
  obtain ⟨p1, p2, p3, p4⟩ := hp
  have hD : D c = rd (Real.sqrt (rd (margins c))) := by
    unfold D margins
    have h2 : (c.tp + c.fn) * (c.tp + c.fp) ≤ 2 ^ 53 := le_trans (Nat.le_mul_of_pos_right _ p3) h3
    rw [← Nat.cast_mul, rd_nat h2, ← Nat.cast_mul, rd_nat h3, ← Nat.cast_mul]
  obtain ⟨k, hk, hkl⟩ : ∃ k : ℕ, |N c| = k ∧ k < 2 ^ 53 := by
    refine ⟨(((c.tp * c.tn : ℕ) : ℤ) - ((c.fn * c.fp : ℕ) : ℤ)).natAbs, ?_, ?_⟩
    · rw [N_int, ← Int.cast_abs, ← Int.natCast_natAbs, Int.cast_natCast]
    · have := hf.1; have := hf.2; omega
  have hkD : (k : ℝ) ≤ D c := by
    rw [hD, ← sqrt_sq hkl]
    refine rd_mono (Real.sqrt_le_sqrt (rd_mono ?_))
    rw [← hk, ← sq, sq_abs]
    exact N_sq c
  have hab : |rd (N c / D c)| ≤ 1 := by
    rw [rd_abs, abs_div, hk, abs_of_pos hD0]
    exact rd_le_one (div_le_one_of_le₀ hkD hD0.le)
  have heq : N c ^ 2 = margins c → D c = |N c| := by
    intro h
    rw [hD, ← h, ← sq_abs, hk, sq, sqrt_sq hkl]
  rw [abs_le] at hab
  refine ⟨hab.1, hab.2, ⟨fun h => x1 h.ge, fun h => ?_⟩, ⟨fun h => x2 h.le, fun h => ?_⟩⟩
  · have hm : N c ^ 2 = margins c := by unfold N margins; rw [h.1, h.2]; push_cast; ring
    have hn : 0 ≤ N c := by unfold N; rw [h.1]; simp; positivity
    have hd := heq hm
    rw [abs_of_nonneg hn] at hd
    rw [← hd, div_self hD0.ne', rd_one]
  · have hm : N c ^ 2 = margins c := by unfold N margins; rw [h.1, h.2]; push_cast; ring
    have hn : N c ≤ 0 := by unfold N; rw [h.1]; simp; positivity
    have hd := heq hm
    rw [abs_of_nonpos hn] at hd
    rw [show N c = -D c by linarith, neg_div, div_self hD0.ne', rd_neg, rd_one]

/-- **C157**, disagreement: among 11640123 rows, all predicted rightly, with 266 of the smaller class, the correlation is above one. -/
theorem mcc_double_above : plMcc ⟨266, 0, 0, 11639857⟩ = .num (1 + 2 ^ (-52 : ℤ)) := by
  have r1 : rd ((11639857 : ℝ) * 11639857) = 135486270980449 := by
    have := rd_nat (n := 135486270980449) (by norm_num)
    norm_num at this ⊢
    exact this
  have r2 : rd ((135486270980449 : ℝ) * 266) = 36039348080799432 := by
    rw [rd_at 3 4504918510099929 (by norm_num) (by norm_num) (by norm_num) (by rw [abs_lt]; constructor <;> norm_num)]; norm_num
  have r3 : rd ((36039348080799432 : ℝ) * 266) = 9586466589492647936 := by
    rw [rd_at 11 4680891889400707 (by norm_num) (by norm_num) (by norm_num) (by rw [abs_lt]; constructor <;> norm_num)]; norm_num
  have r4 : rd (Real.sqrt 9586466589492647936) = 6493206137012223 / 2 ^ 21 := by
    rw [rd_sqrt_at (-21) 6493206137012223 (by norm_num) (by norm_num) (by norm_num) (by norm_num) (by norm_num) (by norm_num)]; norm_num
  have hr : Rows ⟨266, 0, 0, 11639857⟩ := by norm_num [Rows]
  have hf : Fits ⟨266, 0, 0, 11639857⟩ := by norm_num [Fits]
  have hp : Proper ⟨266, 0, 0, 11639857⟩ := by norm_num [Proper]
  rw [plMcc_eq hr hf hp]
  have hD : D ⟨266, 0, 0, 11639857⟩ = 6493206137012223 / 2 ^ 21 := by
    unfold D
    simp only [Nat.add_zero, Nat.zero_add, Nat.cast_ofNat]
    rw [r1, r2, r3, r4]
  have hN : N ⟨266, 0, 0, 11639857⟩ = 3096201962 := by unfold N; norm_num
  rw [hD, hN, rd_at (-52) 4503599627370497 (by norm_num) (by norm_num) (by norm_num) (by rw [abs_lt]; constructor <;> norm_num)]
  norm_num

/-- **C157**, disagreement: among 18992681 rows, all predicted rightly, the correlation is below one. -/
theorem mcc_double_below : plMcc ⟨218, 0, 0, 18992463⟩ = .num (1 - 2 ^ (-53 : ℤ)) := by
  have r1 : rd ((18992463 : ℝ) * 18992463) = 360713650806369 := by
    have := rd_nat (n := 360713650806369) (by norm_num)
    norm_num at this ⊢
    exact this
  have r2 : rd ((360713650806369 : ℝ) * 218) = 78635575875788448 := by
    rw [rd_at 4 4914723492236778 (by norm_num) (by norm_num) (by norm_num) (by rw [abs_lt]; constructor <;> norm_num)]; norm_num
  have r3 : rd ((78635575875788448 : ℝ) * 218) = 17142555540921882624 := by
    rw [rd_at 11 8370388447715763 (by norm_num) (by norm_num) (by norm_num) (by rw [abs_lt]; constructor <;> norm_num)]; norm_num
  have r4 : rd (Real.sqrt 17142555540921882624) = 8682957824851969 / 2 ^ 21 := by
    rw [rd_sqrt_at (-21) 8682957824851969 (by norm_num) (by norm_num) (by norm_num) (by norm_num) (by norm_num) (by norm_num)]; norm_num
  have hr : Rows ⟨218, 0, 0, 18992463⟩ := by norm_num [Rows]
  have hf : Fits ⟨218, 0, 0, 18992463⟩ := by norm_num [Fits]
  have hp : Proper ⟨218, 0, 0, 18992463⟩ := by norm_num [Proper]
  rw [plMcc_eq hr hf hp]
  have hD : D ⟨218, 0, 0, 18992463⟩ = 8682957824851969 / 2 ^ 21 := by
    unfold D
    simp only [Nat.add_zero, Nat.zero_add, Nat.cast_ofNat]
    rw [r1, r2, r3, r4]
  have hN : N ⟨218, 0, 0, 18992463⟩ = 4140356934 := by unfold N; norm_num
  rw [hD, hN, rd_at (-53) 9007199254740991 (by norm_num) (by norm_num) (by norm_num) (by rw [abs_lt]; constructor <;> norm_num)]
  norm_num

/-! ## The columns of the confusion matrix -/

private theorem ratio_eq (a : ℕ) {b : ℕ} (hb : 0 < b) : rnd (Val.fdiv (.num (rd a)) (.num (rd b))) = .num (quot a b) := by
  have := rd_nat_pos hb
  rw [Val.fdiv, if_neg (by linarith)]
  rfl

private theorem ratio_zero {a b : ℕ} (hab : a ≤ b) (hb : b = 0) : rnd (Val.fdiv (.num (rd a)) (.num (rd b))) = .nan := by
  subst hb
  have : a = 0 := by omega
  subst this
  simp [Val.fdiv, rd_zero, rnd]

theorem quot_err {a b : ℕ} (hab : a ≤ b) (hb : b < 2 ^ 32) : |quot a b - (a : ℝ) / b| ≤ 2 ^ (-54 : ℤ) := by
  rw [quot_eq (by omega) (by omega)]
  refine rd_abs_err' ?_
  rw [abs_of_nonneg (by positivity)]
  exact div_le_one_of_le₀ (by exact_mod_cast hab) (by positivity)

private theorem share_mk {e : ℝ} {a b : ℕ} (hab : a ≤ b) (hb : b < 2 ^ 32) (h0 : 0 < b) (x : ℝ) (he : |x - (a : ℝ) / b| ≤ e)
    (he' : e < 2 ^ (-32 : ℤ)) (x0 : 0 ≤ x) (x1 : x ≤ 1) (z : a = 0 → x = 0) (o : a = b → x = 1) :
    0 ≤ x ∧ x ≤ 1 ∧ (x = 0 ↔ a = 0) ∧ (x = 1 ↔ a = b) ∧ |x - (a : ℝ) / b| ≤ e := by
  have hb0 : (0 : ℝ) < b := by exact_mod_cast h0
  have hb1 : (b : ℝ) ≤ 2 ^ (32 : ℤ) := by exact_mod_cast hb.le
  have hinv : (2 : ℝ) ^ (-32 : ℤ) ≤ 1 / b := by
    rw [zpow_neg, ← one_div]
    exact one_div_le_one_div_of_le hb0 hb1
  refine ⟨x0, x1, ⟨fun h => ?_, z⟩, ⟨fun h => ?_, o⟩, he⟩
  · by_contra hc
    have h1 : (1 : ℝ) ≤ a := by exact_mod_cast Nat.pos_of_ne_zero hc
    have h2 : (1 : ℝ) / b ≤ a / b := div_le_div_of_nonneg_right h1 hb0.le
    rw [h, abs_le] at he
    generalize (2 : ℝ) ^ (-32 : ℤ) = w at *
    linarith [he.1]
  · by_contra hc
    have h1 : (a : ℝ) + 1 ≤ b := by exact_mod_cast lt_of_le_of_ne hab hc
    have h2 : (a : ℝ) / b ≤ 1 - 1 / b := by
      rw [div_le_iff₀ hb0, sub_mul, one_div, inv_mul_cancel₀ hb0.ne']
      linarith
    rw [h, abs_le] at he
    generalize (2 : ℝ) ^ (-32 : ℤ) = w at *
    linarith [he.2]

private theorem share_ratio {a b : ℕ} (hab : a ≤ b) (hb : b < 2 ^ 32) :
    Share (2 ^ (-54 : ℤ)) (rnd (Val.fdiv (.num (rd a)) (.num (rd b)))) a b := by
  refine ⟨ratio_zero hab, fun h0 => ⟨_, ratio_eq a h0, ?_⟩⟩
  refine share_mk hab hb h0 _ (quot_err hab hb) (by norm_num) (quot_nonneg a b) (quot_le_one hab) ?_ ?_
  · rintro rfl; exact quot_zero b
  · rintro rfl; exact quot_self h0

private theorem share_compl {a a' b : ℕ} (hab : a + a' = b) (hb : b < 2 ^ 32) :
    Share (2 ^ (-53 : ℤ)) (rnd (Val.fsub (.num 1) (rnd (Val.fdiv (.num (rd a')) (.num (rd b)))))) a b := by
  refine ⟨fun h => by rw [ratio_zero (by omega) h]; rfl, fun h0 => ?_⟩
  rw [ratio_eq a' h0]
  refine ⟨rd (1 - quot a' b), rfl, ?_⟩
  have q0 := quot_nonneg a' b
  have q1 : quot a' b ≤ 1 := quot_le_one (by omega)
  have hb0 : (0 : ℝ) < b := by exact_mod_cast h0
  refine share_mk (by omega) hb h0 _ ?_ (by norm_num) (rd_nonneg (by linarith)) (rd_le_one (by linarith)) ?_ ?_
  · have e1 := quot_err (a := a') (b := b) (by omega) hb
    have e2 := rd_abs_err' (x := 1 - quot a' b) (by rw [abs_of_nonneg (by linarith)]; linarith)
    have e3 : (a : ℝ) / b = 1 - a' / b := by
      rw [eq_sub_iff_add_eq, ← add_div, div_eq_one_iff_eq hb0.ne']
      exact_mod_cast hab
    have e4 : (2 : ℝ) ^ (-53 : ℤ) = 2 ^ (-54 : ℤ) + 2 ^ (-54 : ℤ) := by norm_num
    rw [e3, e4]
    generalize (2 : ℝ) ^ (-54 : ℤ) = w at *
    rw [abs_le] at *
    constructor <;> linarith [e1.1, e1.2, e2.1, e2.2]
  · rintro rfl
    rw [show a' = b by omega, quot_self h0, sub_self, rd_zero]
  · intro h
    rw [show a' = 0 by omega, quot_zero, sub_zero, rd_one]

/-- **C157d.**  The eleven shares among the columns of the confusion matrix of fewer than `2 ^ 32` rows: NaN for an empty denominator, else
in [0, 1], exactly 0 and 1 where the share of the counts is, and within `2 ^ -54` of it (`2 ^ -53` for those computed as one minus another). -/
theorem metrics_double_shares (c : Counts) (hr : Rows c) :
    Share (2 ^ (-54 : ℤ)) (metrics c).tpr c.tp (c.tp + c.fn) ∧ Share (2 ^ (-54 : ℤ)) (metrics c).fpr c.fp (c.fp + c.tn) ∧
    Share (2 ^ (-54 : ℤ)) (metrics c).precision c.tp (c.tp + c.fp) ∧
    Share (2 ^ (-54 : ℤ)) (metrics c).falseOmission c.fn (c.fn + c.tn) ∧
    Share (2 ^ (-54 : ℤ)) (metrics c).prevalence (c.tp + c.fn) (c.tp + c.fn + c.fp + c.tn) ∧
    Share (2 ^ (-54 : ℤ)) (metrics c).threat c.tp (c.tp + c.fn + c.fp) ∧
    Share (2 ^ (-54 : ℤ)) (metrics c).acc (c.tp + c.tn) (c.tp + c.fn + c.fp + c.tn) ∧
    Share (2 ^ (-53 : ℤ)) (metrics c).fnr c.fn (c.tp + c.fn) ∧ Share (2 ^ (-53 : ℤ)) (metrics c).tnr c.tn (c.fp + c.tn) ∧
    Share (2 ^ (-53 : ℤ)) (metrics c).npv c.tn (c.fn + c.tn) ∧ Share (2 ^ (-53 : ℤ)) (metrics c).fdr c.fp (c.tp + c.fp) := by
  unfold Rows at hr
  have ea : c.tp + c.fn + c.fp + c.tn = c.tp + c.fn + (c.fp + c.tn) := by ring
  rw [ea]
  refine ⟨share_ratio ?_ ?_, share_ratio ?_ ?_, share_ratio ?_ ?_, share_ratio ?_ ?_, share_ratio ?_ ?_, share_ratio ?_ ?_,
    share_ratio ?_ ?_, share_compl ?_ ?_, share_compl ?_ ?_, share_compl ?_ ?_, share_compl ?_ ?_⟩ <;> omega

private theorem share_top {a b : ℕ} (hab : a ≤ b) (hb : b < 2 ^ 32) (h0 : 0 < b) (h : a ≠ b) :
    (a : ℝ) / b ≤ 1 - 2 ^ (-32 : ℤ) := by
  have hb0 : (0 : ℝ) < b := by exact_mod_cast h0
  have h1 : (a : ℝ) + 1 ≤ b := by exact_mod_cast lt_of_le_of_ne hab h
  have hb1 : (b : ℝ) ≤ 2 ^ (32 : ℤ) := by exact_mod_cast hb.le
  have h2 : (2 : ℝ) ^ (-32 : ℤ) * b ≤ 1 := by
    rw [zpow_neg]
    exact (inv_mul_le_one₀ (by positivity)).2 hb1
  rw [div_le_iff₀ hb0]
  linarith

theorem share_pos {a b : ℕ} (ha : 0 < a) (hb : b < 2 ^ 32) (h0 : 0 < b) : 2 ^ (-32 : ℤ) ≤ (a : ℝ) / b := by
  have hb0 : (0 : ℝ) < b := by exact_mod_cast h0
  have h1 : (1 : ℝ) ≤ a := by exact_mod_cast ha
  have hb1 : (b : ℝ) ≤ 2 ^ (32 : ℤ) := by exact_mod_cast hb.le
  have h2 : (2 : ℝ) ^ (-32 : ℤ) * b ≤ 1 := by
    rw [zpow_neg]
    exact (inv_mul_le_one₀ (by positivity)).2 hb1
  rw [le_div_iff₀ hb0]
  linarith

/-- A sum of two numbers in [0, 1] is rounded by at most `2 ^ -53`. -/
private theorem rd_sum_err {x : ℝ} (h0 : 0 ≤ x) (h2 : x ≤ 2) : |rd x - x| ≤ 2 ^ (-53 : ℤ) := by
  by_cases h : x < 1
  · refine (rd_abs_err' (by rw [abs_of_nonneg h0]; exact h.le)).trans (by norm_num)
  · have := rd_rel (x := x) (by
      rw [abs_of_nonneg h0]
      have small : (2 : ℝ) ^ (-1000 : ℤ) ≤ 1 := zpow_le_one_of_nonpos₀ (by norm_num) (by norm_num)
      linarith)
    by_cases h3 : x = 2
    · rw [h3, show rd (2 : ℝ) = 2 by have := rd_nat (n := 2) (by norm_num); simpa using this]; simp
    · have hu : ulp f64 x ≤ -52 := ulp_of_lt f64 (by linarith) (by simp [f64]) (by
        rw [abs_of_nonneg h0]
        have : x < 2 := lt_of_le_of_ne h2 h3
        simpa [f64] using this)
      refine (fl_err f64 x).trans ?_
      have := zpow_le_zpow_right₀ (by norm_num : (1 : ℝ) ≤ 2) hu
      have e : (2 : ℝ) ^ (-52 : ℤ) / 2 = 2 ^ (-53 : ℤ) := by norm_num
      rw [← e]
      exact div_le_div_of_nonneg_right this (by norm_num)

/-- **C157e.**  Informedness, markedness and balanced accuracy in doubles: in range, within a few units of rounding of the value from the
counts, and exactly one for predictions that are all right only. -/
theorem metrics_double_sums (c : Counts) (hr : Rows c) (hp : Proper c) :
    Near (3 * 2 ^ (-53 : ℤ)) (-1) 1 (c.fp = 0 ∧ c.fn = 0) (metrics c).informedness
      ((c.tp : ℝ) / (c.tp + c.fn : ℕ) + c.tn / (c.fp + c.tn : ℕ) - 1) ∧
    Near (2 ^ (-52 : ℤ)) 0 1 (c.fp = 0 ∧ c.fn = 0) (metrics c).balancedAccuracy
      (((c.tp : ℝ) / (c.tp + c.fn : ℕ) + c.tn / (c.fp + c.tn : ℕ)) / 2) ∧
    Near (3 * 2 ^ (-54 : ℤ)) (-1) 1 (c.fp = 0 ∧ c.fn = 0) (metrics c).markedness
      ((c.tp : ℝ) / (c.tp + c.fp : ℕ) - c.fn / (c.fn + c.tn : ℕ)) := by
  obtain ⟨p1, p2, p3, p4⟩ := hp
  obtain ⟨⟨-, s1⟩, -, ⟨-, s2⟩, ⟨-, s3⟩, -, -, -, -, ⟨-, s4⟩, -, -⟩ := metrics_double_shares c hr
  obtain ⟨t, ht, t0, t1, tz, t2, te⟩ := s1 p1
  obtain ⟨p, hpr, q0, q1, qz, qo, qe⟩ := s2 p2
  obtain ⟨o, ho, o0, o1, oz, oo, oe⟩ := s3 p4
  obtain ⟨r, hrr, r0, r1, rz, ro, re⟩ := s4 p3
  unfold Rows at hr
  have T := fun h => share_top (a := c.tp) (b := c.tp + c.fn) (by omega) (by omega) p1 h
  have R := fun h => share_top (a := c.tn) (b := c.fp + c.tn) (by omega) (by omega) p3 h
  have P := fun h => share_top (a := c.tp) (b := c.tp + c.fp) (by omega) (by omega) p2 h
  have O := fun h => share_pos (a := c.fn) (b := c.fn + c.tn) h (by omega) p4
  have e54 : (2 : ℝ) ^ (-53 : ℤ) = 2 * 2 ^ (-54 : ℤ) := by norm_num
  have e52 : (2 : ℝ) ^ (-52 : ℤ) = 4 * 2 ^ (-54 : ℤ) := by norm_num
  have e32 : 100 * (2 : ℝ) ^ (-54 : ℤ) < 2 ^ (-32 : ℤ) := by norm_num
  have w0 := two_zpow_pos (-54)
  have sum := rd_sum_err (x := t + r) (by linarith) (by linarith)
  have rd2 : rd 2 = 2 := by have := rd_nat (n := 2) (by norm_num); simpa using this
  have sum0 : 0 ≤ rd (t + r) := rd_nonneg (by linarith)
  have sum2 : rd (t + r) ≤ 2 := by rw [← rd2]; exact rd_mono (by linarith)
  have T1 : (c.tp : ℝ) / (c.tp + c.fn : ℕ) ≤ 1 := div_le_one_of_le₀ (by exact_mod_cast Nat.le_add_right _ _) (by positivity)
  have R1 : (c.tn : ℝ) / (c.fp + c.tn : ℕ) ≤ 1 := div_le_one_of_le₀ (by exact_mod_cast Nat.le_add_left _ _) (by positivity)
  have P1 : (c.tp : ℝ) / (c.tp + c.fp : ℕ) ≤ 1 := div_le_one_of_le₀ (by exact_mod_cast Nat.le_add_right _ _) (by positivity)
  have O1 : (0 : ℝ) ≤ c.fn / (c.fn + c.tn : ℕ) := by positivity
  generalize hTT : (c.tp : ℝ) / (c.tp + c.fn : ℕ) = TT at *
  generalize hRR : (c.tn : ℝ) / (c.fp + c.tn : ℕ) = RR at *
  generalize hPP : (c.tp : ℝ) / (c.tp + c.fp : ℕ) = PP at *
  generalize hOO : (c.fn : ℝ) / (c.fn + c.tn : ℕ) = OO at *
  have er1 := rd_abs_err' (x := rd (t + r) - 1) (by rw [abs_le]; constructor <;> linarith)
  have er2 := rd_abs_err' (x := rd (t + r) / 2) (by rw [abs_le]; constructor <;> linarith)
  have er3 := rd_abs_err' (x := p - o) (by rw [abs_le]; constructor <;> linarith)
  have perfect : ∀ {y : ℝ}, c.fp = 0 ∧ c.fn = 0 → t = 1 ∧ r = 1 ∧ p = 1 ∧ o = 0 := by
    intro _ h
    exact ⟨t2.2 (by omega), ro.2 (by omega), qo.2 (by omega), oz.2 h.2⟩
  rw [e52, e54] at *
  generalize (2 : ℝ) ^ (-54 : ℤ) = w at *
  generalize (2 : ℝ) ^ (-32 : ℤ) = z at *
  rw [abs_le] at te qe oe re sum er1 er2 er3
  refine ⟨⟨rd (rd (t + r) - 1), ?_, ?_, ?_, ⟨fun h => ?_, fun h => ?_⟩, ?_⟩,
    ⟨rd (rd (t + r) / 2), ?_, rd_nonneg (by linarith), rd_le_one (by linarith), ⟨fun h => ?_, fun h => ?_⟩, ?_⟩,
    ⟨rd (p - o), ?_, ?_, ?_, ⟨fun h => ?_, fun h => ?_⟩, ?_⟩⟩
  · change rnd (Val.fsub (rnd (Val.fadd (metrics c).tpr (metrics c).tnr)) (.num 1)) = _
    rw [ht, hrr]; rfl
  · have := rd_mono (x := -1) (y := rd (t + r) - 1) (by linarith)
    rwa [rd_neg, rd_one] at this
  · exact rd_le_one (by linarith)
  · rw [h] at er1
    by_contra hc
    rcases Nat.eq_zero_or_pos c.fn with h' | h'
    · have := R (by omega); linarith [te.1, te.2, re.1, re.2, sum.1, sum.2, er1.1, er1.2]
    · have := T (by omega); linarith [te.1, te.2, re.1, re.2, sum.1, sum.2, er1.1, er1.2]
  · obtain ⟨a1, a2, -, -⟩ := perfect (y := 0) h
    rw [a1, a2, show (1 : ℝ) + 1 = 2 by norm_num, rd2, show (2 : ℝ) - 1 = 1 by norm_num, rd_one]
  · rw [abs_le]; constructor <;> linarith [te.1, te.2, re.1, re.2, sum.1, sum.2, er1.1, er1.2]
  · change rnd (Val.fdiv (rnd (Val.fadd (metrics c).tpr (metrics c).tnr)) (.num 2)) = _
    rw [ht, hrr]
    simp only [Val.fadd, rnd, Val.fdiv]
    rw [if_neg (by norm_num)]
  · rw [h] at er2
    by_contra hc
    rcases Nat.eq_zero_or_pos c.fn with h' | h'
    · have := R (by omega); linarith [te.1, te.2, re.1, re.2, sum.1, sum.2, er2.1, er2.2]
    · have := T (by omega); linarith [te.1, te.2, re.1, re.2, sum.1, sum.2, er2.1, er2.2]
  · obtain ⟨a1, a2, -, -⟩ := perfect (y := 0) h
    rw [a1, a2, show (1 : ℝ) + 1 = 2 by norm_num, rd2, show (2 : ℝ) / 2 = 1 by norm_num, rd_one]
  · rw [abs_le]; constructor <;> linarith [te.1, te.2, re.1, re.2, sum.1, sum.2, er2.1, er2.2]
  · change rnd (Val.fsub (metrics c).precision (metrics c).falseOmission) = _
    rw [hpr, ho]; rfl
  · have := rd_mono (x := -1) (y := p - o) (by linarith)
    rwa [rd_neg, rd_one] at this
  · exact rd_le_one (by linarith)
  · rw [h] at er3
    by_contra hc
    rcases Nat.eq_zero_or_pos c.fn with h' | h'
    · have := P (by omega); linarith [qe.1, qe.2, oe.1, oe.2, er3.1, er3.2]
    · have := O h'; linarith [qe.1, qe.2, oe.1, oe.2, er3.1, er3.2]
  · obtain ⟨-, -, a1, a2⟩ := perfect (y := 0) h
    rw [a1, a2, sub_zero, rd_one]
  · rw [abs_le]; constructor <;> linarith [qe.1, qe.2, oe.1, oe.2, er3.1, er3.2]

theorem quot_rel {a b : ℕ} (ha : 0 < a) (hab : a ≤ b) (hb : b < 2 ^ 32) :
    |quot a b - (a : ℝ) / b| ≤ 2 ^ (-53 : ℤ) * ((a : ℝ) / b) := by
  rw [quot_eq (by omega) (by omega)]
  have h1 := share_pos ha hb (by omega)
  have h2 : (2 : ℝ) ^ (-1000 : ℤ) ≤ 2 ^ (-32 : ℤ) := zpow_le_zpow_right₀ (by norm_num) (by norm_num)
  have hn : (0 : ℝ) ≤ (a : ℝ) / b := by positivity
  have := rd_rel (x := (a : ℝ) / b) (by rw [abs_of_nonneg hn]; exact h2.trans h1)
  rwa [abs_of_nonneg hn] at this

/-- Rounding of a number at least `2 ^ -1000`, as two inequalities. -/
private theorem rd_rel2 {x : ℝ} (h : (2 : ℝ) ^ (-1000 : ℤ) ≤ x) :
    x * (1 - 2 ^ (-53 : ℤ)) ≤ rd x ∧ rd x ≤ x * (1 + 2 ^ (-53 : ℤ)) := by
  have h0 : 0 < x := (two_zpow_pos _).trans_le h
  have := rd_rel (x := x) (by rwa [abs_of_pos h0])
  rw [abs_of_pos h0, abs_le] at this
  constructor <;> nlinarith [this.1, this.2]

private theorem f1_aux {p t P T u : ℝ} (hp : 0 < p) (ht : 0 < t) (hP : 0 < P) (hT : 0 < T) (h1 : |p - P| ≤ u) (h2 : |t - T| ≤ u) :
    |2 * p * t / (p + t) - 2 * P * T / (P + T)| ≤ 4 * u := by
  have hu : 0 ≤ u := (abs_nonneg _).trans h1
  have e : 2 * p * t / (p + t) - 2 * P * T / (P + T) =
      2 * (p * P / ((p + t) * (P + T)) * (t - T) + t * T / ((p + t) * (P + T)) * (p - P)) := by
    field_simp
    ring
  have d0 : 0 < (p + t) * (P + T) := by positivity
  have a1 : 0 ≤ p * P / ((p + t) * (P + T)) := by positivity
  have a2 : p * P / ((p + t) * (P + T)) ≤ 1 := by
    rw [div_le_one d0]; nlinarith [mul_pos hp hT, mul_pos ht hP, mul_pos ht hT]
  have b1 : 0 ≤ t * T / ((p + t) * (P + T)) := by positivity
  have b2 : t * T / ((p + t) * (P + T)) ≤ 1 := by
    rw [div_le_one d0]; nlinarith [mul_pos hp hT, mul_pos ht hP, mul_pos hp hP]
  rw [e]
  generalize p * P / ((p + t) * (P + T)) = A at *
  generalize t * T / ((p + t) * (P + T)) = B at *
  have k1 : |A * (t - T)| ≤ u := by
    rw [abs_mul, abs_of_nonneg a1]
    calc A * |t - T| ≤ 1 * u := mul_le_mul a2 h2 (abs_nonneg _) (by norm_num)
      _ = u := one_mul u
  have k2 : |B * (p - P)| ≤ u := by
    rw [abs_mul, abs_of_nonneg b1]
    calc B * |p - P| ≤ 1 * u := mul_le_mul b2 h1 (abs_nonneg _) (by norm_num)
      _ = u := one_mul u
  rw [abs_le] at *
  constructor <;> linarith [k1.1, k1.2, k2.1, k2.2]

theorem half_le {t T : ℝ} (l : (2 : ℝ) ^ (-32 : ℤ) ≤ T) (e : |t - T| ≤ 2 ^ (-53 : ℤ) * T) : (2 : ℝ) ^ (-33 : ℤ) ≤ t := by
  have e33 : (2 : ℝ) ^ (-33 : ℤ) = 2 ^ (-32 : ℤ) / 2 := by norm_num
  have u1 : (2 : ℝ) ^ (-53 : ℤ) ≤ 1 / 2 := by norm_num
  have z0 := two_zpow_pos (-32)
  rw [e33]
  generalize (2 : ℝ) ^ (-53 : ℤ) = u at *
  generalize (2 : ℝ) ^ (-32 : ℤ) = z at *
  rw [abs_le] at e
  nlinarith [e.1]

private theorem prod_low {p t : ℝ} (pl : (2 : ℝ) ^ (-33 : ℤ) ≤ p) (tl : (2 : ℝ) ^ (-33 : ℤ) ≤ t) : (2 : ℝ) ^ (-1000 : ℤ) ≤ p * t := by
  have := mul_le_mul pl tl (two_zpow_pos _).le ((two_zpow_pos _).le.trans pl)
  refine le_trans ?_ this
  rw [← zpow_add₀ (by norm_num : (2 : ℝ) ≠ 0)]
  exact zpow_le_zpow_right₀ (by norm_num) (by norm_num)

theorem f1_core {p t P T : ℝ} (pr : Rep f64 p) (pl : (2 : ℝ) ^ (-33 : ℤ) ≤ p) (tl : (2 : ℝ) ^ (-33 : ℤ) ≤ t) (p1 : p ≤ 1)
    (t1 : t ≤ 1) (P0 : 0 < P) (T0 : 0 < T) (e1 : |p - P| ≤ 2 ^ (-54 : ℤ)) (e2 : |t - T| ≤ 2 ^ (-54 : ℤ)) :
    0 < rd (p + t) ∧ 0 ≤ rd (rd (rd (2 * p) * t) / rd (p + t)) ∧ rd (rd (rd (2 * p) * t) / rd (p + t)) ≤ 1 ∧
      |rd (rd (rd (2 * p) * t) / rd (p + t)) - 2 * P * T / (P + T)| ≤ 5 * 2 ^ (-53 : ℤ) := by
  have p0 : 0 < p := (two_zpow_pos _).trans_le pl
  have t0 : 0 < t := (two_zpow_pos _).trans_le tl
  have lowpt := prod_low pl tl
  have lowp : (2 : ℝ) ^ (-1000 : ℤ) ≤ p + t := by
    have : (2 : ℝ) ^ (-1000 : ℤ) ≤ 2 ^ (-33 : ℤ) := zpow_le_zpow_right₀ (by norm_num) (by norm_num)
    exact this.trans (pl.trans (by linarith))
  rw [rd_two_mul pr]
  obtain ⟨n1, n2⟩ := rd_rel2 (x := 2 * p * t) (lowpt.trans (by nlinarith [mul_pos p0 t0]))
  obtain ⟨d1, d2⟩ := rd_rel2 lowp
  have u0 := two_zpow_pos (-53)
  have u1 : (2 : ℝ) ^ (-53 : ℤ) ≤ 1 / 1000 := by norm_num
  have hle : 2 * p * t ≤ p + t := by nlinarith [mul_nonneg p0.le (by linarith : 0 ≤ 1 - t), mul_nonneg t0.le (by linarith : 0 ≤ 1 - p)]
  have hrle : rd (2 * p * t) ≤ rd (p + t) := rd_mono hle
  have hn0 : 0 ≤ rd (2 * p * t) := rd_nonneg (by positivity)
  have hs : 0 < p + t := by linarith
  have hd0 : 0 < rd (p + t) := lt_of_lt_of_le (mul_pos hs (by norm_num)) d1
  have hq0 : 0 ≤ rd (2 * p * t) / rd (p + t) := div_nonneg hn0 hd0.le
  have hq1 : rd (2 * p * t) / rd (p + t) ≤ 1 := div_le_one_of_le₀ hrle hd0.le
  refine ⟨hd0, rd_nonneg hq0, rd_le_one hq1, ?_⟩
  have er := rd_abs_err' (x := rd (2 * p * t) / rd (p + t)) (by rwa [abs_of_nonneg hq0])
  have ea := f1_aux p0 t0 P0 T0 e1 e2
  have w54 : (2 : ℝ) ^ (-54 : ℤ) = 2 ^ (-53 : ℤ) / 2 := by norm_num
  rw [w54] at er ea
  have ey0 : 0 ≤ 2 * p * t / (p + t) := by positivity
  have ey1 : 2 * p * t / (p + t) ≤ 1 := div_le_one_of_le₀ hle hs.le
  have eb : |rd (2 * p * t) / rd (p + t) - 2 * p * t / (p + t)| ≤ 21 / 10 * 2 ^ (-53 : ℤ) := by
    generalize (2 : ℝ) ^ (-53 : ℤ) = u at *
    generalize rd (2 * p * t) = n at *
    generalize rd (p + t) = d at *
    have hy : 2 * p * t = 2 * p * t / (p + t) * (p + t) := by field_simp
    generalize 2 * p * t / (p + t) = y at *
    rw [hy] at n1 n2
    generalize p + t = S at *
    have hyS := mul_nonneg ey0 hs.le
    rw [abs_le]
    constructor
    · rw [neg_le_sub_iff_le_add, ← sub_le_iff_le_add, le_div_iff₀ hd0]
      rcases le_total 0 (y - 21 / 10 * u) with h | h
      · have l1 : (y - 21 / 10 * u) * d ≤ (y - 21 / 10 * u) * (S * (1 + u)) := mul_le_mul_of_nonneg_left d2 h
        refine l1.trans (le_trans ?_ n1)
        have l2 : (y - 21 / 10 * u) * (1 + u) ≤ y * (1 - u) := by nlinarith
        nlinarith
      · exact (mul_nonpos_of_nonpos_of_nonneg h hd0.le).trans hn0
    · rw [sub_le_iff_le_add, div_le_iff₀ hd0]
      have l1 : (21 / 10 * u + y) * (S * (1 - u)) ≤ (21 / 10 * u + y) * d := mul_le_mul_of_nonneg_left d1 (by positivity)
      refine le_trans n2 (le_trans ?_ l1)
      have l2 : y * (1 + u) ≤ (21 / 10 * u + y) * (1 - u) := by nlinarith
      nlinarith
  generalize (2 : ℝ) ^ (-53 : ℤ) = u at *
  rw [abs_le] at er ea eb ⊢
  constructor <;> linarith [er.1, er.2, ea.1, ea.2, eb.1, eb.2]

private theorem fm_core {p t P T : ℝ} (pl : (2 : ℝ) ^ (-33 : ℤ) ≤ p) (tl : (2 : ℝ) ^ (-33 : ℤ) ≤ t) (p1 : p ≤ 1)
    (t1 : t ≤ 1) (P0 : 0 < P) (T0 : 0 < T) (P1 : P ≤ 1) (T1 : T ≤ 1) (e1 : |p - P| ≤ 2 ^ (-53 : ℤ) * P) (e2 : |t - T| ≤ 2 ^ (-53 : ℤ) * T) :
    0 ≤ rd (p * t) ∧ 0 ≤ rd (Real.sqrt (rd (p * t))) ∧ rd (Real.sqrt (rd (p * t))) ≤ 1 ∧
      |rd (Real.sqrt (rd (p * t))) - Real.sqrt (P * T)| ≤ 3 * 2 ^ (-53 : ℤ) := by
  have p0 : 0 < p := (two_zpow_pos _).trans_le pl
  have t0 : 0 < t := (two_zpow_pos _).trans_le tl
  have lowpt := prod_low pl tl
  have u0 := two_zpow_pos (-53)
  have u1 : (2 : ℝ) ^ (-53 : ℤ) ≤ 1 / 1000 := by norm_num
  obtain ⟨n1, n2⟩ := rd_rel2 lowpt
  have z0 : 0 ≤ rd (p * t) := rd_nonneg (by positivity)
  have z1 : rd (p * t) ≤ 1 := rd_le_one (by nlinarith)
  have s1 : Real.sqrt (rd (p * t)) ≤ 1 := by rw [Real.sqrt_le_left (by norm_num)]; linarith
  refine ⟨z0, rd_nonneg (Real.sqrt_nonneg _), rd_le_one s1, ?_⟩
  have er := rd_abs_err' (x := Real.sqrt (rd (p * t))) (by rwa [abs_of_nonneg (Real.sqrt_nonneg _)])
  have w54 : (2 : ℝ) ^ (-54 : ℤ) = 2 ^ (-53 : ℤ) / 2 := by norm_num
  rw [w54] at er
  have hPT : 0 < P * T := mul_pos P0 T0
  have hS1 : Real.sqrt (P * T) ≤ 1 := by rw [Real.sqrt_le_left (by norm_num)]; nlinarith
  have hS0 := Real.sqrt_nonneg (P * T)
  generalize (2 : ℝ) ^ (-53 : ℤ) = u at *
  generalize rd (p * t) = z at *
  rw [abs_le] at e1 e2
  have lo : P * T * (1 - u) ^ 3 ≤ z := by
    have a1 : P * (1 - u) ≤ p := by linarith [e1.1]
    have a2 : T * (1 - u) ≤ t := by linarith [e2.1]
    have a3 := mul_le_mul a1 a2 (mul_nonneg T0.le (by linarith)) p0.le
    have a4 := (mul_le_mul_of_nonneg_right a3 (by linarith : 0 ≤ 1 - u)).trans n1
    exact le_trans (le_of_eq (by ring)) a4
  have hi : z ≤ P * T * (1 + u) ^ 3 := by
    have a1 : p ≤ P * (1 + u) := by linarith [e1.2]
    have a2 : t ≤ T * (1 + u) := by linarith [e2.2]
    have a3 := mul_le_mul a1 a2 t0.le (mul_nonneg P0.le (by linarith))
    have a4 := n2.trans (mul_le_mul_of_nonneg_right a3 (by linarith : 0 ≤ 1 + u))
    exact a4.trans (le_of_eq (by ring))
  have s1 : Real.sqrt (P * T) * (1 - 16 / 10 * u) ≤ Real.sqrt z := by
    refine Real.le_sqrt_of_sq_le ?_
    rw [mul_pow, Real.sq_sqrt hPT.le]
    refine le_trans (mul_le_mul_of_nonneg_left ?_ hPT.le) lo
    nlinarith [mul_nonneg u0.le u0.le]
  have s2 : Real.sqrt z ≤ Real.sqrt (P * T) * (1 + 16 / 10 * u) := by
    rw [Real.sqrt_le_left (by positivity), mul_pow, Real.sq_sqrt hPT.le]
    refine hi.trans (mul_le_mul_of_nonneg_left ?_ hPT.le)
    nlinarith [mul_nonneg u0.le u0.le, mul_nonneg (mul_nonneg u0.le u0.le) u0.le]
  rw [abs_le] at er ⊢
  constructor <;> nlinarith [er.1, er.2]

private theorem mean_gap {P T z : ℝ} (P0 : 0 < P) (T0 : 0 < T) (h : P + T ≤ 2 - z) :
    2 * P * T / (P + T) ≤ 1 - z / 2 ∧ Real.sqrt (P * T) ≤ 1 - z / 2 := by
  have h1 : 2 * P * T / (P + T) ≤ (P + T) / 2 := by
    rw [div_le_iff₀ (by linarith)]
    nlinarith [sq_nonneg (P - T)]
  have h2 : Real.sqrt (P * T) ≤ (P + T) / 2 := by
    rw [Real.sqrt_le_left (by linarith)]
    nlinarith [sq_nonneg (P - T)]
  constructor <;> linarith

/-- **C157f.**  F1 and the Fowlkes-Mallows index in doubles, with at least one true positive: in [0, 1], within five and three units of
rounding of the value from the counts, and exactly one for predictions that are all right only.  Without a true positive F1 is NaN. -/
theorem metrics_double_f1 (c : Counts) (hr : Rows c) :
    (0 < c.tp → Near (5 * 2 ^ (-53 : ℤ)) 0 1 (c.fp = 0 ∧ c.fn = 0) (metrics c).f1
      (2 * (c.tp : ℝ) / (2 * c.tp + c.fp + c.fn : ℕ)) ∧
    Near (3 * 2 ^ (-53 : ℤ)) 0 1 (c.fp = 0 ∧ c.fn = 0) (metrics c).folkesMallows
      (Real.sqrt ((c.tp : ℝ) / (c.tp + c.fp : ℕ) * (c.tp / (c.tp + c.fn : ℕ))))) ∧
    (c.tp = 0 → (metrics c).f1 = .nan) := by
  unfold Rows at hr
  refine ⟨fun htp => ?_, fun htp => ?_⟩
  · have ht : (metrics c).tpr = .num (quot c.tp (c.tp + c.fn)) := ratio_eq _ (by omega)
    have hp : (metrics c).precision = .num (quot c.tp (c.tp + c.fp)) := ratio_eq _ (by omega)
    have e1 := quot_rel (a := c.tp) (b := c.tp + c.fn) htp (by omega) (by omega)
    have e2 := quot_rel (a := c.tp) (b := c.tp + c.fp) htp (by omega) (by omega)
    have e1' := quot_err (a := c.tp) (b := c.tp + c.fn) (by omega) (by omega)
    have e2' := quot_err (a := c.tp) (b := c.tp + c.fp) (by omega) (by omega)
    have l1 := share_pos (a := c.tp) (b := c.tp + c.fn) htp (by omega) (by omega)
    have l2 := share_pos (a := c.tp) (b := c.tp + c.fp) htp (by omega) (by omega)
    have t1 : quot c.tp (c.tp + c.fn) ≤ 1 := quot_le_one (by omega)
    have p1 : quot c.tp (c.tp + c.fp) ≤ 1 := quot_le_one (by omega)
    have T1 : (c.tp : ℝ) / (c.tp + c.fn : ℕ) ≤ 1 := div_le_one_of_le₀ (by exact_mod_cast Nat.le_add_right _ _) (by positivity)
    have P1 : (c.tp : ℝ) / (c.tp + c.fp : ℕ) ≤ 1 := div_le_one_of_le₀ (by exact_mod_cast Nat.le_add_right _ _) (by positivity)
    have tr : Rep f64 (quot c.tp (c.tp + c.fn)) := isRep _
    have pr : Rep f64 (quot c.tp (c.tp + c.fp)) := isRep _
    have Tt := fun h => share_top (a := c.tp) (b := c.tp + c.fn) (by omega) (by omega) (by omega) h
    have Pt := fun h => share_top (a := c.tp) (b := c.tp + c.fp) (by omega) (by omega) (by omega) h
    have to1 : c.fp = 0 ∧ c.fn = 0 → quot c.tp (c.tp + c.fn) = 1 := fun h => by rw [h.2]; exact quot_self htp
    have po1 : c.fp = 0 ∧ c.fn = 0 → quot c.tp (c.tp + c.fp) = 1 := fun h => by rw [h.1]; exact quot_self htp
    have ef1 : 2 * (c.tp : ℝ) / (2 * c.tp + c.fp + c.fn : ℕ) =
        2 * ((c.tp : ℝ) / (c.tp + c.fp : ℕ)) * (c.tp / (c.tp + c.fn : ℕ)) /
          ((c.tp : ℝ) / (c.tp + c.fp : ℕ) + c.tp / (c.tp + c.fn : ℕ)) := by
      have h0 : (0 : ℝ) < c.tp := by exact_mod_cast htp
      have h1 : (0 : ℝ) ≤ c.fp := by positivity
      have h2 : (0 : ℝ) ≤ c.fn := by positivity
      push_cast
      have g1 : (0 : ℝ) < c.tp + c.fp := by linarith
      have g2 : (0 : ℝ) < c.tp + c.fn := by linarith
      have g3 : (0 : ℝ) < 2 * c.tp + c.fp + c.fn := by linarith
      field_simp
      ring
    rw [ef1]
    have em : (metrics c).f1 = rnd (Val.fdiv (rnd (Val.fmul (rnd (Val.fmul (.num 2) (metrics c).precision)) (metrics c).tpr))
      (rnd (Val.fadd (metrics c).precision (metrics c).tpr))) := rfl
    have eg : (metrics c).folkesMallows = rnd (Val.fsqrt Real.sqrt (rnd (Val.fmul (metrics c).precision (metrics c).tpr))) := rfl
    rw [em, eg, ht, hp]
    generalize quot c.tp (c.tp + c.fn) = t at *
    generalize quot c.tp (c.tp + c.fp) = p at *
    generalize hTT : (c.tp : ℝ) / (c.tp + c.fn : ℕ) = T at *
    generalize hPP : (c.tp : ℝ) / (c.tp + c.fp : ℕ) = P at *
    have T0 : 0 < T := (two_zpow_pos _).trans_le l1
    have P0 : 0 < P := (two_zpow_pos _).trans_le l2
    have tl := half_le l1 e1
    have pl := half_le l2 e2
    obtain ⟨d0, x0, x1, xe⟩ := f1_core pr pl tl p1 t1 P0 T0 e2' e1'
    obtain ⟨f0, y0, y1, ye⟩ := fm_core pl tl p1 t1 P0 T0 P1 T1 e2 e1
    have gap : ¬ (c.fp = 0 ∧ c.fn = 0) → P + T ≤ 2 - 2 ^ (-32 : ℤ) := by
      intro hc
      rcases Nat.eq_zero_or_pos c.fn with h' | h'
      · have := Pt (by omega); linarith
      · have := Tt (by omega); linarith
    have z32 : 5 * (2 : ℝ) ^ (-53 : ℤ) < 2 ^ (-32 : ℤ) / 2 := by norm_num
    have u0 := two_zpow_pos (-53)
    have rd2 : rd 2 = 2 := by have := rd_nat (n := 2) (by norm_num); simpa using this
    refine ⟨⟨rd (rd (rd (2 * p) * t) / rd (p + t)), ?_, x0, x1, ⟨fun h => ?_, fun h => ?_⟩, xe⟩,
      ⟨rd (Real.sqrt (rd (p * t))), ?_, y0, y1, ⟨fun h => ?_, fun h => ?_⟩, ye⟩⟩
    · simp only [Val.fmul, Val.fadd, rnd, Val.fdiv]
      rw [if_neg d0.ne']
    · by_contra hc
      obtain ⟨g, -⟩ := mean_gap P0 T0 (gap hc)
      rw [h, abs_le] at xe
      generalize (2 : ℝ) ^ (-53 : ℤ) = u at *
      generalize (2 : ℝ) ^ (-32 : ℤ) = z at *
      linarith [xe.2]
    · rw [to1 h, po1 h, mul_one, mul_one, rd2, rd2, show (1 : ℝ) + 1 = 2 by norm_num, rd2, div_self (by norm_num), rd_one]
    · simp only [Val.fmul, rnd, Val.fsqrt]
      rw [if_neg (by linarith)]
    · by_contra hc
      obtain ⟨-, g⟩ := mean_gap P0 T0 (gap hc)
      rw [h, abs_le] at ye
      generalize (2 : ℝ) ^ (-53 : ℤ) = u at *
      generalize (2 : ℝ) ^ (-32 : ℤ) = z at *
      linarith [ye.2]
    · rw [to1 h, po1 h, mul_one, rd_one, Real.sqrt_one, rd_one]
  · have em : (metrics c).f1 = rnd (Val.fdiv (rnd (Val.fmul (rnd (Val.fmul (.num 2) (metrics c).precision)) (metrics c).tpr))
      (rnd (Val.fadd (metrics c).precision (metrics c).tpr))) := rfl
    have h0 : rd (0 : ℝ) = 0 := rd_zero
    obtain ⟨⟨n1, s1⟩, -, ⟨n2, s2⟩, -⟩ := metrics_double_shares c hr
    rw [em]
    rcases Nat.eq_zero_or_pos (c.tp + c.fn) with h1 | h1
    · rw [n1 h1]
      cases (metrics c).precision <;> rfl
    · rcases Nat.eq_zero_or_pos (c.tp + c.fp) with h2 | h2
      · rw [n2 h2]; rfl
      · obtain ⟨x, hx, -, -, xz, -, -⟩ := s1 h1
        obtain ⟨y, hy, -, -, yz, -, -⟩ := s2 h2
        rw [hx, hy, xz.2 htp, yz.2 htp]
        simp [Val.fmul, Val.fadd, rnd, Val.fdiv, h0]

private theorem mul_near {x y X Y a b : ℝ} (x0 : 0 ≤ x) (x1 : x ≤ 1) (Y0 : 0 ≤ Y) (Y1 : Y ≤ 1) (hx : |x - X| ≤ a) (hy : |y - Y| ≤ b) :
    |x * y - X * Y| ≤ a + b := by
  have e : x * y - X * Y = x * (y - Y) + Y * (x - X) := by ring
  have k1 : |x * (y - Y)| ≤ b := by
    rw [abs_mul, abs_of_nonneg x0]
    calc x * |y - Y| ≤ 1 * |y - Y| := mul_le_mul_of_nonneg_right x1 (abs_nonneg _)
      _ ≤ b := by rwa [one_mul]
  have k2 : |Y * (x - X)| ≤ a := by
    rw [abs_mul, abs_of_nonneg Y0]
    calc Y * |x - X| ≤ 1 * |x - X| := mul_le_mul_of_nonneg_right Y1 (abs_nonneg _)
      _ ≤ a := by rwa [one_mul]
  rw [e]
  exact (abs_add_le _ _).trans (by linarith)

private theorem sqrt_near {a b e : ℝ} (ha : 0 ≤ a) (hb : 0 ≤ b) (he : 0 ≤ e) (h : |a - b| ≤ e ^ 2) : |Real.sqrt a - Real.sqrt b| ≤ e := by
  have key : ∀ {a b : ℝ}, 0 ≤ a → 0 ≤ b → |a - b| ≤ e ^ 2 → Real.sqrt a ≤ Real.sqrt b + e := by
    intro a b ha hb h
    rw [Real.sqrt_le_left (add_nonneg (Real.sqrt_nonneg _) he)]
    have := Real.sq_sqrt hb
    have h2 := mul_nonneg (Real.sqrt_nonneg b) he
    rw [abs_le] at h
    nlinarith [h.2]
  have h1 := key ha hb h
  have h2 := key hb ha (by rwa [abs_sub_comm])
  rw [abs_le]
  constructor <;> linarith

private theorem rd_01 {x : ℝ} (h0 : 0 ≤ x) (h1 : x ≤ 1) : 0 ≤ rd x ∧ rd x ≤ 1 ∧ |rd x - x| ≤ 2 ^ (-54 : ℤ) :=
  ⟨rd_nonneg h0, rd_le_one h1, rd_abs_err' (by rwa [abs_of_nonneg h0])⟩

/-- The rounded root of a rounded product of four shares. -/
private noncomputable def root4 (a b c d : ℝ) : ℝ := rd (Real.sqrt (rd (rd (rd (a * b) * c) * d)))

private theorem root4_near {a b c d A B C D : ℝ} (ha : 0 ≤ a ∧ a ≤ 1) (hb : 0 ≤ b ∧ b ≤ 1) (hc : 0 ≤ c ∧ c ≤ 1)
    (hd : 0 ≤ d ∧ d ≤ 1) (hA : 0 ≤ A ∧ A ≤ 1) (hB : 0 ≤ B ∧ B ≤ 1) (hC : 0 ≤ C ∧ C ≤ 1) (hD : 0 ≤ D ∧ D ≤ 1)
    (h : |a - A| + |b - B| + |c - C| + |d - D| ≤ 6 * 2 ^ (-54 : ℤ)) :
    0 ≤ rd (rd (rd (a * b) * c) * d) ∧ 0 ≤ root4 a b c d ∧ root4 a b c d ≤ 1 ∧
      |root4 a b c d - Real.sqrt (A * B * C * D)| ≤ 3 * 2 ^ (-27 : ℤ) + 2 ^ (-54 : ℤ) := by
  obtain ⟨x0, x1, xe⟩ := rd_01 (mul_nonneg ha.1 hb.1) (mul_le_one₀ ha.2 hb.1 hb.2)
  obtain ⟨y0, y1, ye⟩ := rd_01 (mul_nonneg x0 hc.1) (mul_le_one₀ x1 hc.1 hc.2)
  obtain ⟨z0, z1, ze⟩ := rd_01 (mul_nonneg y0 hd.1) (mul_le_one₀ y1 hd.1 hd.2)
  have s1 : Real.sqrt (rd (rd (rd (a * b) * c) * d)) ≤ 1 := by rw [Real.sqrt_le_left (by norm_num)]; linarith
  obtain ⟨r0, r1, re⟩ := rd_01 (Real.sqrt_nonneg _) s1
  refine ⟨z0, r0, r1, ?_⟩
  have m1 := mul_near (x := a) (y := b) (X := A) (Y := B) ha.1 ha.2 hB.1 hB.2 le_rfl le_rfl
  have m1' : |rd (a * b) - A * B| ≤ |a - A| + |b - B| + 2 ^ (-54 : ℤ) :=
    (abs_sub_le _ (a * b) _).trans (by linarith)
  have m2 := mul_near (y := c) (Y := C) x0 x1 hC.1 hC.2 m1' le_rfl
  have m2' := (abs_sub_le (rd (rd (a * b) * c)) (rd (a * b) * c) (A * B * C)).trans (add_le_add ye m2)
  have m3 := mul_near (y := d) (Y := D) y0 y1 hD.1 hD.2 m2' le_rfl
  have m3' := (abs_sub_le (rd (rd (rd (a * b) * c) * d)) (rd (rd (a * b) * c) * d) (A * B * C * D)).trans (add_le_add ze m3)
  have s := sqrt_near (e := 3 * 2 ^ (-27 : ℤ)) z0
    (mul_nonneg (mul_nonneg (mul_nonneg hA.1 hB.1) hC.1) hD.1) (by positivity) (by
      refine m3'.trans ?_
      have e : (3 * (2 : ℝ) ^ (-27 : ℤ)) ^ 2 = 9 * 2 ^ (-54 : ℤ) := by norm_num
      rw [e]
      generalize (2 : ℝ) ^ (-54 : ℤ) = w at *
      linarith)
  unfold root4
  refine (abs_sub_le _ (Real.sqrt (rd (rd (rd (a * b) * c) * d))) _).trans ?_
  linarith

/-- A root of a product of shares near one: every share is near one. -/
private theorem root4_top {a b c d : ℝ} (ha : 0 ≤ a ∧ a ≤ 1) (hb : 0 ≤ b ∧ b ≤ 1) (hc : 0 ≤ c ∧ c ≤ 1)
    (hd : 0 ≤ d ∧ d ≤ 1) (h : 1 - 2 ^ (-54 : ℤ) ≤ root4 a b c d) : 1 - 2 ^ (-50 : ℤ) ≤ a ∧ 1 - 2 ^ (-50 : ℤ) ≤ c := by
  obtain ⟨x0, x1, xe⟩ := rd_01 (mul_nonneg ha.1 hb.1) (mul_le_one₀ ha.2 hb.1 hb.2)
  obtain ⟨y0, y1, ye⟩ := rd_01 (mul_nonneg x0 hc.1) (mul_le_one₀ x1 hc.1 hc.2)
  obtain ⟨z0, z1, ze⟩ := rd_01 (mul_nonneg y0 hd.1) (mul_le_one₀ y1 hd.1 hd.2)
  have s1 : Real.sqrt (rd (rd (rd (a * b) * c) * d)) ≤ 1 := by rw [Real.sqrt_le_left (by norm_num)]; linarith
  obtain ⟨r0, r1, re⟩ := rd_01 (Real.sqrt_nonneg _) s1
  unfold root4 at h
  have hsq := Real.sq_sqrt z0
  have e50 : (2 : ℝ) ^ (-50 : ℤ) = 16 * 2 ^ (-54 : ℤ) := by norm_num
  have w0 := two_zpow_pos (-54)
  have w1 : (2 : ℝ) ^ (-54 : ℤ) ≤ 1 / 1000 := by norm_num
  rw [e50]
  generalize (2 : ℝ) ^ (-54 : ℤ) = w at *
  generalize Real.sqrt (rd (rd (rd (a * b) * c) * d)) = q at *
  generalize rd (rd (rd (a * b) * c) * d) = z at *
  generalize rd (rd (a * b) * c) = y at *
  generalize rd (a * b) = x at *
  rw [abs_le] at *
  have q1 : 1 - 2 * w ≤ q := by linarith [re.2]
  have q2 : 1 - 4 * w ≤ z := by nlinarith
  have q3 : 1 - 5 * w ≤ y := by nlinarith [ze.2, mul_le_of_le_one_right y0 hd.2]
  have q4 : 1 - 6 * w ≤ x * c := by linarith [ye.2]
  have q5 : x * c ≤ c := mul_le_of_le_one_left hc.1 x1
  have q6 : x * c ≤ x := mul_le_of_le_one_right x0 hc.2
  have q7 : a * b ≤ a := mul_le_of_le_one_right ha.1 hb.2
  constructor <;> linarith [xe.2]

/-- **C157g.**  The `mcc` column of the confusion matrix is in [-1, 1], within `2 ^ -24` of the exact correlation, and exactly one for
predictions that are all right only; so `query_mcc` and the column agree to within `2 ^ -23`. -/
theorem metrics_double_mcc (c : Counts) (hr : Rows c) (hp : Proper c) :
    Near (2 ^ (-24 : ℤ)) (-1) 1 (c.fp = 0 ∧ c.fn = 0) (metrics c).mcc (phi c) ∧
    (Fits c → ∃ v w, plMcc c = .num v ∧ (metrics c).mcc = .num w ∧ |v - w| ≤ 2 ^ (-23 : ℤ)) := by
  have key : Near (2 ^ (-24 : ℤ)) (-1) 1 (c.fp = 0 ∧ c.fn = 0) (metrics c).mcc (phi c) := by
    have hM := margins_pos hp
    have hS : 0 < Real.sqrt (margins c) := Real.sqrt_pos.2 (by linarith)
    have hphi := phi_eq c
    obtain ⟨p1, p2, p3, p4⟩ := hp
    obtain ⟨⟨-, s1⟩, ⟨-, s2⟩, ⟨-, s3⟩, ⟨-, s4⟩, -, -, -, ⟨-, s5⟩, ⟨-, s6⟩, ⟨-, s7⟩, ⟨-, s8⟩⟩ := metrics_double_shares c hr
    obtain ⟨t, ht, t0, t1, -, t2, te⟩ := s1 p1
    obtain ⟨f, hf, f0, f1, fz, -, fe⟩ := s2 p3
    obtain ⟨p, hpr, q0, q1, -, q2, qe⟩ := s3 p2
    obtain ⟨o, ho, o0, o1, oz, -, oe⟩ := s4 p4
    obtain ⟨m, hm, m0, m1, mz, -, me⟩ := s5 p1
    obtain ⟨r, hrr, r0, r1, -, r2, re⟩ := s6 p3
    obtain ⟨n, hn, n0, n1, -, n2, ne⟩ := s7 p4
    obtain ⟨g, hg, g0, g1, -, -, ge⟩ := s8 p2
    have eq : (metrics c).mcc = rnd (Val.fsub (rnd (Val.fsqrt Real.sqrt (rnd (Val.fmul (rnd (Val.fmul (rnd (Val.fmul
        (metrics c).tpr (metrics c).tnr)) (metrics c).precision)) (metrics c).npv))))
        (rnd (Val.fsqrt Real.sqrt (rnd (Val.fmul (rnd (Val.fmul (rnd (Val.fmul
        (metrics c).fnr (metrics c).fpr)) (metrics c).falseOmission)) (metrics c).fdr))))) := rfl
    unfold Rows at hr
    have T := fun h => share_top (a := c.tp) (b := c.tp + c.fn) (by omega) (by omega) p1 h
    have P := fun h => share_top (a := c.tp) (b := c.tp + c.fp) (by omega) (by omega) p2 h
    have unit : ∀ {a b : ℕ}, a ≤ b → 0 ≤ (a : ℝ) / b ∧ (a : ℝ) / b ≤ 1 := fun h =>
      ⟨by positivity, div_le_one_of_le₀ (by exact_mod_cast h) (by positivity)⟩
    have e54 : (2 : ℝ) ^ (-53 : ℤ) = 2 * 2 ^ (-54 : ℤ) := by norm_num
    obtain ⟨a1, a2, a3, a4⟩ := root4_near ⟨t0, t1⟩ ⟨r0, r1⟩ ⟨q0, q1⟩ ⟨n0, n1⟩ (unit (a := c.tp) (b := c.tp + c.fn) (by omega))
      (unit (a := c.tn) (b := c.fp + c.tn) (by omega)) (unit (a := c.tp) (b := c.tp + c.fp) (by omega))
      (unit (a := c.tn) (b := c.fn + c.tn) (by omega)) (by rw [e54] at re ne; linarith)
    obtain ⟨b1, b2, b3, b4⟩ := root4_near ⟨m0, m1⟩ ⟨f0, f1⟩ ⟨o0, o1⟩ ⟨g0, g1⟩ (unit (a := c.fn) (b := c.tp + c.fn) (by omega))
      (unit (a := c.fp) (b := c.fp + c.tn) (by omega)) (unit (a := c.fn) (b := c.fn + c.tn) (by omega))
      (unit (a := c.fp) (b := c.tp + c.fp) (by omega)) (by rw [e54] at me ge; linarith)
    have hval : (metrics c).mcc = .num (rd (root4 t r p n - root4 m f o g)) := by
      rw [eq, ht, hrr, hpr, hn, hm, hf, ho, hg]
      simp only [Val.fmul, rnd, Val.fsqrt]
      rw [if_neg (by linarith), if_neg (by linarith)]
      rfl
    have em : ((margins c : ℕ) : ℝ) = (c.tp + c.fn : ℕ) * (c.tp + c.fp : ℕ) * (c.fp + c.tn : ℕ) * (c.fn + c.tn : ℕ) := by
      unfold margins; push_cast; ring
    have c1 : (0 : ℝ) < (c.tp + c.fn : ℕ) := by exact_mod_cast p1
    have c2 : (0 : ℝ) < (c.tp + c.fp : ℕ) := by exact_mod_cast p2
    have c3 : (0 : ℝ) < (c.fp + c.tn : ℕ) := by exact_mod_cast p3
    have c4 : (0 : ℝ) < (c.fn + c.tn : ℕ) := by exact_mod_cast p4
    have x1 : Real.sqrt ((c.tp : ℝ) / (c.tp + c.fn : ℕ) * (c.tn / (c.fp + c.tn : ℕ)) * (c.tp / (c.tp + c.fp : ℕ)) *
        (c.tn / (c.fn + c.tn : ℕ))) = c.tp * c.tn / Real.sqrt (margins c) := by
      rw [show (c.tp : ℝ) / (c.tp + c.fn : ℕ) * (c.tn / (c.fp + c.tn : ℕ)) * (c.tp / (c.tp + c.fp : ℕ)) *
        (c.tn / (c.fn + c.tn : ℕ)) = (c.tp * c.tn) ^ 2 / margins c by rw [em]; field_simp, Real.sqrt_div (by positivity),
        Real.sqrt_sq (by positivity)]
    have x2 : Real.sqrt ((c.fn : ℝ) / (c.tp + c.fn : ℕ) * (c.fp / (c.fp + c.tn : ℕ)) * (c.fn / (c.fn + c.tn : ℕ)) *
        (c.fp / (c.tp + c.fp : ℕ))) = c.fn * c.fp / Real.sqrt (margins c) := by
      rw [show (c.fn : ℝ) / (c.tp + c.fn : ℕ) * (c.fp / (c.fp + c.tn : ℕ)) * (c.fn / (c.fn + c.tn : ℕ)) *
        (c.fp / (c.tp + c.fp : ℕ)) = (c.fn * c.fp) ^ 2 / margins c by rw [em]; field_simp, Real.sqrt_div (by positivity),
        Real.sqrt_sq (by positivity)]
    rw [x1] at a4
    rw [x2] at b4
    have hph : phi c = c.tp * c.tn / Real.sqrt (margins c) - c.fn * c.fp / Real.sqrt (margins c) := by
      rw [hphi, N, sub_div]
    have er := rd_abs_err' (x := root4 t r p n - root4 m f o g) (by rw [abs_le]; constructor <;> linarith)
    refine ⟨_, hval, ?_, rd_le_one (by linarith), ⟨fun h => ?_, fun h => ?_⟩, ?_⟩
    · have := rd_mono (x := -1) (y := root4 t r p n - root4 m f o g) (by linarith)
      rwa [rd_neg, rd_one] at this
    · rw [h] at er
      have hA : 1 - 2 ^ (-54 : ℤ) ≤ root4 t r p n := by rw [abs_le] at er; linarith [er.2]
      obtain ⟨k1, k2⟩ := root4_top ⟨t0, t1⟩ ⟨r0, r1⟩ ⟨q0, q1⟩ ⟨n0, n1⟩ hA
      have small : (2 : ℝ) ^ (-50 : ℤ) + 2 ^ (-54 : ℤ) < 2 ^ (-32 : ℤ) := by norm_num
      by_contra hc
      rw [abs_le] at te qe
      generalize (2 : ℝ) ^ (-50 : ℤ) = v at *
      generalize (2 : ℝ) ^ (-54 : ℤ) = w at *
      generalize (2 : ℝ) ^ (-32 : ℤ) = z at *
      rcases Nat.eq_zero_or_pos c.fn with h' | h'
      · have := P (by omega); linarith [qe.2]
      · have := T (by omega); linarith [te.2]
    · have v1 : root4 t r p n = 1 := by
        rw [t2.2 (by omega), r2.2 (by omega), q2.2 (by omega), n2.2 (by omega)]
        simp [root4, rd_one]
      have v2 : root4 m f o g = 0 := by
        rw [mz.2 h.2]
        simp [root4, rd_zero]
      rw [v1, v2, sub_zero, rd_one]
    · rw [hph]
      have e24 : 6 * (2 : ℝ) ^ (-27 : ℤ) + 3 * 2 ^ (-54 : ℤ) ≤ 2 ^ (-24 : ℤ) := by norm_num
      generalize (2 : ℝ) ^ (-24 : ℤ) = v at *
      generalize (2 : ℝ) ^ (-54 : ℤ) = w at *
      generalize (2 : ℝ) ^ (-27 : ℤ) = z at *
      rw [abs_le] at *
      constructor <;> linarith [er.1, er.2, a4.1, a4.2, b4.1, b4.2]
  refine ⟨key, fun hf => ?_⟩
  obtain ⟨w, hw, -, -, -, we⟩ := key
  obtain ⟨v, hv, ve, -, -⟩ := (mcc_double c hr hf).2 hp
  refine ⟨v, w, hv, hw, ?_⟩
  have h1 := phi_le_one hp
  have ve' : |v - phi c| ≤ 4 * 2 ^ (-53 : ℤ) := ve.trans (mul_le_of_le_one_right (by positivity) h1)
  have e : 4 * (2 : ℝ) ^ (-53 : ℤ) + 2 ^ (-24 : ℤ) ≤ 2 ^ (-23 : ℤ) := by norm_num
  refine (abs_sub_le v (phi c) w).trans ?_
  rw [abs_sub_comm (phi c) w]
  linarith

private theorem root_between {f t : ℝ} (hf : Rep f64 f) (ht : Rep f64 t) (f0 : 0 ≤ f) (hft : f ≤ t)
    (fl : f ≠ 0 → (2 : ℝ) ^ (-400 : ℤ) ≤ f) (tl : t ≠ 0 → (2 : ℝ) ^ (-400 : ℤ) ≤ t) :
    f ≤ rd (Real.sqrt (rd (t * f))) ∧ rd (Real.sqrt (rd (t * f))) ≤ t := by
  constructor
  · by_cases h : f = 0
    · rw [h, mul_zero, rd_zero, Real.sqrt_zero, rd_zero]
    · conv_lhs => rw [← sqrt_sq' hf (fl h)]
      exact rd_mono (Real.sqrt_le_sqrt (rd_mono (mul_le_mul_of_nonneg_right hft f0)))
  · by_cases h : t = 0
    · rw [h, zero_mul, rd_zero, Real.sqrt_zero, rd_zero]
    · conv_rhs => rw [← sqrt_sq' ht (tl h)]
      exact rd_mono (Real.sqrt_le_sqrt (rd_mono (mul_le_mul_of_nonneg_left hft (by linarith))))

private theorem rd_sub_pos {f t : ℝ} (hf : Rep f64 f) (ht : Rep f64 t) (h : f < t) : 0 < rd (t - f) := by
  have e := fl_add_err f64 ht (rep_neg f64 hf)
  rw [← sub_eq_add_neg, show unit f64 = 2 ^ (-53 : ℤ) by simp [unit, f64]] at e
  change |rd (t - f) - (t - f)| ≤ _ at e
  rw [abs_of_pos (show 0 < t - f by linarith), abs_le] at e
  have u1 : (2 : ℝ) ^ (-53 : ℤ) ≤ 1 / 2 := by norm_num
  generalize (2 : ℝ) ^ (-53 : ℤ) = u at *
  nlinarith [e.1]

/-- **C157h.**  The prevalence threshold in doubles is in [0, 1] whenever the true and the false positive rate differ as doubles, and NaN
when they are equal. -/
theorem metrics_double_threshold (c : Counts) (hr : Rows c) (hp : Proper c) :
    ((metrics c).tpr ≠ (metrics c).fpr → ∃ x, (metrics c).prevalenceThreshold = .num x ∧ 0 ≤ x ∧ x ≤ 1) ∧
    ((metrics c).tpr = (metrics c).fpr → (metrics c).prevalenceThreshold = .nan) := by
  obtain ⟨p1, p2, p3, p4⟩ := hp
  unfold Rows at hr
  have ht : (metrics c).tpr = .num (quot c.tp (c.tp + c.fn)) := ratio_eq _ (by omega)
  have hf : (metrics c).fpr = .num (quot c.fp (c.fp + c.tn)) := ratio_eq _ (by omega)
  have eq : (metrics c).prevalenceThreshold = rnd (Val.fdiv (rnd (Val.fsub (rnd (Val.fsqrt Real.sqrt (rnd (Val.fmul
      (metrics c).tpr (metrics c).fpr)))) (metrics c).fpr)) (rnd (Val.fsub (metrics c).tpr (metrics c).fpr))) := rfl
  have low : ∀ {a b : ℕ}, a ≤ b → b < 2 ^ 32 → quot a b ≠ 0 → (2 : ℝ) ^ (-400 : ℤ) ≤ quot a b := by
    intro a b h1 h2 h3
    have ha : 0 < a := by
      rcases Nat.eq_zero_or_pos a with h | h
      · rw [h, quot_zero] at h3; exact absurd rfl h3
      · exact h
    have := quot_pos ha h1 (by omega)
    exact le_trans (zpow_le_zpow_right₀ (by norm_num) (by norm_num)) this
  have tl := low (a := c.tp) (b := c.tp + c.fn) (by omega) (by omega)
  have fl := low (a := c.fp) (b := c.fp + c.tn) (by omega) (by omega)
  have tr : Rep f64 (quot c.tp (c.tp + c.fn)) := isRep _
  have fr : Rep f64 (quot c.fp (c.fp + c.tn)) := isRep _
  have t0 := quot_nonneg c.tp (c.tp + c.fn)
  have f0 := quot_nonneg c.fp (c.fp + c.tn)
  rw [eq, ht, hf]
  generalize quot c.tp (c.tp + c.fn) = t at *
  generalize quot c.fp (c.fp + c.tn) = f at *
  have hz : 0 ≤ rd (t * f) := rd_nonneg (mul_nonneg t0 f0)
  simp only [Val.fmul, rnd, Val.fsqrt]
  rw [if_neg (by linarith)]
  simp only [Val.fsub, Val.fdiv]
  constructor
  · intro h
    have hne : t ≠ f := fun hh => h (by rw [hh])
    rcases lt_or_gt_of_ne hne with hlt | hlt
    · obtain ⟨b1, b2⟩ := root_between tr fr t0 hlt.le tl fl
      rw [mul_comm f t] at b1 b2
      have hd := rd_sub_pos tr fr hlt
      have e1 : rd (t - f) = -rd (f - t) := by rw [← rd_neg]; congr 1; ring
      have e2 : rd (rd (Real.sqrt (rd (t * f))) - f) = -rd (f - rd (Real.sqrt (rd (t * f)))) := by rw [← rd_neg]; congr 1; ring
      rw [e1, e2, if_neg (by linarith)]
      have n0 : 0 ≤ rd (f - rd (Real.sqrt (rd (t * f)))) := rd_nonneg (by linarith)
      have n1 : rd (f - rd (Real.sqrt (rd (t * f)))) ≤ rd (f - t) := rd_mono (by linarith)
      refine ⟨_, rfl, ?_, ?_⟩
      · rw [neg_div_neg_eq]; exact rd_nonneg (div_nonneg n0 hd.le)
      · rw [neg_div_neg_eq]; exact rd_le_one (div_le_one_of_le₀ n1 hd.le)
    · obtain ⟨b1, b2⟩ := root_between fr tr f0 hlt.le fl tl
      have hd := rd_sub_pos fr tr hlt
      rw [if_neg (by linarith)]
      have n0 : 0 ≤ rd (rd (Real.sqrt (rd (t * f))) - f) := rd_nonneg (by linarith)
      have n1 : rd (rd (Real.sqrt (rd (t * f))) - f) ≤ rd (t - f) := rd_mono (by linarith)
      exact ⟨_, rfl, rd_nonneg (div_nonneg n0 hd.le), rd_le_one (div_le_one_of_le₀ n1 hd.le)⟩
  · intro h
    have he : t = f := by injection h
    subst he
    obtain ⟨b1, b2⟩ := root_between tr tr t0 le_rfl tl tl
    rw [show rd (Real.sqrt (rd (t * t))) = t by linarith, sub_self, rd_zero]
    simp

/-! ## Examples -/

/-- Four rows, one of each kind; a perfect prediction; a large column. -/
example : Rows ⟨1, 1, 1, 1⟩ ∧ Fits ⟨1, 1, 1, 1⟩ ∧ Proper ⟨1, 1, 1, 1⟩ ∧ ¬ Proper ⟨3, 0, 0, 0⟩ := by
  norm_num [Rows, Fits, Proper]

example : ∃ v, plMcc ⟨40, 7, 3, 50⟩ = .num v ∧ 0 < v ∧ v < 1 := by
  have hr : Rows ⟨40, 7, 3, 50⟩ := by norm_num [Rows]
  have hf : Fits ⟨40, 7, 3, 50⟩ := by norm_num [Fits]
  have hp : Proper ⟨40, 7, 3, 50⟩ := by norm_num [Proper]
  obtain ⟨v, hv, -, h, -⟩ := (mcc_double ⟨40, 7, 3, 50⟩ hr hf).2 hp
  refine ⟨v, hv, h.2 (by norm_num), ?_⟩
  by_contra hc
  have := (mcc_double_extreme _ hr hf v hv).2.1 (by linarith)
  simp at this

example : ∃ v, plMcc ⟨1000, 0, 0, 2000⟩ = .num v ∧ v = 1 := by
  have hr : Rows ⟨1000, 0, 0, 2000⟩ := by norm_num [Rows]
  have hf : Fits ⟨1000, 0, 0, 2000⟩ := by norm_num [Fits]
  obtain ⟨v, hv, -⟩ := (mcc_double ⟨1000, 0, 0, 2000⟩ hr hf).2 (by norm_num [Proper])
  exact ⟨v, hv, (mcc_double_range_partial _ hr hf (by norm_num) v hv).2.2.1.2 (by norm_num)⟩

example : ∃ x, (metrics ⟨40, 7, 3, 50⟩).fnr = .num x ∧ x ≠ 0 ∧ x ≠ 1 := by
  obtain ⟨x, h, -, -, h0, h1, -⟩ := (metrics_double_shares ⟨40, 7, 3, 50⟩ (by norm_num [Rows])).2.2.2.2.2.2.2.1.2 (by norm_num)
  refine ⟨x, h, ?_, ?_⟩
  · rw [Ne, h0]; norm_num
  · rw [Ne, h1]; norm_num

example : ∃ x, (metrics ⟨40, 7, 3, 50⟩).mcc = .num x ∧ x ≠ 1 := by
  obtain ⟨x, h, -, -, h1, -⟩ := (metrics_double_mcc ⟨40, 7, 3, 50⟩ (by norm_num [Rows]) (by norm_num [Proper])).1
  exact ⟨x, h, by rw [Ne, h1]; norm_num⟩

/-- The rates 1 and 0 differ, the rates 1/2 and 1/2 do not. -/
example : (metrics ⟨1, 0, 0, 1⟩).tpr ≠ (metrics ⟨1, 0, 0, 1⟩).fpr ∧ (metrics ⟨1, 1, 1, 1⟩).tpr = (metrics ⟨1, 1, 1, 1⟩).fpr := by
  have e1 : (metrics ⟨1, 0, 0, 1⟩).tpr = .num (quot 1 1) := ratio_eq 1 (by norm_num)
  have e2 : (metrics ⟨1, 0, 0, 1⟩).fpr = .num (quot 0 1) := ratio_eq 0 (by norm_num)
  refine ⟨?_, rfl⟩
  rw [e1, e2, quot_self (by norm_num), quot_zero]
  simp

end Verif.ConfDbl
