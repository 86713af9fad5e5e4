import Verif.Lemmas.LnGamma

/-!
# The constants of the Lanczos approximation
-/

namespace Verif.LnGamma
open Real (log exp)

/-- Partial sum of the series of `1/2 log ((1 + x) / (1 - x))`. -/
def art (x : ℚ) : ℕ → ℚ
  | 0 => 0
  | n + 1 => art x n + x ^ (2 * n + 1) / (2 * n + 1)

theorem art_eq (x : ℚ) (n : ℕ) : ((art x n : ℚ) : ℝ) = ∑ i ∈ Finset.range n, (x : ℝ) ^ (2 * i + 1) / (2 * i + 1) := by
  induction n with
  | zero => simp [art]
  | succ n ih => rw [Finset.sum_range_succ, ← ih, art]; push_cast; ring

/-- Bounds on the logarithm of a rational from the series. -/
theorem log_bounds {q lo hi : ℚ} (n : ℕ) (h1 : 1 ≤ q) (hlo : lo ≤ 2 * art ((q - 1) / (q + 1)) n)
    (hhi : 2 * (art ((q - 1) / (q + 1)) n + ((q - 1) / (q + 1)) ^ (2 * n + 1) / (1 - ((q - 1) / (q + 1)) ^ 2)) ≤ hi) :
    (lo : ℝ) ≤ log q ∧ log q ≤ hi := by
  have hq : (1 : ℝ) ≤ q := by exact_mod_cast h1
  set x : ℚ := (q - 1) / (q + 1) with hx
  have hxr : (x : ℝ) = (q - 1) / (q + 1) := by rw [hx]; push_cast; ring
  have x0 : (0 : ℝ) ≤ x := by rw [hxr]; exact div_nonneg (by linarith) (by linarith)
  have x1 : (x : ℝ) < 1 := by rw [hxr, div_lt_one (by linarith)]; linarith
  have e : (1 + (x : ℝ)) / (1 - x) = q := by
    rw [hxr]
    have : (q : ℝ) + 1 ≠ 0 := by linarith
    field_simp
    ring
  have l := Real.sum_range_le_log_div x0 x1 n
  have u := Real.log_div_le_sum_range_add x0 x1 n
  rw [e, ← art_eq] at l u
  have hlo' := (Rat.cast_le (K := ℝ)).2 hlo
  have hhi' := (Rat.cast_le (K := ℝ)).2 hhi
  push_cast at hlo' hhi'
  constructor
  · linarith
  · have : 2 * ((art x n : ℝ) + (x : ℝ) ^ (2 * n + 1) / (1 - (x : ℝ) ^ 2)) ≤ hi := hhi'
    linarith

theorem log_two : (0.693147180559945309417 : ℚ) ≤ log ((2 : ℚ) : ℝ) ∧ log ((2 : ℚ) : ℝ) ≤ (0.693147180559945309418 : ℚ) :=
  log_bounds 23 (by norm_num) (by decide +kernel) (by decide +kernel)

/-- `2 π / (d₀² 2³³)` with a rational in place of `π`. -/
def ratio (p : ℚ) : ℚ := 2 * p / (dk.getD 0 0 ^ 2 * 2 ^ 33)

theorem log_ratio_lo : (0.168729516792295233919 : ℚ) ≤ log (ratio 3.14159265358979323846 : ℚ) ∧
    log (ratio 3.14159265358979323846 : ℚ) ≤ (0.168729516792295233921 : ℚ) :=
  log_bounds 11 (by decide +kernel) (by decide +kernel) (by decide +kernel)

theorem log_ratio_hi : (0.168729516792295233919 : ℚ) ≤ log (ratio 3.14159265358979323847 : ℚ) ∧
    log (ratio 3.14159265358979323847 : ℚ) ≤ (0.168729516792295233925 : ℚ) :=
  log_bounds 11 (by decide +kernel) (by decide +kernel) (by decide +kernel)

theorem log_half_pi_lo : (0.451582705289454864723 : ℚ) ≤ log (3.14159265358979323846 / 2 : ℚ) ∧
    log (3.14159265358979323846 / 2 : ℚ) ≤ (0.451582705289454864727 : ℚ) :=
  log_bounds 17 (by decide +kernel) (by decide +kernel) (by decide +kernel)

theorem log_half_pi_hi : (0.451582705289454864723 : ℚ) ≤ log (3.14159265358979323847 / 2 : ℚ) ∧
    log (3.14159265358979323847 / 2 : ℚ) ≤ (0.451582705289454864730 : ℚ) :=
  log_bounds 17 (by decide +kernel) (by decide +kernel) (by decide +kernel)

theorem lnPi_error : |(lnPi : ℝ) - log Real.pi| ≤ 1 / 10 ^ 18 := by
  have h2 := log_two
  have hl := log_half_pi_lo.1
  have hh := log_half_pi_hi.2
  have p1 := Real.pi_gt_d20
  have p2 := Real.pi_lt_d20
  have e : log Real.pi = log 2 + log (Real.pi / 2) := by
    rw [← Real.log_mul two_ne_zero (by positivity)]
    congr 1
    ring
  have m1 : log (3.14159265358979323846 / 2 : ℚ) ≤ log (Real.pi / 2) :=
    Real.log_le_log (by norm_num) (by push_cast; linarith)
  have m2 : log (Real.pi / 2) ≤ log (3.14159265358979323847 / 2 : ℚ) :=
    Real.log_le_log (by positivity) (by push_cast; linarith)
  have c2 : ((2 : ℚ) : ℝ) = 2 := by norm_num
  rw [c2] at h2
  have a := hl.trans m1
  have b := m2.trans hh
  obtain ⟨h2l, h2h⟩ := h2
  rw [e]
  generalize log (Real.pi / 2) = z at a b
  generalize log 2 = y at h2l h2h
  norm_num [lnPi] at a b h2l h2h ⊢
  rw [abs_le]
  constructor <;> linarith

theorem errInf_bound : |errInf| ≤ 1 / 10 ^ 18 := by
  have h2 := log_two
  have hl := log_ratio_lo.1
  have hh := log_ratio_hi.2
  have p1 := Real.pi_gt_d20
  have p2 := Real.pi_lt_d20
  have hd : (0 : ℝ) < (dk.getD 0 0 : ℚ) := by norm_num [dk]
  have e : log (2 * Real.pi) = 2 * log (dk.getD 0 0 : ℚ) + 33 * log 2 +
      log (2 * Real.pi / (((dk.getD 0 0 : ℚ) : ℝ) ^ 2 * 2 ^ 33)) := by
    rw [Real.log_div (by positivity) (by positivity), Real.log_mul (x := _ ^ 2) (by positivity) (by positivity),
      Real.log_pow, Real.log_pow]
    push_cast
    ring
  have m1 : log (ratio 3.14159265358979323846 : ℚ) ≤ log (2 * Real.pi / (((dk.getD 0 0 : ℚ) : ℝ) ^ 2 * 2 ^ 33)) := by
    unfold ratio
    push_cast
    apply Real.log_le_log
    · apply div_pos (by norm_num) (by positivity)
    · gcongr
  have m2 : log (2 * Real.pi / (((dk.getD 0 0 : ℚ) : ℝ) ^ 2 * 2 ^ 33)) ≤ log (ratio 3.14159265358979323847 : ℚ) := by
    unfold ratio
    push_cast
    apply Real.log_le_log (by positivity)
    gcongr
  have c2 : ((2 : ℚ) : ℝ) = 2 := by norm_num
  rw [c2] at h2
  have a := hl.trans m1
  have b := m2.trans hh
  obtain ⟨h2l, h2h⟩ := h2
  unfold errInf
  rw [e]
  generalize log (2 * Real.pi / (((dk.getD 0 0 : ℚ) : ℝ) ^ 2 * 2 ^ 33)) = z at a b
  generalize log ((dk.getD 0 0 : ℚ) : ℝ) = v
  generalize log 2 = y at h2l h2h
  norm_num [ln2SqrtEOverPi, gammaR] at a b h2l h2h ⊢
  rw [abs_le]
  constructor <;> linarith

end Verif.LnGamma
