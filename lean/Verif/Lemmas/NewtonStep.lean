import Verif.Model.StudentPpf

/-!
# The search of `inv_beta_reg` for a function with an increasing derivative

`I` is the function, `φ` bounds its slopes, `s` is the computed step.
-/

namespace Verif.StudentPpf

open Verif.TTest

/-- One call of the inner loops that succeeds at once. -/
theorem search_first {ε p prev v : ℝ} (fuel : ℕ) (h1 : v * v < prev) (h2 : 0 < p - v) (h3 : p - v < 1) :
    search (ε ^ 2) p prev (.num v) (fuel + 1) 1 =
      some ⟨p - v, v * v, decide (prev ≤ ε ^ 2 ∨ v * v ≤ ε ^ 2)⟩ := by
  unfold search
  simp only [one_mul]
  rw [if_pos ⟨h1, h2.le, h3.le⟩]
  by_cases h : prev ≤ ε ^ 2 ∨ v * v ≤ ε ^ 2
  · rw [if_pos h, decide_eq_true h]
  · rw [if_neg h, if_pos ⟨h2.ne', h3.ne⟩, decide_eq_false h]

/-- What the search needs to know on `[lo, hi]`. -/
structure Slopes (I φ s : ℝ → ℝ) (x δ R L lo hi z : ℝ) : Prop where
  lo0 : 0 < lo
  hi1 : hi < 1
  pos : 0 < φ lo
  mono : ∀ u v, lo ≤ u → u ≤ v → v ≤ hi → φ u ≤ φ v
  ratio : φ hi ≤ R * φ lo
  lower : ∀ u v, lo ≤ u → u ≤ v → v ≤ hi → φ u * (v - u) ≤ I v - I u
  upper : ∀ u v, lo ≤ u → u ≤ v → v ≤ hi → I v - I u ≤ φ v * (v - u)
  lip : ∀ u v, lo ≤ u → u ≤ v → v ≤ hi → φ v - φ u ≤ L * (v - u)
  step : ∀ p, lo ≤ p → p ≤ hi → |φ p * s p - (I p - x)| ≤ δ
  root : I z = x
  zlo : lo ≤ z
  zhi : z ≤ hi

variable {I φ s : ℝ → ℝ} {x δ R L lo hi z : ℝ}

namespace Slopes

theorem δ_nonneg (S : Slopes I φ s x δ R L lo hi z) : 0 ≤ δ := (abs_nonneg _).trans (S.step z S.zlo S.zhi)

theorem φpos (S : Slopes I φ s x δ R L lo hi z) {p : ℝ} (h : lo ≤ p) (h1 : p ≤ hi) : φ lo ≤ φ p ∧ 0 < φ p :=
  ⟨S.mono lo p le_rfl h h1, S.pos.trans_le (S.mono lo p le_rfl h h1)⟩

theorem R_one (S : Slopes I φ s x δ R L lo hi z) : 1 ≤ R := by
  have h := S.mono lo hi le_rfl (S.zlo.trans S.zhi) le_rfl
  have h2 := S.ratio
  by_contra hc
  rw [not_le] at hc
  nlinarith [S.pos]

/-- Right of the root the step stays above the root, up to `τ`. -/
theorem step_right (S : Slopes I φ s x δ R L lo hi z) {τ p : ℝ} (hτ : δ ≤ τ * φ lo) (h : lo ≤ p) (h1 : p ≤ hi)
    (hz : z ≤ p) : -τ ≤ s p ∧ s p ≤ p - z + τ := by
  obtain ⟨f1, f2⟩ := S.φpos h h1
  obtain ⟨e1, e2⟩ := abs_le.1 (S.step p h h1)
  have h2 := S.upper z p S.zlo hz h1
  have h3 := S.lower z p S.zlo hz h1
  have h4 := (S.φpos S.zlo S.zhi).2
  rw [S.root] at h2 h3
  have hτ0 : 0 ≤ τ := by
    by_contra hc
    rw [not_le] at hc
    nlinarith [S.δ_nonneg, S.pos]
  have h5 : δ ≤ τ * φ p := hτ.trans (mul_le_mul_of_nonneg_left f1 hτ0)
  have h6 : 0 ≤ φ z * (p - z) := mul_nonneg h4.le (by linarith)
  constructor
  · by_contra hc
    rw [not_le] at hc
    nlinarith
  · by_contra hc
    rw [not_le] at hc
    nlinarith

/-- Left of the root. -/
theorem step_left (S : Slopes I φ s x δ R L lo hi z) {τ p : ℝ} (hτ : δ ≤ τ * φ lo) (h : lo ≤ p) (hz : p ≤ z) :
    s p ≤ -(z - p) + τ ∧ -(R * (z - p)) - τ ≤ s p := by
  have h1 : p ≤ hi := hz.trans S.zhi
  obtain ⟨f1, f2⟩ := S.φpos h h1
  obtain ⟨e1, e2⟩ := abs_le.1 (S.step p h h1)
  have h2 := S.upper p z h hz S.zhi
  have h3 := S.lower p z h hz S.zhi
  have h4 := (S.φpos S.zlo S.zhi).2
  rw [S.root] at h2 h3
  have hτ0 : 0 ≤ τ := by
    by_contra hc
    rw [not_le] at hc
    nlinarith [S.δ_nonneg, S.pos]
  have h5 : δ ≤ τ * φ p := hτ.trans (mul_le_mul_of_nonneg_left f1 hτ0)
  have h7 : φ z ≤ R * φ p := by
    have h8 := S.mono z hi S.zlo S.zhi le_rfl
    have := mul_le_mul_of_nonneg_left f1 (zero_le_one.trans S.R_one)
    linarith [S.ratio]
  have h8 : φ z * (z - p) ≤ R * φ p * (z - p) := mul_le_mul_of_nonneg_right h7 (by linarith)
  constructor
  · by_contra hc
    rw [not_le] at hc
    nlinarith
  · by_contra hc
    rw [not_le] at hc
    nlinarith

/-- The value at the end of a last step of size at most `ε`. -/
theorem last (S : Slopes I φ s x δ R L lo hi z) (hL : 0 ≤ L) {ε p : ℝ} (h : lo + ε ≤ p) (h1 : p ≤ hi - ε)
    (hs : |s p| ≤ ε) : |I (p - s p) - x| ≤ δ + L * ε ^ 2 := by
  obtain ⟨s1, s2⟩ := abs_le.1 hs
  have hε : 0 ≤ ε := (abs_nonneg _).trans hs
  obtain ⟨e1, e2⟩ := abs_le.1 (S.step p (by linarith) (by linarith))
  rcases le_total 0 (s p) with h0 | h0
  · have h2 := S.upper (p - s p) p (by linarith) (by linarith) (by linarith)
    have h3 := S.lower (p - s p) p (by linarith) (by linarith) (by linarith)
    have h4 := S.lip (p - s p) p (by linarith) (by linarith) (by linarith)
    rw [sub_sub_cancel] at h2 h3 h4
    have h5 : (φ p - φ (p - s p)) * s p ≤ L * s p * s p := mul_le_mul_of_nonneg_right h4 h0
    have h6 : L * s p * s p ≤ L * ε ^ 2 := by
      rw [mul_assoc, sq]
      exact mul_le_mul_of_nonneg_left (mul_le_mul s2 s2 h0 hε) hL
    have h7 : 0 ≤ L * ε ^ 2 := by positivity
    rw [abs_le]
    constructor <;> nlinarith
  · have h2 := S.upper p (p - s p) (by linarith) (by linarith) (by linarith)
    have h3 := S.lower p (p - s p) (by linarith) (by linarith) (by linarith)
    have h4 := S.lip p (p - s p) (by linarith) (by linarith) (by linarith)
    have e : p - s p - p = -s p := by ring
    rw [e] at h2 h3 h4
    have h5 : (φ (p - s p) - φ p) * (-s p) ≤ L * (-s p) * (-s p) := mul_le_mul_of_nonneg_right h4 (by linarith)
    have h6 : L * (-s p) * (-s p) ≤ L * ε ^ 2 := by
      rw [mul_assoc, sq]
      exact mul_le_mul_of_nonneg_left (mul_le_mul (by linarith) (by linarith) (by linarith) hε) hL
    have h7 : 0 ≤ L * ε ^ 2 := by positivity
    rw [abs_le]
    constructor <;> nlinarith

end Slopes

/-- The computed quotient is `s`. -/
def Computes (E : BetaEnv) (lnB a b x lo hi : ℝ) (s : ℝ → ℝ) : Prop :=
  ∀ p, lo ≤ p → p ≤ hi → ∃ i, checkedBetaReg E a b p = some i ∧
    quotient (i - x) (lnB + (1 - a) * Real.log p + (1 - b) * Real.log (1 - p)) = .num (s p)

/-- One round that moves by the computed step. -/
theorem newton_round {E : BetaEnv} {lnB a b ε : ℝ} (C : Computes E lnB a b x lo hi s) {p qprev sq prev pr : ℝ}
    (h : lo ≤ p) (h1 : p ≤ hi) (hsq : 1 / 10 ^ 30 < sq)
    (hpr : pr = if s p * qprev ≤ 0 then sq else prev) (c1 : s p * s p < pr) (c2 : 0 < p - s p) (c3 : p - s p < 1)
    (c4 : ε ^ 2 < pr) (fuel : ℕ) :
    newton E lnB a b x (ε ^ 2) (fuel + 1) p qprev sq prev =
      if s p * s p ≤ ε ^ 2 then some (.ok (p - s p))
      else if p - s p = p then some (.ok p)
      else newton E lnB a b x (ε ^ 2) fuel (p - s p) (s p) (s p * s p) pr := by
  obtain ⟨i, hi, hq⟩ := C p h h1
  have hp : (if signTest (.num (s p)) qprev = true then (if sq > 1 / 10 ^ 30 then sq else 1 / 10 ^ 30) else prev) = pr := by
    rw [hpr, if_pos hsq]
    simp [signTest]
  rw [newton]
  simp only [hi, hq]
  rw [hp, search_first fuel c1 c2 c3]
  simp only [not_le.2 c4, false_or]
  by_cases h5 : s p * s p ≤ ε ^ 2
  · simp [h5]
  · simp [h5]

/-- From the right of the root the search ends. -/
theorem descent {E : BetaEnv} {lnB a b ε τ : ℝ} (S : Slopes I φ s x δ R L lo hi z) (hL : 0 ≤ L)
    (C : Computes E lnB a b x lo hi s) (hτ : δ ≤ τ * φ lo) (hε : (R + 1) * τ < ε) (hε0 : 1 / 10 ^ 15 < ε)
    (hzlo : lo + 2 * ε ≤ z) (n : ℕ) :
    ∀ p qprev sq prev : ℝ, z - τ ≤ p → p ≤ hi - ε → p - z ≤ n * ε → ε ^ 2 < prev → ε ^ 2 < sq →
      (p - z + τ) ^ 2 < prev → ((0 < qprev) ∨ (qprev < 0 ∧ (p - z + τ) ^ 2 < sq)) →
      ∃ r, |I r - x| ≤ δ + L * ε ^ 2 ∧ lo ≤ r ∧ r ≤ hi ∧
        ∀ fuel, n < fuel → newton E lnB a b x (ε ^ 2) fuel p qprev sq prev = some (.ok r) := by
  have hτ0 : 0 ≤ τ := by
    by_contra hc
    rw [not_le] at hc
    nlinarith [S.δ_nonneg, S.pos]
  have hR := S.R_one
  have hτε : τ < ε := by nlinarith
  have hε2 : 1 / 10 ^ 30 < ε ^ 2 := by
    have : (1 / 10 ^ 30 : ℝ) = (1 / 10 ^ 15) ^ 2 := by norm_num
    rw [this]
    exact pow_lt_pow_left₀ hε0 (by norm_num) two_ne_zero
  have hεp : 0 < ε := lt_trans (by norm_num) hε0
  have hl := S.lo0
  have hh := S.hi1
  -- a round that ends
  have fin : ∀ p qprev sq prev : ℝ, z - τ ≤ p → p ≤ hi - ε → ε ^ 2 < prev → ε ^ 2 < sq → |s p| ≤ ε →
      ∃ r, |I r - x| ≤ δ + L * ε ^ 2 ∧ lo ≤ r ∧ r ≤ hi ∧
        ∀ fuel, 0 < fuel → newton E lnB a b x (ε ^ 2) fuel p qprev sq prev = some (.ok r) := by
    intro p qprev sq prev h1 h2 h3 h4 h5
    obtain ⟨s1, s2⟩ := abs_le.1 h5
    have h6 : s p * s p ≤ ε ^ 2 := by
      rw [← pow_two]
      exact sq_le_sq' s1 s2
    refine ⟨p - s p, S.last hL (by linarith) h2 h5, by linarith, by linarith, fun fuel hf => ?_⟩
    obtain ⟨k, rfl⟩ : ∃ k, fuel = k + 1 := ⟨fuel - 1, by omega⟩
    rw [newton_round C (by linarith) (by linarith) (hε2.trans h4) rfl (by split_ifs <;> linarith) (by linarith)
      (by linarith) (by split_ifs <;> linarith), if_pos h6]
  -- the step is bounded from below
  have low : ∀ p, z - τ ≤ p → p ≤ hi - ε → -ε ≤ s p ∧ (ε < s p → z < p) := by
    intro p h1 h2
    rcases le_total z p with h | h
    · have h3 := S.step_right hτ (by linarith [S.zlo]) (by linarith) h
      refine ⟨by linarith, fun h4 => ?_⟩
      linarith
    · have h3 := S.step_left hτ (by linarith) h
      have h4 : R * (z - p) ≤ R * τ := mul_le_mul_of_nonneg_left (by linarith) (by linarith)
      exact ⟨by linarith, fun h4 => by linarith⟩
  induction n with
  | zero =>
    intro p qprev sq prev h1 h2 h3 h4 h5 h6 h7
    obtain ⟨l1, l2⟩ := low p h1 h2
    have hs : |s p| ≤ ε := by
      rw [abs_le]
      refine ⟨l1, ?_⟩
      by_contra hc
      rw [not_le] at hc
      have := l2 hc
      simp at h3
      linarith
    exact fin p qprev sq prev h1 h2 h4 h5 hs
  | succ n ih =>
    intro p qprev sq prev h1 h2 h3 h4 h5 h6 h7
    obtain ⟨l1, l2⟩ := low p h1 h2
    by_cases hs : s p ≤ ε
    · obtain ⟨r, r1, r2, r3, r4⟩ := fin p qprev sq prev h1 h2 h4 h5 (abs_le.2 ⟨l1, hs⟩)
      exact ⟨r, r1, r2, r3, fun fuel hf => r4 fuel (by omega)⟩
    · rw [not_le] at hs
      have hz := l2 hs
      obtain ⟨_, s2⟩ := S.step_right hτ (S.zlo.trans hz.le) (by linarith) hz.le
      have hsp : 0 < s p := hεp.trans hs
      have hss : s p * s p ≤ (p - z + τ) ^ 2 := by
        rw [← pow_two]
        exact pow_le_pow_left₀ hsp.le s2 2
      have hse : ε ^ 2 < s p * s p := by
        rw [← pow_two (s p)]
        exact pow_lt_pow_left₀ hs hεp.le two_ne_zero
      set pr := if s p * qprev ≤ 0 then sq else prev with hpr
      have hpr1 : ε ^ 2 < pr ∧ (p - z + τ) ^ 2 < pr := by
        rw [hpr]
        split_ifs with hq
        · refine ⟨h5, ?_⟩
          rcases h7 with h7 | h7
          · exact absurd (mul_pos hsp h7) (not_lt.2 hq)
          · exact h7.2
        · exact ⟨h4, h6⟩
      obtain ⟨r, r1, r2, r3, r4⟩ := ih (p - s p) (s p) (s p * s p) pr (by linarith) (by linarith)
        (by push_cast at h3; linarith) hpr1.1 hse
        (lt_of_le_of_lt (pow_le_pow_left₀ (by linarith) (by linarith) 2) hpr1.2) (Or.inl hsp)
      refine ⟨r, r1, r2, r3, fun fuel hf => ?_⟩
      obtain ⟨k, rfl⟩ : ∃ k, fuel = k + 1 := ⟨fuel - 1, by omega⟩
      rw [newton_round C (S.zlo.trans hz.le) (by linarith) (hε2.trans h5) hpr (by linarith) (by linarith [S.zlo])
        (by linarith) hpr1.1, if_neg (not_le.2 hse), if_neg (by intro h; linarith)]
      exact r4 k (by omega)

/-- The search from any start whose first step does not leave the interval. -/
theorem newton_ends {E : BetaEnv} {lnB a b ε τ : ℝ} (S : Slopes I φ s x δ R L lo hi z) (hL : 0 ≤ L)
    (C : Computes E lnB a b x lo hi s) (hτ : δ ≤ τ * φ lo) (hε : (R + 1) * τ < ε) (hε0 : 1 / 10 ^ 15 < ε) (hε1 : ε < 1)
    (hzlo : lo + 2 * ε ≤ z) {p : ℝ} (hp : lo + ε ≤ p) (hp1 : p ≤ hi - ε) (hp2 : p - s p ≤ hi - ε) (hτ1 : hi + τ < 1) :
    ∃ r N, |I r - x| ≤ δ + L * ε ^ 2 ∧ lo ≤ r ∧ r ≤ hi ∧
      ∀ fuel, N < fuel → newton E lnB a b x (ε ^ 2) fuel p 0 1 1 = some (.ok r) := by
  have hτ0 : 0 ≤ τ := by
    by_contra hc
    rw [not_le] at hc
    nlinarith [S.δ_nonneg, S.pos]
  have hR := S.R_one
  have hτε : τ < ε := by nlinarith
  have hεp : 0 < ε := lt_trans (by norm_num) hε0
  have hl := S.lo0
  have hh := S.hi1
  have hεsq : ε ^ 2 < 1 := by nlinarith
  have hzl := S.zlo
  have hzh := S.zhi
  obtain ⟨n, hn⟩ := exists_nat_ge (1 / ε)
  have hn1 : 1 ≤ n * ε := by rwa [div_le_iff₀ hεp] at hn
  -- size of the first step
  have size : p - s p ≤ hi - ε ∧ lo ≤ p - s p ∨ |s p| ≤ ε := by
    rcases le_total z p with h | h
    · have h3 := S.step_right hτ (by linarith) (by linarith) h
      left
      constructor <;> linarith
    · have h3 := S.step_left hτ (by linarith) h
      by_cases h4 : s p ≤ 0
      · left; constructor <;> linarith
      · right
        rw [abs_of_pos (not_le.1 h4)]
        linarith
  have first : ∀ fuel, 0 < p - s p → p - s p < 1 → |s p| < 1 → newton E lnB a b x (ε ^ 2) (fuel + 1) p 0 1 1 =
      if s p * s p ≤ ε ^ 2 then some (.ok (p - s p))
      else if p - s p = p then some (.ok p)
      else newton E lnB a b x (ε ^ 2) fuel (p - s p) (s p) (s p * s p) 1 := by
    intro fuel h1 h2 h3
    obtain ⟨s1, s2⟩ := abs_lt.1 h3
    rw [newton_round C (by linarith) (by linarith) (by norm_num) (pr := 1) (by simp) (by nlinarith) h1 h2 hεsq]
  by_cases hs : |s p| ≤ ε
  · obtain ⟨s1, s2⟩ := abs_le.1 hs
    refine ⟨p - s p, 0, S.last hL hp hp1 hs, by linarith, by linarith, fun fuel hf => ?_⟩
    obtain ⟨k, rfl⟩ : ∃ k, fuel = k + 1 := ⟨fuel - 1, by omega⟩
    rw [first k (by linarith) (by linarith) (by linarith), if_pos (by rw [← sq]; exact sq_le_sq' s1 s2)]
  · rw [not_le] at hs
    have size' := size.resolve_right (by linarith)
    have hs1 : |s p| < 1 := by
      rw [abs_lt]
      constructor <;> linarith
    have hse : ε ^ 2 < s p * s p := by
      rw [← abs_mul_abs_self, sq]
      exact mul_lt_mul'' hs hs hεp.le hεp.le
    have hne : s p ≠ 0 := by
      intro h
      rw [h] at hs
      simp at hs
      linarith
    have hcond : z - τ ≤ p - s p ∧ (p - s p - z + τ) ^ 2 < 1 ∧
        ((0 < s p) ∨ (s p < 0 ∧ (p - s p - z + τ) ^ 2 < s p * s p)) := by
      rcases le_total z p with h | h
      · obtain ⟨h3, h4⟩ := S.step_right hτ (by linarith) (by linarith) h
        have h5 : 0 < s p := by
          by_contra hc
          rw [abs_of_nonpos (not_lt.1 hc)] at hs
          linarith
        refine ⟨by linarith, ?_, Or.inl h5⟩
        exact pow_lt_one₀ (by linarith) (by linarith) two_ne_zero
      · obtain ⟨h3, h4⟩ := S.step_left hτ (by linarith) h
        have h5 : s p < 0 := by
          by_contra hc
          rw [abs_of_nonneg (not_lt.1 hc)] at hs
          linarith
        rw [abs_of_neg h5] at hs
        have h6 : τ < z - p := by
          by_contra hc
          rw [not_lt] at hc
          have := mul_le_mul_of_nonneg_left hc (zero_le_one.trans hR)
          linarith
        have h7 : 0 ≤ p - s p - z + τ := by linarith
        refine ⟨by linarith, ?_, Or.inr ⟨h5, ?_⟩⟩
        · exact pow_lt_one₀ h7 (by linarith) two_ne_zero
        · have h8 : p - s p - z + τ < -s p := by linarith
          have h9 := pow_lt_pow_left₀ h8 h7 two_ne_zero
          rwa [neg_sq, sq (s p)] at h9
    obtain ⟨r, r1, r2, r3, r4⟩ := descent S hL C hτ hε hε0 hzlo n (p - s p) (s p) (s p * s p) 1 hcond.1 size'.1
      (by linarith) hεsq hse hcond.2.1 hcond.2.2
    refine ⟨r, n + 1, r1, r2, r3, fun fuel hf => ?_⟩
    obtain ⟨k, rfl⟩ : ∃ k, fuel = k + 1 := ⟨fuel - 1, by omega⟩
    rw [first k (by linarith) (by linarith) hs1, if_neg (not_le.2 hse), if_neg (by intro h; exact hne (by linarith))]
    exact r4 k (by omega)

end Verif.StudentPpf
