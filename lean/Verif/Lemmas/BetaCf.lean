import Verif.Lemmas.BetaTable

/-! # Accuracy of the continued fraction after at most 140 rounds -/

namespace Verif.BetaFrac

open Verif.TTest

variable {a b x : ℝ}

theorem f_ge_one (R : Reg a b x) : 1 ≤ a * P a b x 0 := by
  have h := P_zero (b := b) R.ha R.x1
  have := P'_pos (b := b) R.ha R.x1 0
  have ha := R.ha; have hb := R.hb; have hx := R.x0
  have : 0 ≤ (a + b) * x * P' a b x 0 := by positivity
  linarith

theorem start_err (R : Reg a b x) :
    |a * P a b x 0 - 1 / (1 - (a + b) * x / (a + 1))| ≤ |b - 1| / 2 * (a * P a b x 0) := by
  have ha := R.ha; have hb := R.hb; have hx := R.x0
  have G := Good.start R
  have f1 := f_ge_one R
  rw [G.err, abs_mul, abs_mul, abs_of_pos G.d0]
  have h1 : |1 - a * P a b x 0| ≤ a * P a b x 0 := by rw [abs_le]; constructor <;> linarith
  have h2 := tO_abs R 0
  have h3 := G.db
  have h4 := R.denO 0
  simp only [Nat.cast_zero, mul_zero, add_zero, sub_zero, zero_add] at h2 h4
  refine mul_le_mul ?_ h1 (abs_nonneg _) (by positivity)
  have h5 : |tO a b x 0| * (1 / (1 - (a + b) * x / (a + 1))) ≤ |b - 1| * x / (a + 1) * bO a b x 0 :=
    mul_le_mul h2 h3 G.d0.le (by positivity)
  refine h5.trans ?_
  have hA : 0 < a + b + 2 := by linarith
  have h6 : 0 < 2 * (a + 1) / (a + b + 2) := by positivity
  have e : |b - 1| * x / (a + 1) * bO a b x 0 = |b - 1| * (x / (a + 1 - (a + b) * x)) := by
    unfold bO
    simp only [Nat.cast_zero, mul_zero, add_zero]
    have : a + 1 - (a + b) * x ≠ 0 := by linarith
    field_simp
  rw [e, div_eq_mul_one_div |b - 1| 2]
  apply mul_le_mul_of_nonneg_left _ (abs_nonneg _)
  rw [div_le_div_iff₀ (by linarith) two_pos]
  have h7 := R.hx
  nlinarith

theorem prodN_bound {num den : ℕ → ℕ} {lo hi : ℕ} {r : ℕ → ℝ} (hden : ∀ m, 0 < den m) (n : ℕ) (h0 : ∀ m, 0 ≤ r m)
    (h : ∀ m, m < n → r m ≤ (gn lo hi m : ℝ) / 2 / (m + 4) * (num m / den m)) :
    (∏ i ∈ Finset.range n, r i) * 10 ^ 60 ≤ prodN num den lo hi n := by
  induction n with
  | zero => simp only [prodN, Finset.range_zero, Finset.prod_empty, one_mul]; norm_num
  | succ n ih =>
    have ih := ih fun m hm => h m (by omega)
    rw [Finset.prod_range_succ]
    have hd : (0 : ℝ) < den n := by exact_mod_cast hden n
    have h1 := h n (by omega)
    simp only [prodN]
    have h2 : ((prodN num den lo hi n * (gn lo hi n * num n) : ℕ) : ℝ) / ((2 * (n + 4) * den n : ℕ) : ℝ) ≤
        ((prodN num den lo hi n * (gn lo hi n * num n) / (2 * (n + 4) * den n) + 1 : ℕ) : ℝ) := by
      rw [div_le_iff₀ (by push_cast; positivity)]
      have := Nat.lt_div_mul_add (a := prodN num den lo hi n * (gn lo hi n * num n)) (b := 2 * (n + 4) * den n)
        (by have := hden n; positivity)
      have h3 : prodN num den lo hi n * (gn lo hi n * num n) ≤
        (prodN num den lo hi n * (gn lo hi n * num n) / (2 * (n + 4) * den n) + 1) * (2 * (n + 4) * den n) := by
        rw [add_mul]; omega
      exact_mod_cast h3
    refine le_trans ?_ h2
    calc (∏ i ∈ Finset.range n, r i) * r n * 10 ^ 60 = (∏ i ∈ Finset.range n, r i) * 10 ^ 60 * r n := by ring
      _ ≤ prodN num den lo hi n * ((gn lo hi n : ℝ) / 2 / (n + 4) * (num n / den n)) :=
        mul_le_mul ih h1 (h0 n) (Nat.cast_nonneg _)
      _ = _ := by
        push_cast
        field_simp

theorem gn_ge {lo hi : ℕ} (h1 : (lo : ℝ) / 2 ≤ b) (h2 : b ≤ (hi : ℝ) / 2) (m : ℕ) :
    |b - m - 3| ≤ (gn lo hi m : ℝ) / 2 := by
  have e1 : (hi : ℝ) - (2 * m + 6) ≤ gn lo hi m := by
    have : hi ≤ gn lo hi m + (2 * m + 6) := by unfold gn; omega
    have : (hi : ℝ) ≤ gn lo hi m + (2 * m + 6) := by exact_mod_cast this
    linarith
  have e2 : (2 * m + 6 : ℝ) - lo ≤ gn lo hi m := by
    have : 2 * m + 6 ≤ gn lo hi m + lo := by unfold gn; omega
    have : (2 * m + 6 : ℝ) ≤ gn lo hi m + lo := by exact_mod_cast this
    linarith
  rw [abs_le]
  constructor <;> linarith

/-- A round after the first, from a bound for the ratio of the integrals. -/
theorem rate_num (R : Reg a b x) {lo hi : ℕ} (h1 : (lo : ℝ) / 2 ≤ b) (h2 : b ≤ (hi : ℝ) / 2) (m : ℕ) {ρ q : ℝ}
    (hρ : 0 ≤ ρ) (h : P a b x (m + 2 + 1) ≤ ρ * P a b x (m + 2)) (hq : x * ρ ≤ q) :
    rate a b x (m + 1) ≤ (gn lo hi m : ℝ) / 2 / (m + 4) * q := by
  refine (rate_le' R m hρ h).trans ?_
  have hx := R.x0
  have := gn_ge h1 h2 m
  have h3 : (0 : ℝ) < m + 4 := by positivity
  apply mul_le_mul _ hq (by positivity) (by positivity)
  exact div_le_div_of_nonneg_right this h3.le

theorem denA_pos (lo m : ℕ) : 0 < denA lo m := by unfold denA; omega

theorem rate_A (R : Reg a b x) (hab : 2 * b + 1 ≤ a) {lo hi : ℕ} (h1 : (lo : ℝ) / 2 ≤ b) (h2 : b ≤ (hi : ℝ) / 2)
    (m : ℕ) : rate a b x (m + 1) ≤ (gn lo hi m : ℝ) / 2 / (m + 4) * (numA lo m / denA lo m) := by
  have ha := R.ha; have hb := R.hb; have hx := R.x0; have hx1 := R.x1
  have hm : (0 : ℝ) ≤ m := Nat.cast_nonneg m
  have hlo : (0 : ℝ) ≤ lo := Nat.cast_nonneg lo
  have hd : (0 : ℝ) < denA lo m := by exact_mod_cast denA_pos lo m
  by_cases hc : 384 * (m + 3) ≤ nA lo m ^ 2 * mm lo m
  · have hn : 0 < nA lo m := by unfold nA; omega
    have hn' : (0 : ℝ) < nA lo m := by exact_mod_cast hn
    have hq : (0 : ℝ) < nA lo m / 8 := by positivity
    have key := P_ratio_q R hq (m + 2) ?_
    · have e : (nA lo m : ℝ) / 8 / (1 + nA lo m / 8) = numA lo m / denA lo m := by
        unfold numA denA
        rw [if_pos hc]
        push_cast
        field_simp
        ring
      rw [e] at key
      have hρ : (0 : ℝ) ≤ numA lo m / denA lo m := by positivity
      refine rate_num R h1 h2 m hρ key ?_
      nlinarith
    · have hy := R.y_ge
      have hA : 0 < a + b + 2 := by linarith
      -- the linear term is not negative
      have hl : 0 ≤ (a + b - 1) * (1 - x) - b := by
        have : 0 ≤ ((a + b - 1) * (1 - x) - b) * (a + b + 2) := by
          nlinarith [mul_le_mul_of_nonneg_left hy (by linarith : 0 ≤ a + b - 1)]
        exact nonneg_of_mul_nonneg_left this hA
      have hM : (mm lo m : ℝ) ≤ 6 * ((1 - x) * (a + (m + 2))) := by
        have hM1 : (mm lo m : ℝ) ≤ 3 * lo + 6 := by
          have : mm lo m ≤ 3 * lo + 6 := min_le_left _ _
          exact_mod_cast this
        have hM2 : (mm lo m : ℝ) ≤ 2 * lo + 2 * m + 6 := by
          have : mm lo m ≤ 2 * lo + 2 * m + 6 := min_le_right _ _
          exact_mod_cast this
        refine le_of_mul_le_mul_right ?_ hA
        have h3 := mul_le_mul_of_nonneg_right hy (by linarith : 0 ≤ a + (m + 2))
        rcases le_total b m with hbm | hbm
        · have : (mm lo m : ℝ) * (a + b + 2) ≤ (6 * b + 6) * (a + b + 2) :=
            mul_le_mul_of_nonneg_right (by linarith) hA.le
          nlinarith
        · have : (mm lo m : ℝ) * (a + b + 2) ≤ (4 * b + 2 * m + 6) * (a + b + 2) :=
            mul_le_mul_of_nonneg_right (by linarith) hA.le
          nlinarith [mul_nonneg (by linarith : 0 ≤ b - m) (by linarith : 0 ≤ a - (2 * b + 1))]
      have hc' : (384 : ℝ) * (m + 3) ≤ nA lo m ^ 2 * mm lo m := by exact_mod_cast hc
      have h4 : (nA lo m : ℝ) ^ 2 * mm lo m ≤ nA lo m ^ 2 * (6 * ((1 - x) * (a + (m + 2)))) :=
        mul_le_mul_of_nonneg_left hM (by positivity)
      have h5 := mul_nonneg hl hq.le
      push_cast
      nlinarith
  · have e : (numA lo m : ℝ) / denA lo m = 1 := by
      unfold numA denA
      rw [if_neg hc]
      apply div_self
      push_cast
      positivity
    rw [e]
    have key := P_ratio_sigma (b := b) ha hx1 le_rfl (by simpa using hx1.le) (m + 2)
    exact rate_num R h1 h2 m (by norm_num) key (by simpa using hx1.le)

theorem rate_B (R : Reg a b x) (hab : a ≤ 2 * b + 1) {lo hi : ℕ} (h1 : (lo : ℝ) / 2 ≤ b) (h2 : b ≤ (hi : ℝ) / 2)
    (m : ℕ) : rate a b x (m + 1) ≤ (gn lo hi m : ℝ) / 2 / (m + 4) * ((271 : ℕ) / (1000 : ℕ)) := by
  have ha := R.ha; have hb := R.hb; have hx := R.x0; have hx1 := R.x1
  have hy := R.hx
  have h3 : x ≤ 2 / 3 := by
    by_contra hc
    rw [not_le] at hc
    nlinarith
  have key := P_ratio_sigma (σ := 57 / 100) (b := b) ha hx1 (by norm_num) (by norm_num; linarith) (m + 2)
  refine rate_num R h1 h2 m (by norm_num) key ?_
  norm_num
  linarith

theorem denS_pos (lo : ℕ) : 0 < denS lo := by unfold denS; positivity

theorem rate_S (R : Reg a b x) (ha1 : a ≤ 100) {lo hi : ℕ} (h1 : (lo : ℝ) / 2 ≤ b) (h2 : b ≤ (hi : ℝ) / 2)
    (m : ℕ) : rate a b x (m + 1) ≤ (gn lo hi m : ℝ) / 2 / (m + 4) * (numS lo / denS lo) := by
  have ha := R.ha; have hb := R.hb; have hx := R.x0; have hx1 := R.x1
  have hlo : (0 : ℝ) ≤ lo := Nat.cast_nonneg lo
  unfold numS denS
  generalize sS lo = s
  by_cases hc : s ^ 2 * (lo + 204) ≤ 64 ^ 2 * (lo + 2)
  · have hy := R.hx
    -- the worst case is `a = 100`
    have hx2 : x * (204 + lo) ≤ 202 := by
      have hA : 0 < a + b + 2 := by linarith
      have : x ≤ 101 / (b + 102) := by
        rw [le_div_iff₀ (by linarith)]
        refine le_of_mul_le_mul_right ?_ hA
        nlinarith
      rw [le_div_iff₀ (by linarith)] at this
      nlinarith
    have hc' : (s : ℝ) ^ 2 * (lo + 204) ≤ 64 ^ 2 * (lo + 2) := by exact_mod_cast hc
    have hσ : ((s : ℝ) / 64) ^ 2 ≤ 1 - x := by
      have h204 : (0 : ℝ) < lo + 204 := by linarith
      refine le_of_mul_le_mul_right ?_ h204
      rw [div_pow, div_mul_eq_mul_div, div_le_iff₀ (by norm_num)]
      nlinarith
    have key := P_ratio_sigma (b := b) ha hx1 (by positivity) hσ (m + 2)
    refine rate_num R h1 h2 m (by positivity) key ?_
    rw [if_pos hc]
    push_cast
    have e : (202 * 64 ^ 2 : ℝ) / ((204 + lo) * (64 + s) ^ 2) = 202 / (204 + lo) * (1 / (1 + s / 64) ^ 2) := by
      field_simp
    norm_num at e ⊢
    rw [e]
    apply mul_le_mul_of_nonneg_right _ (by positivity)
    rw [le_div_iff₀ (by linarith)]
    exact hx2
  · have e : (((if s ^ 2 * (lo + 204) ≤ 64 ^ 2 * (lo + 2) then 202 * 64 ^ 2 else (204 + lo) * (64 + s) ^ 2 : ℕ) : ℝ)) /
        ((204 + lo) * (64 + s) ^ 2 : ℕ) = 1 := by
      rw [if_neg hc]
      apply div_self
      push_cast
      positivity
    rw [e]
    have key := P_ratio_sigma (b := b) ha hx1 le_rfl (by simpa using hx1.le) (m + 2)
    exact rate_num R h1 h2 m (by norm_num) key (by simpa using hx1.le)

/-- All rounds used: the error, given a table entry. -/
theorem used_of_table (R : Reg a b x) {num den : ℕ → ℕ} {lo hi : ℕ} (hden : ∀ m, 0 < den m)
    (h1 : (lo : ℝ) / 2 ≤ b) (h2 : b ≤ (hi : ℝ) / 2)
    (h : ∀ m, rate a b x (m + 1) ≤ (gn lo hi m : ℝ) / 2 / (m + 4) * (num m / den m))
    (ht : first lo hi * prodN num den lo hi 139 * 10 ^ 13 ≤ 16 * 10 ^ 60) :
    (∏ i ∈ Finset.range 140, rate a b x (0 + i)) * |a * P a b x 0 - 1 / (1 - (a + b) * x / (a + 1))| ≤
      2 / 10 ^ 13 * (a * P a b x 0) := by
  have hb := R.hb
  have f1 := f_ge_one R
  have e1 := start_err R
  have e2 := prodN_bound (r := fun m => rate a b x (m + 1)) hden 139 (fun m => rate_nonneg R _) fun m _ => h m
  have e3 := rate_first R
  rw [Finset.prod_range_succ']
  simp only [zero_add]
  have hp0 : 0 ≤ ∏ i ∈ Finset.range 139, rate a b x (i + 1) := Finset.prod_nonneg fun i _ => rate_nonneg R _
  generalize ∏ i ∈ Finset.range 139, rate a b x (i + 1) = p at *
  have hf : max 1 b * (|b - 1| / 2) ≤ (first lo hi : ℝ) / 8 := by
    have i1 : max 1 b ≤ ((max 2 hi : ℕ) : ℝ) / 2 := by
      push_cast
      rw [le_div_iff₀ two_pos]
      rcases le_total 1 b with hb1 | hb1
      · rw [max_eq_right hb1]; exact le_max_of_le_right (by linarith)
      · rw [max_eq_left hb1]; exact le_max_of_le_left (by linarith)
    have i2 : |b - 1| ≤ ((max (hi - 2) (2 - lo) : ℕ) : ℝ) / 2 := by
      have j1 : (hi : ℝ) ≤ ((max (hi - 2) (2 - lo) : ℕ) : ℝ) + 2 := by
        have : hi ≤ max (hi - 2) (2 - lo) + 2 := by omega
        exact_mod_cast this
      have j2 : (2 : ℝ) ≤ ((max (hi - 2) (2 - lo) : ℕ) : ℝ) + lo := by
        have : 2 ≤ max (hi - 2) (2 - lo) + lo := by omega
        exact_mod_cast this
      rw [abs_le]
      constructor <;> linarith
    unfold first
    rw [Nat.cast_mul]
    have := mul_le_mul i1 i2 (abs_nonneg _) (by positivity)
    linarith
  have ht' : (first lo hi : ℝ) * prodN num den lo hi 139 * 10 ^ 13 ≤ 16 * 10 ^ 60 := by exact_mod_cast ht
  have h5 : rate a b x 0 * |a * P a b x 0 - 1 / (1 - (a + b) * x / (a + 1))| ≤ (first lo hi : ℝ) / 8 * (a * P a b x 0) := by
    calc _ ≤ max 1 b * (|b - 1| / 2 * (a * P a b x 0)) := mul_le_mul e3 e1 (abs_nonneg _) (by positivity)
      _ = max 1 b * (|b - 1| / 2) * (a * P a b x 0) := by ring
      _ ≤ _ := mul_le_mul_of_nonneg_right hf (by linarith)
  rw [mul_assoc]
  have h6 := mul_le_mul_of_nonneg_left h5 hp0
  refine h6.trans ?_
  have h7 : p * ((first lo hi : ℝ) / 8) ≤ 2 / 10 ^ 13 := by
    have : p * 10 ^ 60 * (first lo hi : ℝ) ≤ prodN num den lo hi 139 * first lo hi :=
      mul_le_mul_of_nonneg_right e2 (Nat.cast_nonneg _)
    rw [le_div_iff₀ (by norm_num)]
    nlinarith
  calc p * ((first lo hi : ℝ) / 8 * (a * P a b x 0)) = p * ((first lo hi : ℝ) / 8) * (a * P a b x 0) := by ring
    _ ≤ _ := mul_le_mul_of_nonneg_right h7 (by linarith)

theorem grid_cover : ∀ n : ℕ, 1 ≤ n → n < 400 → ∃ g ∈ grid, g.1 ≤ n ∧ n + 1 ≤ g.2 := by decide +kernel

theorem grid_cover' : ∀ n : ℕ, 1 ≤ n → n < 200 → ∃ g ∈ grid.take 14, g.1 ≤ n ∧ n + 1 ≤ g.2 := by decide +kernel


theorem rate_L (R : Reg a b x) (ha1 : a ≤ 100) (hb1 : 200 ≤ b) {m : ℕ} (hm : m < 139) :
    rate a b x (m + 1) ≤ 101 ^ 2 * 304 / ((m + 4) * (102 + m) * 1000) := by
  have ha := R.ha; have hb := R.hb; have hx := R.x0; have hx1 := R.x1; have hy := R.hx
  have hA : 0 < a + b + 2 := by linarith
  have hx2 : x ≤ 101 / 302 := by
    have : x ≤ 101 / (b + 102) := by
      rw [le_div_iff₀ (by linarith)]
      refine le_of_mul_le_mul_right ?_ hA
      nlinarith
    refine this.trans ?_
    exact div_le_div_of_nonneg_left (by norm_num) (by norm_num) (by linarith)
  have key := P_ratio_sigma (σ := 815 / 1000) (b := b) ha hx1 (by norm_num) (by norm_num; linarith) (m + 2)
  have p1 := P_pos (b := b) ha hx1 (m + 2)
  have p2 := P_pos (b := b) ha hx1 (m + 2 + 1)
  have hr : P a b x (m + 2 + 1) / P a b x (m + 2) ≤ 304 / 1000 := by
    rw [div_le_iff₀ p1]
    refine key.trans (mul_le_mul_of_nonneg_right (by norm_num) p1.le)
  have hr0 : 0 ≤ P a b x (m + 2 + 1) / P a b x (m + 2) := by positivity
  have hO := R.denO_ge (k := m + 2) (by omega)
  have hE := R.denE_pos (m + 2)
  rw [rate_eq R (m + 1)]
  rw [show m + 1 + 1 = m + 2 from rfl]
  generalize P a b x (m + 2 + 1) / P a b x (m + 2) = r at *
  have hm0 : (0 : ℝ) ≤ m := Nat.cast_nonneg m
  have hm1 : (m : ℝ) < 139 := by exact_mod_cast hm
  push_cast at hO hE ⊢
  generalize (m : ℝ) = k at *
  have hab : |b - (k + 2) - 1| = b - k - 3 := by rw [abs_of_nonneg (by linarith)]; ring
  rw [hab]
  have hnum : (a + b + (k + 2)) * x * ((b - k - 3) * x) ≤ (a + 1) ^ 2 := by
    have h1 : (a + b + (k + 2)) * (b - k - 3) ≤ (a + b + 2) ^ 2 := by
      have : (a + b + (k + 2)) * (b - k - 3) ≤ (a + b + (k + 2)) * (a + b - k - 3) :=
        mul_le_mul_of_nonneg_left (by linarith) (by linarith)
      nlinarith
    have h2 : (x * (a + b + 2)) ^ 2 ≤ (a + 1) ^ 2 := pow_le_pow_left₀ (by positivity) hy 2
    have h3 := mul_le_mul_of_nonneg_right h1 (sq_nonneg x)
    nlinarith
  have hden : (a + (k + 2)) * (k + 4) ≤
      (a + 2 * (k + 2) - (k + 2) * x) * (a + 2 * (k + 2) + 1 - (a + b + (k + 2)) * x) :=
    mul_le_mul hE (by linarith) (by linarith) (by linarith)
  have hd0 : 0 < (a + (k + 2)) * (k + 4) := by positivity
  calc _ ≤ (a + 1) ^ 2 * (304 / 1000) / ((a + (k + 2)) * (k + 4)) := by
        apply div_le_div₀ (by positivity) _ hd0 hden
        exact mul_le_mul hnum hr hr0 (by positivity)
    _ ≤ _ := by
        rw [div_le_div_iff₀ hd0 (by positivity)]
        have : (a + 1) ^ 2 * (102 + k) ≤ 101 ^ 2 * (a + (k + 2)) := by
          have h1 : 0 ≤ (k + 2) * (102 + a) + 100 * a - 1 := by nlinarith
          linarith [mul_nonneg (by linarith : 0 ≤ 100 - a) h1]
        nlinarith [mul_le_mul_of_nonneg_right this (by positivity : 0 ≤ (k + 4) * 304)]

theorem prodL_bound {r : ℕ → ℝ} (n : ℕ) (h0 : ∀ m, 0 ≤ r m)
    (h : ∀ m, m < n → r m ≤ 101 ^ 2 * 304 / (((m : ℝ) + 4) * (102 + m) * 1000)) :
    (∏ i ∈ Finset.range n, r i) * 10 ^ 120 ≤ prodL n := by
  induction n with
  | zero => simp only [prodL, Finset.range_zero, Finset.prod_empty, one_mul]; norm_num
  | succ n ih =>
    have ih := ih fun m hm => h m (by omega)
    rw [Finset.prod_range_succ]
    have h1 := h n (by omega)
    simp only [prodL]
    have h2 : ((prodL n * (101 ^ 2 * 304) : ℕ) : ℝ) / (((n + 4) * (102 + n) * 1000 : ℕ) : ℝ) ≤
        ((prodL n * (101 ^ 2 * 304) / ((n + 4) * (102 + n) * 1000) + 1 : ℕ) : ℝ) := by
      rw [div_le_iff₀ (by push_cast; positivity)]
      have := Nat.lt_div_mul_add (a := prodL n * (101 ^ 2 * 304)) (b := (n + 4) * (102 + n) * 1000) (by positivity)
      have h3 : prodL n * (101 ^ 2 * 304) ≤
        (prodL n * (101 ^ 2 * 304) / ((n + 4) * (102 + n) * 1000) + 1) * ((n + 4) * (102 + n) * 1000) := by
        rw [add_mul, one_mul]; omega
      exact_mod_cast h3
    refine le_trans ?_ h2
    calc (∏ i ∈ Finset.range n, r i) * r n * 10 ^ 120 = (∏ i ∈ Finset.range n, r i) * 10 ^ 120 * r n := by ring
      _ ≤ prodL n * (101 ^ 2 * 304 / (((n : ℝ) + 4) * (102 + n) * 1000)) :=
        mul_le_mul ih h1 (h0 n) (Nat.cast_nonneg _)
      _ = _ := by
        push_cast
        ring

theorem used_L (R : Reg a b x) (ha1 : a ≤ 100) (hb1 : 200 ≤ b) (hb2 : b ≤ 10 ^ 20) :
    (∏ i ∈ Finset.range 140, rate a b x (0 + i)) * |a * P a b x 0 - 1 / (1 - (a + b) * x / (a + 1))| ≤
      2 / 10 ^ 13 * (a * P a b x 0) := by
  have f1 := f_ge_one R
  have e1 := start_err R
  have e2 := prodL_bound (r := fun m => rate a b x (m + 1)) 139 (fun m => rate_nonneg R _)
    fun m hm => rate_L R ha1 hb1 hm
  have e3 := rate_first R
  rw [Finset.prod_range_succ']
  simp only [zero_add]
  have hp0 : 0 ≤ ∏ i ∈ Finset.range 139, rate a b x (i + 1) := Finset.prod_nonneg fun i _ => rate_nonneg R _
  generalize ∏ i ∈ Finset.range 139, rate a b x (i + 1) = p at *
  rw [max_eq_right (by linarith)] at e3
  rw [abs_of_nonneg (by linarith : 0 ≤ b - 1)] at e1
  have ht : (10 : ℝ) ^ 40 * prodL 139 * 10 ^ 13 ≤ 2 * 10 ^ 120 := by exact_mod_cast table_L
  have hf : b * ((b - 1) / 2) ≤ 10 ^ 40 := by nlinarith
  have h5 : rate a b x 0 * |a * P a b x 0 - 1 / (1 - (a + b) * x / (a + 1))| ≤ 10 ^ 40 * (a * P a b x 0) := by
    calc _ ≤ b * ((b - 1) / 2 * (a * P a b x 0)) := mul_le_mul e3 e1 (abs_nonneg _) (by linarith)
      _ = b * ((b - 1) / 2) * (a * P a b x 0) := by ring
      _ ≤ _ := mul_le_mul_of_nonneg_right hf (by linarith)
  rw [mul_assoc]
  have h6 := mul_le_mul_of_nonneg_left h5 hp0
  refine h6.trans ?_
  have h7 : p * 10 ^ 40 ≤ 2 / 10 ^ 13 := by
    rw [le_div_iff₀ (by norm_num)]
    nlinarith
  calc p * (10 ^ 40 * (a * P a b x 0)) = p * 10 ^ 40 * (a * P a b x 0) := by ring
    _ ≤ _ := mul_le_mul_of_nonneg_right h7 (by linarith)

/-- The half-integer interval of a number. -/
theorem half_floor (h1 : 1 / 2 ≤ b) {N : ℕ} (h2 : b < (N : ℝ) / 2) :
    ∃ n : ℕ, 1 ≤ n ∧ n < N ∧ (n : ℝ) / 2 ≤ b ∧ b ≤ ((n + 1 : ℕ) : ℝ) / 2 := by
  refine ⟨⌊2 * b⌋₊, ?_, ?_, ?_, ?_⟩
  · exact Nat.le_floor (by push_cast; linarith)
  · exact (Nat.floor_lt (by linarith)).2 (by linarith)
  · linarith [Nat.floor_le (by linarith : 0 ≤ 2 * b)]
  · push_cast
    linarith [Nat.lt_floor_add_one (2 * b)]

theorem used (R : Reg a b x) (hb0 : 1 / 2 ≤ b) (hb2 : b ≤ 10 ^ 20) (h : b ≤ 100 ∨ a ≤ 100) :
    (∏ i ∈ Finset.range 140, rate a b x (0 + i)) * |a * P a b x 0 - 1 / (1 - (a + b) * x / (a + 1))| ≤
      2 / 10 ^ 13 * (a * P a b x 0) := by
  by_cases ha : a ≤ 100
  · rcases lt_or_ge b 200 with hb | hb
    · obtain ⟨n, n1, n2, h1, h2⟩ := half_floor (N := 400) hb0 (by push_cast; linarith)
      obtain ⟨g, hg, g1, g2⟩ := grid_cover n n1 n2
      have h1' : (g.1 : ℝ) / 2 ≤ b := by
        have : (g.1 : ℝ) ≤ n := by exact_mod_cast g1
        linarith
      have h2' : b ≤ (g.2 : ℝ) / 2 := by
        have : ((n + 1 : ℕ) : ℝ) ≤ g.2 := by exact_mod_cast g2
        linarith
      exact used_of_table R (fun _ => denS_pos g.1) h1' h2' (rate_S R ha h1' h2') (table_S g hg)
    · exact used_L R ha hb hb2
  · have hb := h.resolve_right ha
    rcases le_total (2 * b + 1) a with hab | hab
    · obtain ⟨n, n1, n2, h1, h2⟩ : ∃ n : ℕ, 1 ≤ n ∧ n < 200 ∧ (n : ℝ) / 2 ≤ b ∧ b ≤ ((n + 1 : ℕ) : ℝ) / 2 := by
        rcases eq_or_lt_of_le hb with hb | hb
        · exact ⟨199, by norm_num, by norm_num, by rw [hb]; norm_num, by rw [hb]; norm_num⟩
        · exact half_floor (N := 200) hb0 (by push_cast; linarith)
      obtain ⟨g, hg, g1, g2⟩ := grid_cover' n n1 n2
      have h1' : (g.1 : ℝ) / 2 ≤ b := by
        have : (g.1 : ℝ) ≤ n := by exact_mod_cast g1
        linarith
      have h2' : b ≤ (g.2 : ℝ) / 2 := by
        have : ((n + 1 : ℕ) : ℝ) ≤ g.2 := by exact_mod_cast g2
        linarith
      exact used_of_table R (denA_pos g.1) h1' h2' (rate_A R hab h1' h2') (table_A g hg)
    · have h1 : ((1 : ℕ) : ℝ) / 2 ≤ b := by push_cast; linarith
      have h2 : b ≤ ((200 : ℕ) : ℝ) / 2 := by push_cast; linarith
      exact used_of_table R (fun _ => by norm_num) h1 h2 (rate_B R hab h1 h2) table_B

/-- The continued fraction after at most 140 rounds. -/
theorem cf_accuracy (R : Reg a b x) (hb0 : 1 / 2 ≤ b) (hab : a + b ≤ 10 ^ 20) (h : b ≤ 100 ∨ a ≤ 100) {eps fpmin : ℝ}
    (he : eps ≤ 112 / 10 ^ 17) (hf : fpmin ≤ 1 / 10 ^ 21) :
    |a * P a b x 0 - betaLoop eps fpmin a b x 140 1 1 (1 / clampTiny fpmin (1 - (a + b) * x / (a + 1)))
      (1 / clampTiny fpmin (1 - (a + b) * x / (a + 1)))| ≤ 2 / 10 ^ 13 * (a * P a b x 0) := by
  have ha := R.ha
  have hpar : fpmin * (a + b + 2 * ((0 : ℕ) + (140 : ℕ)) + 5) ≤ 1 := by
    push_cast
    have : (1 : ℝ) / 10 ^ 21 * (10 ^ 20 + 285) ≤ 1 := by norm_num
    have h2 : fpmin * (a + b + 2 * (0 + 140) + 5) ≤ 1 / 10 ^ 21 * (a + b + 2 * (0 + 140) + 5) :=
      mul_le_mul_of_nonneg_right hf (by linarith)
    have h3 : (1 : ℝ) / 10 ^ 21 * (a + b + 2 * (0 + 140) + 5) ≤ 1 / 10 ^ 21 * (10 ^ 20 + 285) :=
      mul_le_mul_of_nonneg_left (by linarith) (by norm_num)
    linarith
  have hcl : fpmin ≤ 1 - (a + b) * x / (a + 1) := by
    have h4 := R.denO 0
    simp only [Nat.cast_zero, mul_zero, add_zero, zero_add] at h4
    have : 1 - (a + b) * x / (a + 1) = (a + 1 - (a + b) * x) / (a + 1) := by field_simp
    rw [this, le_div_iff₀ (by linarith)]
    refine le_trans ?_ h4
    have h5 : (2 : ℝ) * (a + 1) / (a + b + 2) = 2 / (a + b + 2) * (a + 1) := by ring
    rw [h5]
    apply mul_le_mul_of_nonneg_right _ (by linarith)
    rw [le_div_iff₀ (by linarith)]
    have h6 : fpmin * (a + b + 2) ≤ 1 / 10 ^ 21 * (a + b + 2) := mul_le_mul_of_nonneg_right hf (by linarith)
    have h7 : (1 : ℝ) / 10 ^ 21 * (a + b + 2) ≤ 1 / 10 ^ 21 * (10 ^ 20 + 2) :=
      mul_le_mul_of_nonneg_left (by linarith) (by norm_num)
    norm_num at h7 h6 ⊢
    linarith
  rw [clamp_eq hcl]
  have G := Good.start R
  have f1 := f_ge_one R
  have hu := used R hb0 (by linarith) h
  generalize 1 / (1 - (a + b) * x / (a + 1)) = h1 at *
  rcases loop_result (eps := eps) R 140 0 1 h1 h1 1 G hpar with ⟨k, c', d', hp', k0, k1, G', ht⟩ | hl
  · have h2 := exit_err R G' (by omega) ht
    have hk : (k : ℝ) ≤ 140 := by exact_mod_cast (by omega : k ≤ 140)
    have hp := G'.hp0
    have he0 : 0 ≤ eps := (abs_nonneg _).trans ht
    have hq := G'.eq
    simp only [zero_add] at h2 hq ⊢
    generalize betaLoop eps fpmin a b x 140 1 1 h1 h1 = y at *
    have h3 : |a * P a b x 0 - y| ≤ 16 / 10 ^ 14 * hp' := by
      refine h2.trans (mul_le_mul_of_nonneg_right ?_ hp.le)
      have : (k + 1) * eps ≤ (140 + 1) * (112 / 10 ^ 17) := mul_le_mul (by linarith) he he0 (by norm_num)
      norm_num at this ⊢
      linarith
    have h4 := (abs_le.1 ht).1
    have h5 : (1 - eps) * hp' ≤ y := by
      rw [hq]
      nlinarith
    have h6 := (abs_le.1 h3).1
    refine h3.trans ?_
    have h7 : (999 : ℝ) / 1000 * hp' ≤ a * P a b x 0 := by
      have : (112 : ℝ) / 10 ^ 17 * hp' + 16 / 10 ^ 14 * hp' ≤ 1 / 1000 * hp' := by
        rw [← add_mul]; exact mul_le_mul_of_nonneg_right (by norm_num) hp.le
      nlinarith
    have h8 : (16 : ℝ) / 10 ^ 14 * hp' ≤ 2 / 10 ^ 13 * (999 / 1000 * hp') := by
      rw [← mul_assoc]; exact mul_le_mul_of_nonneg_right (by norm_num) hp.le
    exact h8.trans (mul_le_mul_of_nonneg_left h7 (by norm_num))
  · exact hl.trans hu

end Verif.BetaFrac
