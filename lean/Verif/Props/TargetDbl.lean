import Verif.Model.TargetDbl
import Verif.Props.SplitDbl
import Mathlib.Analysis.SpecialFunctions.Exp

/-!
# Target encoding in double arithmetic: theorems
-/

namespace Verif.TargetDbl
open Verif.Doubles Verif.Ieee

namespace Spec

/-- What is asked of an exponential function: its results are not negative. -/
def Sane (exp : ℝ → Ext) : Prop := ∀ x e, exp x = .num e → 0 ≤ e

/-- `a` is at most `b`; infinity is the greatest. -/
def Le : Ext → Ext → Prop
  | .num a, .num b => a ≤ b
  | _, .inf => True
  | .inf, .num _ => False

/-- The function does not decrease. -/
def Rising (exp : ℝ → Ext) : Prop := ∀ x y, x ≤ y → Le (exp x) (exp y)

/-- The part of the ones. -/
noncomputable def share (k n : ℕ) : ℝ := k / n

end Spec

/-- A function as asked: the exponential function rounded, infinite from 710 on. -/
noncomputable def platform (x : ℝ) : Ext := if x < 710 then .num (rd (Real.exp x)) else .inf

theorem platform_sane : Spec.Sane platform := by
  intro x e h
  unfold platform at h
  split_ifs at h
  cases h
  exact rd_nonneg (Real.exp_pos x).le

theorem platform_rising : Spec.Rising platform := by
  intro x y h
  unfold platform
  split_ifs with h1 h2 h2
  · exact rd_mono (Real.exp_le_exp.2 h)
  · trivial
  · linarith
  · trivial

theorem alpha_range {e : Ext} (h : ∀ x, e = .num x → 0 ≤ x) : 0 ≤ alpha e ∧ alpha e ≤ 1 := by
  cases e with
  | inf => simp [alpha]
  | num x =>
    have h1 : 1 ≤ rd (1 + x) := one_le_rd (by have := h x rfl; linarith)
    exact ⟨rd_nonneg (by positivity), rd_le_one (by rw [div_le_one (by linarith)]; exact h1)⟩

theorem alpha_double (e : Ext) : rd (alpha e) = alpha e := by
  cases e with
  | inf => exact rd_zero
  | num x => exact ConfDbl.rd_idem _

theorem weight_range (exp : ℝ → Ext) (hexp : Spec.Sane exp) (leaf smoothing : ℝ) (n : ℕ) (a : ℝ)
    (h : weight exp leaf smoothing n = some a) : 0 ≤ a ∧ a ≤ 1 ∧ rd a = a := by
  unfold weight at h
  split_ifs at h <;> cases h
  · exact ⟨(alpha_range (by simp)).1, (alpha_range (by simp)).2, alpha_double _⟩
  · have hz : ∀ x, Ext.num 0 = .num x → 0 ≤ x := by intro x hx; cases hx; exact le_rfl
    exact ⟨(alpha_range hz).1, (alpha_range hz).2, alpha_double _⟩
  · have hz := fun x => hexp (exponent n leaf smoothing) x
    exact ⟨(alpha_range hz).1, (alpha_range hz).2, alpha_double _⟩

theorem encode_some {exp : ℝ → Ext} {leaf smoothing : ℝ} {k n ones total : ℕ} {v : ℝ}
    (h : encode exp leaf smoothing k n ones total = some v) :
    ∃ a, weight exp leaf smoothing n = some a ∧ v = mix a (quot k n) (quot ones total) := by
  obtain ⟨a, h1, h2⟩ := Option.map_eq_some_iff.1 h
  exact ⟨a, h1, h2.symm⟩

/-- The weights of the two means add up to 1 after rounding. -/
theorem weights {a : ℝ} (h0 : 0 ≤ a) (h1 : a ≤ 1) : rd (a + rd (1 - a)) = 1 := by
  have he := ConfDbl.rd_abs_err' (x := 1 - a) (by rw [abs_le]; constructor <;> linarith)
  rw [abs_le] at he
  exact SplitDbl.near_one (by linarith [he.1]) (by linarith [he.2])

theorem mix_nonneg {a p m : ℝ} (h0 : 0 ≤ a) (h1 : a ≤ 1) (hp : 0 ≤ p) (hm : 0 ≤ m) : 0 ≤ mix a p m :=
  rd_nonneg (add_nonneg (rd_nonneg (mul_nonneg h0 hp)) (rd_nonneg (mul_nonneg (rd_nonneg (by linarith)) hm)))

theorem mix_mono {a p q m w : ℝ} (h0 : 0 ≤ a) (h1 : a ≤ 1) (hp : p ≤ q) (hm : m ≤ w) : mix a p m ≤ mix a q w :=
  rd_mono (add_le_add (rd_mono (mul_le_mul_of_nonneg_left hp h0))
    (rd_mono (mul_le_mul_of_nonneg_left hm (rd_nonneg (by linarith)))))

theorem mix_one {a : ℝ} (h : rd a = a) (h0 : 0 ≤ a) (h1 : a ≤ 1) : mix a 1 1 = 1 := by
  unfold mix
  rw [mul_one, mul_one, h, ConfDbl.rd_idem, weights h0 h1]

theorem mix_zero (a : ℝ) : mix a 0 0 = 0 := by
  unfold mix
  rw [mul_zero, mul_zero, rd_zero, add_zero, rd_zero]

/-- **The encoded value is a number from 0 to 1**, also when the weight overflows; it is NaN only if the smoothing is 0, and is
then for a category with exactly `min_samples_leaf` rows. -/
theorem encode_range (exp : ℝ → Ext) (hexp : Spec.Sane exp) (leaf smoothing : ℝ) (k n ones total : ℕ) (hk : k ≤ n)
    (ho : ones ≤ total) :
    (∀ v, encode exp leaf smoothing k n ones total = some v → 0 ≤ v ∧ v ≤ 1) ∧
    (smoothing ≠ 0 → ∃ v, encode exp leaf smoothing k n ones total = some v) ∧
    encode exp (n : ℝ) 0 k n ones total = none := by
  refine ⟨fun v hv => ?_, fun hs => ?_, ?_⟩
  · obtain ⟨a, ha, rfl⟩ := encode_some hv
    obtain ⟨h0, h1, h2⟩ := weight_range exp hexp leaf smoothing n a ha
    refine ⟨mix_nonneg h0 h1 (quot_nonneg _ _) (quot_nonneg _ _), ?_⟩
    rw [← mix_one h2 h0 h1]
    exact mix_mono h0 h1 (quot_le_one hk) (quot_le_one ho)
  · unfold encode weight
    rw [if_neg hs]
    exact ⟨_, rfl⟩
  · unfold encode weight
    rw [if_pos rfl, sub_self, if_pos rd_zero]
    rfl

example (v : ℝ) (h : encode platform 20 10 3 7 40 100 = some v) : 0 ≤ v ∧ v ≤ 1 :=
  (encode_range platform platform_sane 20 10 3 7 40 100 (by norm_num) (by norm_num)).1 v h

/-- **A target of ones is encoded as exactly 1, a target of zeros as exactly 0.** -/
theorem encode_constant (exp : ℝ → Ext) (hexp : Spec.Sane exp) (leaf smoothing : ℝ) (hs : smoothing ≠ 0) (n total : ℕ) (hn : 0 < n)
    (ht : 0 < total) :
    encode exp leaf smoothing n n total total = some 1 ∧ encode exp leaf smoothing 0 n 0 total = some 0 := by
  obtain ⟨h0, h1⟩ := alpha_range fun x => hexp (exponent n leaf smoothing) x
  unfold encode weight
  rw [if_neg hs, quot_self hn, quot_self ht, quot_zero, quot_zero, Option.map_some, Option.map_some,
    mix_one (alpha_double _) h0 h1, mix_zero]
  exact ⟨rfl, rfl⟩

example : encode platform 20 10 7 7 100 100 = some 1 :=
  (encode_constant platform platform_sane 20 10 (by norm_num) 7 100 (by norm_num) (by norm_num)).1

/-- **Of two categories with the same number of rows the one with more ones is not encoded lower**, nor is any category
when the target has more ones overall. -/
theorem encode_mono (exp : ℝ → Ext) (hexp : Spec.Sane exp) (leaf smoothing : ℝ) (k k' n ones ones' total : ℕ) (hk : k ≤ k')
    (ho : ones ≤ ones') (v v' : ℝ) (hv : encode exp leaf smoothing k n ones total = some v)
    (hv' : encode exp leaf smoothing k' n ones' total = some v') : v ≤ v' := by
  obtain ⟨a, ha, rfl⟩ := encode_some hv
  obtain ⟨a', ha', rfl⟩ := encode_some hv'
  rw [ha] at ha'
  cases ha'
  obtain ⟨h0, h1, -⟩ := weight_range exp hexp leaf smoothing n a ha
  have hq : ∀ a b c : ℕ, a ≤ b → quot a c ≤ quot b c := fun a b c hab =>
    rd_mono (div_le_div_of_nonneg_right (rd_mono (by exact_mod_cast hab)) (rd_nonneg (Nat.cast_nonneg c)))
  exact mix_mono h0 h1 (hq _ _ _ hk) (hq _ _ _ ho)

example (v v' : ℝ) (h : encode platform 20 10 3 7 40 100 = some v) (h' : encode platform 20 10 5 7 40 100 = some v') : v ≤ v' :=
  encode_mono platform platform_sane 20 10 3 5 7 40 40 100 (by norm_num) le_rfl v v' h h'

/-- **With more rows the weight of the category does not fall.** -/
theorem weight_mono (exp : ℝ → Ext) (hexp : Spec.Sane exp) (hr : Spec.Rising exp) (leaf smoothing : ℝ) (hs : 0 ≤ smoothing) (n n' : ℕ)
    (h : n ≤ n') (a a' : ℝ) (ha : weight exp leaf smoothing n = some a) (ha' : weight exp leaf smoothing n' = some a') : a ≤ a' := by
  have hd : rd ((n : ℝ) - leaf) ≤ rd (n' - leaf) := by
    apply rd_mono
    have : (n : ℝ) ≤ n' := by exact_mod_cast h
    linarith
  rcases hs.eq_or_lt with h0 | hs
  · unfold weight at ha ha'
    rw [if_pos h0.symm] at ha ha'
    split_ifs at ha ha' <;> cases ha <;> cases ha'
    · exact le_rfl
    · exact (alpha_range (e := .num 0) (by intro x hx; cases hx; exact le_rfl)).1
    · linarith
    · exact le_rfl
  · have hx : exponent n' leaf smoothing ≤ exponent n leaf smoothing :=
      rd_mono (div_le_div_of_nonneg_right (neg_le_neg hd) hs.le)
    unfold weight at ha ha'
    rw [if_neg hs.ne'] at ha ha'
    cases ha
    cases ha'
    have hle := hr _ _ hx
    have hsane := fun x => hexp (exponent n' leaf smoothing) x
    cases h1 : exp (exponent n leaf smoothing) with
    | inf => exact (alpha_range hsane).1
    | num a =>
      cases h2 : exp (exponent n' leaf smoothing) with
      | inf => rw [h1, h2] at hle; exact hle.elim
      | num b =>
        rw [h1, h2] at hle
        have hab : b ≤ a := hle
        have hb := hsane b h2
        apply rd_mono
        apply one_div_le_one_div_of_le
        · have := one_le_rd (x := 1 + b) (by linarith); linarith
        · exact rd_mono (by linarith)

example (a a' : ℝ) (h : weight platform 20 10 7 = some a) (h' : weight platform 20 10 9 = some a') : a ≤ a' :=
  weight_mono platform platform_sane platform_rising 20 10 (by norm_num) 7 9 (by norm_num) a a' h h'

/-- **Rounding costs at most `2 ^ -51`**: the encoded value is that close to the weighted mean of the two shares, and no
further outside the interval between them. -/
theorem encode_accuracy (exp : ℝ → Ext) (hexp : Spec.Sane exp) (leaf smoothing : ℝ) (k n ones total : ℕ) (hk : k ≤ n)
    (hn : n ≤ 2 ^ 53) (ho : ones ≤ total) (ht : total ≤ 2 ^ 53) (a v : ℝ) (ha : weight exp leaf smoothing n = some a)
    (hv : encode exp leaf smoothing k n ones total = some v) :
    |v - (a * Spec.share k n + (1 - a) * Spec.share ones total)| ≤ 2 ^ (-51 : ℤ) ∧
    min (Spec.share k n) (Spec.share ones total) - 2 ^ (-51 : ℤ) ≤ v ∧
    v ≤ max (Spec.share k n) (Spec.share ones total) + 2 ^ (-51 : ℤ) := by
  obtain ⟨h0, h1, -⟩ := weight_range exp hexp leaf smoothing n a ha
  have hrange := (encode_range exp hexp leaf smoothing k n ones total hk ho).1 v hv
  obtain ⟨a', ha', rfl⟩ := encode_some hv
  rw [ha] at ha'
  cases ha'
  clear hv ha
  have hp : |quot k n - Spec.share k n| ≤ 2 ^ (-54 : ℤ) ∧ 0 ≤ Spec.share k n ∧ Spec.share k n ≤ 1 := by
    have h01 : 0 ≤ (k : ℝ) / n ∧ (k : ℝ) / n ≤ 1 := ⟨by positivity, div_le_one_of_le₀ (by exact_mod_cast hk) (by positivity)⟩
    rw [quot_eq (hk.trans hn) hn]
    exact ⟨ConfDbl.rd_abs_err' (by rw [abs_le]; constructor <;> linarith [h01.1, h01.2]), h01⟩
  have hm : |quot ones total - Spec.share ones total| ≤ 2 ^ (-54 : ℤ) ∧ 0 ≤ Spec.share ones total ∧ Spec.share ones total ≤ 1 := by
    have h01 : 0 ≤ (ones : ℝ) / total ∧ (ones : ℝ) / total ≤ 1 :=
      ⟨by positivity, div_le_one_of_le₀ (by exact_mod_cast ho) (by positivity)⟩
    rw [quot_eq (ho.trans ht) ht]
    exact ⟨ConfDbl.rd_abs_err' (by rw [abs_le]; constructor <;> linarith [h01.1, h01.2]), h01⟩
  have hq1 := quot_le_one hk
  have hq2 := quot_le_one ho
  have hq3 := quot_nonneg k n
  have hq4 := quot_nonneg ones total
  generalize Spec.share k n = p at *
  generalize Spec.share ones total = m at *
  generalize quot k n = P at *
  generalize quot ones total = M at *
  have hu51 : (2 : ℝ) ^ (-51 : ℤ) = 8 * 2 ^ (-54 : ℤ) := by
    rw [show (-51 : ℤ) = 3 + -54 by norm_num, zpow_add₀ (by norm_num)]; norm_num
  have hu0 : (0 : ℝ) < 2 ^ (-54 : ℤ) := two_zpow_pos _
  have hu1 : (2 : ℝ) ^ (-54 : ℤ) < 1 / 1000 := by norm_num
  have e1 := ConfDbl.rd_abs_err' (x := 1 - a) (by rw [abs_le]; constructor <;> linarith)
  have e2 := ConfDbl.rd_abs_err' (x := a * P) (by
    rw [abs_of_nonneg (mul_nonneg h0 hq3)]; exact mul_le_one₀ h1 hq3 hq1)
  have hb0 : 0 ≤ rd (1 - a) := rd_nonneg (by linarith)
  have hb1 : rd (1 - a) ≤ 1 := rd_le_one (by linarith)
  have e3 := ConfDbl.rd_abs_err' (x := rd (1 - a) * M) (by
    rw [abs_of_nonneg (mul_nonneg hb0 hq4)]; exact mul_le_one₀ hb1 hq4 hq2)
  have e4 : |mix a P M - (rd (a * P) + rd (rd (1 - a) * M))| ≤ 4 * 2 ^ (-54 : ℤ) := by
    have hs0 : 0 ≤ rd (a * P) + rd (rd (1 - a) * M) :=
      add_nonneg (rd_nonneg (mul_nonneg h0 hq3)) (rd_nonneg (mul_nonneg hb0 hq4))
    by_cases hs1 : rd (a * P) + rd (rd (1 - a) * M) ≤ 1
    · refine (ConfDbl.rd_abs_err' (by rw [abs_of_nonneg hs0]; exact hs1)).trans ?_
      linarith
    · push Not at hs1
      have hv : mix a P M = 1 := le_antisymm hrange.2 (one_le_rd hs1.le)
      rw [hv, abs_le]
      have b2 := abs_le.1 e2
      have b3 := abs_le.1 e3
      have b1 := abs_le.1 e1
      have : a * P ≤ a := mul_le_of_le_one_right h0 hq1
      have : rd (1 - a) * M ≤ rd (1 - a) := mul_le_of_le_one_right hb0 hq2
      constructor <;> linarith [b1.2, b2.2, b3.2]
  have main : |mix a P M - (a * p + (1 - a) * m)| ≤ 2 ^ (-51 : ℤ) := by
    rw [hu51]
    generalize (2 : ℝ) ^ (-54 : ℤ) = u at *
    have b1 := abs_le.1 e1
    have b2 := abs_le.1 e2
    have b3 := abs_le.1 e3
    have b4 := abs_le.1 e4
    have bp := abs_le.1 hp.1
    have bm := abs_le.1 hm.1
    have c1 : |a * (P - p)| ≤ a * u := by rw [abs_mul, abs_of_nonneg h0]; exact mul_le_mul_of_nonneg_left hp.1 h0
    have c2 : |(1 - a) * (M - m)| ≤ (1 - a) * u := by
      rw [abs_mul, abs_of_nonneg (by linarith)]; exact mul_le_mul_of_nonneg_left hm.1 (by linarith)
    have c3 : |(rd (1 - a) - (1 - a)) * M| ≤ u := by
      rw [abs_mul, abs_of_nonneg hq4]
      exact (mul_le_mul e1 hq2 hq4 hu0.le).trans (by rw [mul_one])
    have b5 := abs_le.1 c1
    have b6 := abs_le.1 c2
    have b7 := abs_le.1 c3
    rw [abs_le]
    constructor <;> nlinarith [b2.1, b2.2, b3.1, b3.2, b4.1, b4.2, b5.1, b5.2, b6.1, b6.2, b7.1, b7.2]
  have hmain := abs_le.1 main
  have lo : min p m ≤ a * p + (1 - a) * m := by
    have x1 := mul_le_mul_of_nonneg_left (min_le_left p m) h0
    have x2 := mul_le_mul_of_nonneg_left (min_le_right p m) (show 0 ≤ 1 - a by linarith)
    linarith
  have hi : a * p + (1 - a) * m ≤ max p m := by
    have x1 := mul_le_mul_of_nonneg_left (le_max_left p m) h0
    have x2 := mul_le_mul_of_nonneg_left (le_max_right p m) (show 0 ≤ 1 - a by linarith)
    linarith
  exact ⟨main, by linarith [hmain.1], by linarith [hmain.2]⟩

example (a v : ℝ) (ha : weight platform 20 10 7 = some a) (h : encode platform 20 10 3 7 40 100 = some v) :
    v ≤ max (Spec.share 3 7) (Spec.share 40 100) + 2 ^ (-51 : ℤ) :=
  (encode_accuracy platform platform_sane 20 10 3 7 40 100 (by norm_num) (by norm_num) (by norm_num) (by norm_num) a v ha h).2.2

/-- **The ends**: if `exp` overflows the category gets exactly the overall mean, and if it is at most `2 ^ -54` exactly its
own mean. -/
theorem encode_ends (exp : ℝ → Ext) (leaf smoothing : ℝ) (hs : smoothing ≠ 0) (k n ones total : ℕ) :
    (exp (exponent n leaf smoothing) = .inf → encode exp leaf smoothing k n ones total = some (quot ones total)) ∧
    (∀ e, exp (exponent n leaf smoothing) = .num e → 0 ≤ e → e ≤ 2 ^ (-54 : ℤ) →
      encode exp leaf smoothing k n ones total = some (quot k n)) := by
  have hqi : ∀ a b, rd (quot a b) = quot a b := fun a b => ConfDbl.rd_idem _
  constructor
  · intro h
    unfold encode weight
    rw [if_neg hs, h, Option.map_some]
    unfold alpha mix
    rw [zero_mul, rd_zero, sub_zero, rd_one, one_mul, zero_add, hqi, hqi]
  · intro e h h0 h1
    unfold encode weight
    rw [if_neg hs, h, Option.map_some]
    have ha : alpha (.num e) = 1 := by
      show rd (1 / rd (1 + e)) = 1
      rw [SplitDbl.near_one (x := 1 + e) (by have := two_zpow_pos (-54); linarith) (by linarith), div_one, rd_one]
    rw [ha]
    unfold mix
    rw [one_mul, sub_self, rd_zero, zero_mul, rd_zero, add_zero, hqi, hqi]

/-- With one row, 2000 rows asked for and a smoothing of 1 the category mean does not count at all. -/
example : encode platform 2000 1 1 1 40 100 = some (quot 40 100) := by
  refine (encode_ends platform 2000 1 (by norm_num) 1 1 40 100).1 ?_
  have : exponent 1 2000 1 = 1999 := by
    unfold exponent
    rw [div_one, show ((1 : ℕ) : ℝ) - 2000 = ((-1999 : ℤ) : ℝ) by norm_num, rd_int (by norm_num)]
    rw [show -((-1999 : ℤ) : ℝ) = ((1999 : ℤ) : ℝ) by norm_num, rd_int (by norm_num)]
    norm_num
  rw [this]
  unfold platform
  rw [if_neg (by norm_num)]

end Verif.TargetDbl
