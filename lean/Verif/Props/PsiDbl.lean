import Verif.Lemmas.PsiDbl
import Mathlib.Analysis.Complex.ExponentialBounds

/-!
# PSI and information value in double arithmetic: theorems
-/

namespace Verif.PsiDbl
open Verif.Doubles Verif.Ieee Verif.FloatBits

namespace Spec

/-- What is asked of a logarithm: at every positive double, the relative error is at most two units. -/
def GoodLn (ln : ℝ → ℝ) : Prop := ∀ x, 0 < x → rd x = x → |ln x - Real.log x| ≤ 2 ^ (-52 : ℤ) * |Real.log x|

/-- The exact share, with the least value 1/10000. -/
noncomputable def clipped (c n : ℕ) : ℝ := max ((c : ℝ) / n) (1 / 10000)

/-- The exact contribution of two shares. -/
noncomputable def term (a b : ℝ) : ℝ := (a - b) * Real.log (a / b)

end Spec

example : Spec.GoodLn Real.log := by
  intro x _ _
  rw [sub_self, abs_zero]
  positivity

/-- The logarithm of a double other than 1 is not small. -/
theorem log_large {x : ℝ} (h0 : 0 < x) (hx : rd x = x) (h1 : x ≠ 1) : 2 ^ (-54 : ℤ) ≤ |Real.log x| := by
  rcases lt_or_gt_of_ne h1 with h | h
  · have hg := gap hx rd_one h0 h
    have hl := Real.log_le_sub_one_of_pos h0
    rw [abs_of_neg (Real.log_neg h0 h)]
    have e : (2 : ℝ) ^ (-53 : ℤ) = 2 * 2 ^ (-54 : ℤ) := by norm_num
    have hs : (2 : ℝ) ^ (-54 : ℤ) < 1 / 4 := by norm_num
    have ht := two_zpow_pos (-54)
    rw [e] at hg
    generalize (2 : ℝ) ^ (-54 : ℤ) = t at *
    by_cases hh : x < 1 / 2
    · linarith
    · nlinarith
  · have hg := gap rd_one hx one_pos h
    have hl := Real.one_sub_inv_le_log_of_pos h0
    rw [abs_of_pos (Real.log_pos h)]
    refine le_trans ?_ hl
    have e : (2 : ℝ) ^ (-53 : ℤ) = 2 * 2 ^ (-54 : ℤ) := by norm_num
    have hs : (2 : ℝ) ^ (-54 : ℤ) < 1 / 4 := by norm_num
    have ht := two_zpow_pos (-54)
    rw [e, one_mul] at hg
    generalize (2 : ℝ) ^ (-54 : ℤ) = t at *
    rw [le_sub_comm, inv_le_comm₀ h0 (by linarith), inv_le_comm₀ (by linarith) h0]
    rw [inv_eq_one_div, div_le_iff₀ h0]
    by_cases hh : x ≤ 2
    · nlinarith
    · nlinarith

theorem ln_sign {ln : ℝ → ℝ} (hln : Spec.GoodLn ln) {x : ℝ} (h0 : 0 < x) (hx : rd x = x) :
    (1 < x → 2 ^ (-55 : ℤ) ≤ ln x) ∧ (x < 1 → ln x ≤ -2 ^ (-55 : ℤ)) ∧ (x = 1 → ln x = 0) := by
  have h := hln x h0 hx
  have e : (2 : ℝ) ^ (-54 : ℤ) = 2 * 2 ^ (-55 : ℤ) := by norm_num
  have hs : (2 : ℝ) ^ (-52 : ℤ) ≤ 1 / 2 := by norm_num
  refine ⟨fun h1 => ?_, fun h1 => ?_, fun h1 => ?_⟩
  · have hl := log_large h0 hx h1.ne'
    have hp := Real.log_pos h1
    rw [abs_of_pos hp] at h hl
    have := (abs_le.1 h).1
    rw [e] at hl
    generalize (2 : ℝ) ^ (-55 : ℤ) = t at *
    generalize (2 : ℝ) ^ (-52 : ℤ) = w at *
    nlinarith
  · have hl := log_large h0 hx h1.ne
    have hp := Real.log_neg h0 h1
    rw [abs_of_neg hp] at h hl
    have := (abs_le.1 h).2
    rw [e] at hl
    generalize (2 : ℝ) ^ (-55 : ℤ) = t at *
    generalize (2 : ℝ) ^ (-52 : ℤ) = w at *
    nlinarith
  · subst h1
    rw [Real.log_one, sub_zero, abs_zero, mul_zero] at h
    exact abs_nonpos_iff.1 h

theorem rd_pos {z : ℝ} (h : 2 ^ (-1000 : ℤ) ≤ z) : 0 < rd z := by
  have hz : 0 < z := (two_zpow_pos _).trans_le h
  have := ConfDbl.rd_rel (x := z) (by rwa [abs_of_pos hz])
  rw [abs_of_pos hz] at this
  have h1 := (abs_le.1 this).1
  have hs : (2 : ℝ) ^ (-53 : ℤ) ≤ 1 / 2 := by norm_num
  generalize (2 : ℝ) ^ (-53 : ℤ) = t at *
  nlinarith

/-- The difference of two doubles from `2^-40` on is not small. -/
theorem sub_large {a b : ℝ} (ha : rd a = a) (hb : rd b = b) (h1 : 2 ^ (-40 : ℤ) ≤ b) (h : b < a) :
    2 ^ (-94 : ℤ) ≤ rd (a - b) := by
  have h0 : 0 < b := (two_zpow_pos _).trans_le h1
  have hg := gap hb ha h0 h
  have e : (2 : ℝ) ^ (-93 : ℤ) = 2 ^ (-40 : ℤ) * 2 ^ (-53 : ℤ) := by norm_num
  have hd : (2 : ℝ) ^ (-93 : ℤ) ≤ a - b := by
    rw [e]; nlinarith [two_zpow_pos (-53)]
  have e2 : rd (2 ^ (-94 : ℤ)) = 2 ^ (-94 : ℤ) := fl_rep f64 ⟨1, -94, by norm_num [f64], by norm_num [f64], by norm_num⟩
  rw [← e2]
  exact rd_mono (le_trans (by norm_num) hd)

theorem contribution_pos {ln : ℝ → ℝ} (hln : Spec.GoodLn ln) {a b : ℝ} (ha : rd a = a) (hb : rd b = b)
    (h1 : 2 ^ (-40 : ℤ) ≤ a) (h2 : 2 ^ (-40 : ℤ) ≤ b) (h4 : b ≤ 1) (h : a ≠ b) : 0 < contribution ln a b := by
  have a0 : 0 < a := (two_zpow_pos _).trans_le h1
  have b0 : 0 < b := (two_zpow_pos _).trans_le h2
  have key : (2 : ℝ) ^ (-1000 : ℤ) ≤ 2 ^ (-94 : ℤ) * 2 ^ (-55 : ℤ) := by
    rw [← zpow_add₀ (by norm_num)]; exact zpow_le_zpow_right₀ (by norm_num) (by norm_num)
  have p1 := two_zpow_pos (-94)
  have p2 := two_zpow_pos (-55)
  unfold contribution
  refine rd_pos (key.trans ?_)
  rcases lt_or_gt_of_ne h with h | h
  · have hq := quot_below ha hb a0 h
    have hqp : 0 < rd (a / b) := by
      refine rd_pos (le_trans ?_ (h1.trans ?_))
      · exact zpow_le_zpow_right₀ (by norm_num) (by norm_num)
      · rw [le_div_iff₀ b0]; nlinarith
    have hl := (ln_sign hln hqp (ConfDbl.rd_idem _)).2.1 hq
    have hd := sub_large hb ha h1 h
    rw [← neg_sub b a, rd_neg, neg_mul, ← mul_neg]
    exact mul_le_mul hd (by linarith) p2.le (p1.le.trans hd)
  · have hq := quot_above ha hb b0 h
    have hl := (ln_sign hln (by linarith) (ConfDbl.rd_idem _)).1 hq
    have hd := sub_large ha hb h2 h
    exact mul_le_mul hd hl p2.le (p1.le.trans hd)

theorem contribution_self (ln : ℝ → ℝ) (a : ℝ) : contribution ln a a = 0 := by
  unfold contribution
  rw [sub_self, rd_zero, zero_mul, rd_zero]

/-- A contribution is never negative, and 0 exactly for equal shares. -/
theorem contribution_sign (ln : ℝ → ℝ) (hln : Spec.GoodLn ln) (a b : ℝ) (ha : rd a = a) (hb : rd b = b)
    (h1 : 2 ^ (-40 : ℤ) ≤ a) (h2 : 2 ^ (-40 : ℤ) ≤ b) (h4 : b ≤ 1) :
    0 ≤ contribution ln a b ∧ (contribution ln a b = 0 ↔ a = b) := by
  by_cases h : a = b
  · subst h
    simp [contribution_self]
  · have := contribution_pos hln ha hb h1 h2 h4 h
    exact ⟨this.le, fun hc => absurd hc this.ne', fun hc => absurd hc h⟩

example : ∃ a b : ℝ, rd a = a ∧ rd b = b ∧ 2 ^ (-40 : ℤ) ≤ a ∧ 2 ^ (-40 : ℤ) ≤ b ∧ b ≤ 1 ∧ a ≠ b :=
  ⟨1, 1 - 2 ^ (-53 : ℤ), rd_one, rd_below, by norm_num, by norm_num, by norm_num, by norm_num⟩

/-- The share is the exact one rounded once. -/
theorem share_eq {c n : ℕ} (hc : c ≤ n) (hn : n ≤ 2 ^ 53) : share c n = rd (Spec.clipped c n) := by
  unfold share Spec.clipped
  rw [quot_eq (by omega) hn]
  rcases le_total ((c : ℝ) / n) (1 / 10000) with h | h
  · rw [max_eq_right h, max_eq_right (rd_mono h)]
  · rw [max_eq_left h, max_eq_left (rd_mono h)]

theorem clipped_range {c n : ℕ} (hc : c ≤ n) : 1 / 10000 ≤ Spec.clipped c n ∧ Spec.clipped c n ≤ 1 :=
  ⟨le_max_right _ _, max_le (div_le_one_of_le₀ (by exact_mod_cast hc) (Nat.cast_nonneg n)) (by norm_num)⟩

theorem share_range {c n : ℕ} (hc : c ≤ n) (hn : n ≤ 2 ^ 53) :
    rd (share c n) = share c n ∧ 2 ^ (-40 : ℤ) ≤ share c n ∧ share c n ≤ 1 := by
  rw [share_eq hc hn]
  obtain ⟨h1, h2⟩ := clipped_range hc
  refine ⟨ConfDbl.rd_idem _, ?_, rd_le_one h2⟩
  have e2 : rd (2 ^ (-40 : ℤ)) = 2 ^ (-40 : ℤ) := fl_rep f64 ⟨1, -40, by norm_num [f64], by norm_num [f64], by norm_num⟩
  rw [← e2]
  exact rd_mono (le_trans (by norm_num) h1)

/-- Up to `2^26` rows, different exact shares stay different. -/
theorem share_inj {c n d m : ℕ} (hc : c ≤ n) (hd : d ≤ m) (hn : n ≤ 2 ^ 26) (hm : m ≤ 2 ^ 26) (n0 : 0 < n) (m0 : 0 < m) :
    share c n = share d m ↔ Spec.clipped c n = Spec.clipped d m := by
  rw [share_eq hc (hn.trans (by norm_num)), share_eq hd (hm.trans (by norm_num))]
  refine ⟨fun h => ?_, fun h => by rw [h]⟩
  obtain ⟨c1, c2⟩ := clipped_range hc
  obtain ⟨d1, d2⟩ := clipped_range hd
  have e1 := ConfDbl.rd_abs_err' (x := Spec.clipped c n) (by rw [abs_le]; constructor <;> linarith)
  have e2 := ConfDbl.rd_abs_err' (x := Spec.clipped d m) (by rw [abs_le]; constructor <;> linarith)
  rw [h] at e1
  have hclose : |Spec.clipped c n - Spec.clipped d m| < 2 ^ (-52 : ℤ) := by
    have e : (2 : ℝ) ^ (-52 : ℤ) = 4 * 2 ^ (-54 : ℤ) := by norm_num
    have hp := two_zpow_pos (-54)
    rw [e]
    generalize (2 : ℝ) ^ (-54 : ℤ) = t at *
    rw [abs_le] at e1 e2
    rw [abs_lt]
    constructor <;> linarith [e1.1, e1.2, e2.1, e2.2]
  -- two fractions whose denominators multiply to at most 2^52
  have frac : ∀ p q r s : ℕ, 0 < q → 0 < s → q * s ≤ 2 ^ 52 → |(p : ℝ) / q - r / s| < 2 ^ (-52 : ℤ) → (p : ℝ) / q = r / s := by
    intro p q r s hq hs hqs hlt
    have hq' : (0 : ℝ) < q := by exact_mod_cast hq
    have hs' : (0 : ℝ) < s := by exact_mod_cast hs
    have e : (p : ℝ) / q - r / s = (((p * s : ℕ) : ℤ) - ((r * q : ℕ) : ℤ) : ℤ) / (q * s) := by
      push_cast; field_simp
    have hqs' : (q : ℝ) * s ≤ 2 ^ 52 := by exact_mod_cast hqs
    rw [e, abs_div, abs_of_pos (mul_pos hq' hs'), div_lt_iff₀ (mul_pos hq' hs')] at hlt
    have h1 : |(((((p * s : ℕ) : ℤ) - ((r * q : ℕ) : ℤ) : ℤ)) : ℝ)| < 1 := by
      refine hlt.trans_le ?_
      have e : (2 : ℝ) ^ (-52 : ℤ) * 2 ^ 52 = 1 := by norm_num
      rw [← e]
      exact mul_le_mul_of_nonneg_left hqs' (two_zpow_pos _).le
    have h2 : ((p * s : ℕ) : ℤ) - ((r * q : ℕ) : ℤ) = 0 := Int.abs_lt_one_iff.1 (by exact_mod_cast h1)
    rw [h2, Int.cast_zero, zero_div] at e
    linarith
  have k1 : n * m ≤ 2 ^ 52 := le_trans (Nat.mul_le_mul hn hm) (by norm_num)
  have k2 : n * 10000 ≤ 2 ^ 52 := le_trans (Nat.mul_le_mul_right _ hn) (by norm_num)
  have k3 : 10000 * m ≤ 2 ^ 52 := le_trans (Nat.mul_le_mul_left _ hm) (by norm_num)
  unfold Spec.clipped at *
  rcases le_total ((c : ℝ) / n) (1 / 10000) with a1 | a1 <;> rcases le_total ((d : ℝ) / m) (1 / 10000) with a2 | a2
  · rw [max_eq_right a1, max_eq_right a2]
  · rw [max_eq_right a1, max_eq_left a2] at hclose ⊢
    have := frac 1 10000 d m (by norm_num) m0 k3 (by exact_mod_cast hclose)
    exact_mod_cast this
  · rw [max_eq_left a1, max_eq_right a2] at hclose ⊢
    have := frac c n 1 10000 n0 (by norm_num) k2 (by exact_mod_cast hclose)
    exact_mod_cast this
  · rw [max_eq_left a1, max_eq_left a2] at hclose ⊢
    exact frac c n d m n0 m0 k1 hclose

theorem total_from (l : List ℝ) (h : ∀ x ∈ l, 0 ≤ x ∧ rd x = x) (s : ℝ) (hs : 0 ≤ s) (hr : rd s = s) :
    s ≤ l.foldl (fun s x => rd (s + x)) s ∧ (∀ x ∈ l, x ≤ l.foldl (fun s x => rd (s + x)) s) ∧
    ((∀ x ∈ l, x = 0) → l.foldl (fun s x => rd (s + x)) s = s) := by
  induction l generalizing s with
  | nil => simp
  | cons y l ih =>
    obtain ⟨y0, yr⟩ := h y List.mem_cons_self
    have a1 : s ≤ rd (s + y) := by have := rd_mono (show s ≤ s + y by linarith); rwa [hr] at this
    have a2 : y ≤ rd (s + y) := by have := rd_mono (show y ≤ s + y by linarith); rwa [yr] at this
    obtain ⟨i1, i2, i3⟩ := ih (fun x hx => h x (List.mem_cons_of_mem _ hx)) (rd (s + y)) (hs.trans a1) (ConfDbl.rd_idem _)
    rw [List.foldl_cons]
    refine ⟨a1.trans i1, fun x hx => ?_, fun hz => ?_⟩
    · rcases List.mem_cons.1 hx with rfl | hx
      · exact a2.trans i1
      · exact i2 x hx
    · rw [i3 fun x hx => hz x (List.mem_cons_of_mem _ hx), hz y List.mem_cons_self, add_zero, hr]

/-- The sum is 0 only if every contribution is, and no contribution exceeds it. -/
theorem total_spec (l : List ℝ) (h : ∀ x ∈ l, 0 ≤ x ∧ rd x = x) :
    0 ≤ total l ∧ (∀ x ∈ l, x ≤ total l) ∧ (total l = 0 ↔ ∀ x ∈ l, x = 0) := by
  obtain ⟨h1, h2, h3⟩ := total_from l h 0 le_rfl rd_zero
  exact ⟨h1, h2, fun hz x hx => le_antisymm (by have := h2 x hx; unfold total at hz; linarith) (h x hx).1, h3⟩

theorem bins_spec {ln : ℝ → ℝ} (hln : Spec.GoodLn ln) {cnt1 cnt2 : List ℕ} (h1 : cnt1.sum < 2 ^ 32) (h2 : cnt2.sum < 2 ^ 32) :
    ∀ x ∈ psiBins ln cnt1 cnt2, 0 ≤ x ∧ rd x = x := by
  intro x hx
  obtain ⟨p, hp, rfl⟩ := List.mem_map.1 hx
  have m1 := List.le_sum_of_mem (List.of_mem_zip hp).1
  have m2 := List.le_sum_of_mem (List.of_mem_zip hp).2
  obtain ⟨a1, a2, a3⟩ := share_range m1 (h1.le.trans (by norm_num))
  obtain ⟨b1, b2, b3⟩ := share_range m2 (h2.le.trans (by norm_num))
  exact ⟨(contribution_sign ln hln _ _ a1 b1 a2 b2 b3).1, ConfDbl.rd_idem _⟩

/-- PSI is never negative, and neither is a contribution or greater than the PSI. -/
theorem psi_nonneg (ln : ℝ → ℝ) (hln : Spec.GoodLn ln) (cnt1 cnt2 : List ℕ) (h1 : cnt1.sum < 2 ^ 32) (h2 : cnt2.sum < 2 ^ 32) :
    0 ≤ psi ln cnt1 cnt2 ∧ ∀ x ∈ psiBins ln cnt1 cnt2, 0 ≤ x ∧ x ≤ psi ln cnt1 cnt2 := by
  have hb := bins_spec hln h1 h2
  obtain ⟨t1, t2, -⟩ := total_spec _ hb
  exact ⟨t1, fun x hx => ⟨(hb x hx).1, t2 x hx⟩⟩

/-- Up to `2^26` rows, PSI is 0 exactly if the exact clipped shares agree in every bin. -/
theorem psi_zero (ln : ℝ → ℝ) (hln : Spec.GoodLn ln) (cnt1 cnt2 : List ℕ) (n1 : 0 < cnt1.sum) (n2 : 0 < cnt2.sum)
    (h1 : cnt1.sum ≤ 2 ^ 26) (h2 : cnt2.sum ≤ 2 ^ 26) :
    psi ln cnt1 cnt2 = 0 ↔ ∀ p ∈ cnt1.zip cnt2, Spec.clipped p.1 cnt1.sum = Spec.clipped p.2 cnt2.sum := by
  have hb := bins_spec (ln := ln) hln (h1.trans_lt (by norm_num)) (h2.trans_lt (by norm_num))
  unfold psi
  rw [(total_spec _ hb).2.2]
  unfold psiBins
  simp only [List.mem_map, forall_exists_index, and_imp, forall_apply_eq_imp_iff₂]
  refine forall₂_congr fun p hp => ?_
  have m1 := List.le_sum_of_mem (List.of_mem_zip hp).1
  have m2 := List.le_sum_of_mem (List.of_mem_zip hp).2
  obtain ⟨a1, a2, a3⟩ := share_range m1 (h1.trans (by norm_num))
  obtain ⟨b1, b2, b3⟩ := share_range m2 (h2.trans (by norm_num))
  rw [(contribution_sign ln hln _ _ a1 b1 a2 b2 b3).2, share_inj m1 m2 h1 h2 n1 n2]

example : ∃ cnt1 cnt2 : List ℕ, 0 < cnt1.sum ∧ 0 < cnt2.sum ∧ cnt1.sum ≤ 2 ^ 26 ∧ cnt2.sum ≤ 2 ^ 26 ∧ cnt1 ≠ cnt2 ∧
    ∀ p ∈ cnt1.zip cnt2, Spec.clipped p.1 cnt1.sum = Spec.clipped p.2 cnt2.sum :=
  ⟨[1, 2], [2, 4], by norm_num, by norm_num, by norm_num, by norm_num, by simp, by
    intro p hp
    simp only [List.zip_cons_cons, List.zip_nil_right, List.mem_cons, List.not_mem_nil, or_false] at hp
    rcases hp with rfl | rfl <;> norm_num [Spec.clipped]⟩

theorem smoothed_range {k n : ℕ} (h : k ≤ n) (hn : n < 2 ^ 32) :
    rd (smoothed k n) = smoothed k n ∧ 2 ^ (-40 : ℤ) ≤ smoothed k n ∧ smoothed k n ≤ 1 := by
  refine ⟨ConfDbl.rd_idem _, ?_, quot_le_one (by omega)⟩
  unfold smoothed
  rw [quot_eq (by omega) (by omega)]
  have e2 : rd (2 ^ (-40 : ℤ)) = 2 ^ (-40 : ℤ) := fl_rep f64 ⟨1, -40, by norm_num [f64], by norm_num [f64], by norm_num⟩
  rw [← e2]
  refine rd_mono ?_
  have hn' : (n : ℝ) < 2 ^ 32 := by exact_mod_cast hn
  have hk : (0 : ℝ) ≤ k := Nat.cast_nonneg k
  push_cast
  rw [le_div_iff₀ (by positivity)]
  calc (2 : ℝ) ^ (-40 : ℤ) * (n + 2) ≤ 2 ^ (-40 : ℤ) * (2 ^ 32 + 2) := by gcongr
    _ ≤ 1 := by norm_num
    _ ≤ k + 1 := by linarith

/-- The information value of a category is never negative, and its weight of evidence has the sign of the difference of the smoothed shares;
both are 0 exactly if these are equal. -/
theorem iv_sign (ln : ℝ → ℝ) (hln : Spec.GoodLn ln) (g goods b bads : ℕ) (h1 : g ≤ goods) (h2 : b ≤ bads)
    (h3 : goods < 2 ^ 32) (h4 : bads < 2 ^ 32) :
    0 ≤ iv ln g goods b bads ∧
    (iv ln g goods b bads = 0 ↔ smoothed g goods = smoothed b bads) ∧
    (0 < woe ln g goods b bads ↔ smoothed b bads < smoothed g goods) ∧
    (woe ln g goods b bads < 0 ↔ smoothed g goods < smoothed b bads) := by
  obtain ⟨a1, a2, a3⟩ := smoothed_range h1 h3
  obtain ⟨b1, b2, b3⟩ := smoothed_range h2 h4
  obtain ⟨c1, c2⟩ := contribution_sign ln hln _ _ a1 b1 a2 b2 b3
  refine ⟨c1, c2, ?_⟩
  unfold woe
  generalize smoothed g goods = x at *
  generalize smoothed b bads = y at *
  have x0 : 0 < x := (two_zpow_pos _).trans_le a2
  have y0 : 0 < y := (two_zpow_pos _).trans_le b2
  have hqp : 0 < rd (x / y) := by
    refine rd_pos (le_trans ?_ (a2.trans ?_))
    · exact zpow_le_zpow_right₀ (by norm_num) (by norm_num)
    · rw [le_div_iff₀ y0]; nlinarith
  obtain ⟨s1, s2, s3⟩ := ln_sign hln hqp (ConfDbl.rd_idem _)
  have hp := two_zpow_pos (-55)
  generalize (2 : ℝ) ^ (-55 : ℤ) = t at *
  rcases lt_trichotomy x y with h | h | h
  · have := s2 (quot_below a1 b1 x0 h)
    exact ⟨⟨fun _ => by linarith, fun _ => by linarith⟩, ⟨fun _ => h, fun _ => by linarith⟩⟩
  · subst h
    have := s3 (by rw [div_self x0.ne', rd_one])
    rw [this]; simp
  · have := s1 (quot_above a1 b1 y0 h)
    exact ⟨⟨fun _ => h, fun _ => by linarith⟩, ⟨fun _ => by linarith, fun _ => by linarith⟩⟩

example : ∃ g goods b bads : ℕ, g ≤ goods ∧ b ≤ bads ∧ goods < 2 ^ 32 ∧ bads < 2 ^ 32 ∧ smoothed b bads < smoothed g goods :=
  ⟨1, 2, 0, 2, by norm_num, by norm_num, by norm_num, by norm_num, by
    have e1 : smoothed 0 2 = 1 / 4 := by
      unfold smoothed; rw [quot_eq (by norm_num) (by norm_num)]
      have : rd (1 / 4 : ℝ) = 1 / 4 := fl_rep f64 ⟨1, -2, by norm_num [f64], by norm_num [f64], by norm_num⟩
      norm_num at this ⊢; exact this
    have e2 : smoothed 1 2 = 1 / 2 := by
      unfold smoothed; rw [quot_eq (by norm_num) (by norm_num)]
      have : rd (1 / 2 : ℝ) = 1 / 2 := fl_rep f64 ⟨1, -1, by norm_num [f64], by norm_num [f64], by norm_num⟩
      norm_num at this ⊢; exact this
    rw [e1, e2]; norm_num⟩

theorem log_shift {x y t : ℝ} (hx : 0 < x) (ht : t ≤ 1 / 2) (h : |y - x| ≤ t * x) : |Real.log y - Real.log x| ≤ 2 * t := by
  have t0 : 0 ≤ t := by
    by_contra hc
    have := abs_nonneg (y - x)
    nlinarith
  obtain ⟨h1, h2⟩ := abs_le.1 h
  have hy : 0 < y := by nlinarith
  have l1 := Real.log_le_sub_one_of_pos (div_pos hy hx)
  have l2 := Real.log_le_sub_one_of_pos (div_pos hx hy)
  rw [Real.log_div hy.ne' hx.ne'] at l1
  rw [Real.log_div hx.ne' hy.ne'] at l2
  have q1 : y / x ≤ 1 + t := by rw [div_le_iff₀ hx]; linarith
  have q2 : x / y ≤ 1 + 2 * t := by rw [div_le_iff₀ hy]; nlinarith [mul_nonneg t0 hx.le]
  rw [abs_le]
  constructor <;> linarith

theorem log_10000 : Real.log 10000 ≤ 10 := by
  rw [Real.log_le_iff_le_exp (by norm_num)]
  have h := Real.exp_one_gt_d9
  have : Real.exp 10 = Real.exp 1 ^ 10 := by rw [← Real.exp_nat_mul]; norm_num
  rw [this]
  calc (10000 : ℝ) ≤ 2.7 ^ 10 := by norm_num
    _ ≤ Real.exp 1 ^ 10 := pow_le_pow_left₀ (by norm_num) (by linarith) 10

/-- A contribution is within `2^-46` of the exact one of the exact clipped shares. -/
theorem contribution_accuracy (ln : ℝ → ℝ) (hln : Spec.GoodLn ln) (c n d m : ℕ) (hc : c ≤ n) (hd : d ≤ m) (hn : n < 2 ^ 32)
    (hm : m < 2 ^ 32) :
    |contribution ln (share c n) (share d m) - Spec.term (Spec.clipped c n) (Spec.clipped d m)| ≤ 2 ^ (-46 : ℤ) := by
  rw [share_eq hc (hn.le.trans (by norm_num)), share_eq hd (hm.le.trans (by norm_num))]
  obtain ⟨c1, c2⟩ := clipped_range hc
  obtain ⟨d1, d2⟩ := clipped_range hd
  generalize Spec.clipped c n = A at *
  generalize Spec.clipped d m = B at *
  have A0 : 0 < A := by linarith
  have B0 : 0 < B := by linarith
  have tiny : (2 : ℝ) ^ (-1000 : ℤ) ≤ 1 / 100000 :=
    (zpow_le_zpow_right₀ (by norm_num) (by norm_num : (-1000 : ℤ) ≤ -17)).trans (by norm_num)
  have rA := ConfDbl.rd_rel (x := A) (by rw [abs_of_pos A0]; linarith)
  have rB := ConfDbl.rd_rel (x := B) (by rw [abs_of_pos B0]; linarith)
  have eA := ConfDbl.rd_abs_err' (x := A) (by rw [abs_of_pos A0]; exact c2)
  have eB := ConfDbl.rd_abs_err' (x := B) (by rw [abs_of_pos B0]; exact d2)
  rw [abs_of_pos A0] at rA
  rw [abs_of_pos B0] at rB
  have a1 : rd A ≤ 1 := rd_le_one c2
  have b1 : rd B ≤ 1 := rd_le_one d2
  have half : (2 : ℝ) ^ (-53 : ℤ) ≤ 1 / 2 := by norm_num
  have a0 : 1 / 20000 ≤ rd A := by
    have := (abs_le.1 rA).1
    generalize (2 : ℝ) ^ (-53 : ℤ) = t at *
    nlinarith
  have b0 : 1 / 20000 ≤ rd B := by
    have := (abs_le.1 rB).1
    generalize (2 : ℝ) ^ (-53 : ℤ) = t at *
    nlinarith
  have lA := log_shift A0 half rA
  have lB := log_shift B0 half rB
  unfold contribution Spec.term
  generalize rd A = a at *
  generalize rd B = b at *
  have ap : 0 < a := by linarith
  have bp : 0 < b := by linarith
  have eD := ConfDbl.rd_abs_err' (x := a - b) (by rw [abs_le]; constructor <;> linarith)
  have qp : 1 / 20000 ≤ a / b := by rw [le_div_iff₀ bp]; nlinarith
  have q0 : 0 < a / b := by linarith
  have rQ := ConfDbl.rd_rel (x := a / b) (by rw [abs_of_pos q0]; linarith)
  rw [abs_of_pos q0] at rQ
  have lQ := log_shift q0 half rQ
  have hqp : 0 < rd (a / b) := rd_pos (by linarith)
  have hl := hln _ hqp (ConfDbl.rd_idem _)
  rw [Real.log_div ap.ne' bp.ne'] at lQ
  have hL : |Real.log (A / B)| ≤ 10 := by
    have k1 : A / B ≤ 10000 := by rw [div_le_iff₀ B0]; linarith
    have k2 : B / A ≤ 10000 := by rw [div_le_iff₀ A0]; linarith
    have m1 := Real.log_le_log (div_pos A0 B0) k1
    have m2 := Real.log_le_log (div_pos B0 A0) k2
    rw [Real.log_div B0.ne' A0.ne'] at m2
    rw [Real.log_div A0.ne' B0.ne'] at m1 ⊢
    have := log_10000
    rw [abs_le]; constructor <;> linarith
  rw [Real.log_div A0.ne' B0.ne'] at hL ⊢
  have hD : |A - B| ≤ 1 := by rw [abs_le]; constructor <;> linarith
  have eDD : |rd (a - b) - (A - B)| ≤ 3 * 2 ^ (-54 : ℤ) := by
    generalize (2 : ℝ) ^ (-54 : ℤ) = t at *
    rw [abs_le] at *
    constructor <;> linarith [eA.1, eA.2, eB.1, eB.2, eD.1, eD.2]
  generalize rd (a - b) = D at *
  generalize rd (a / b) = Q at *
  have lS : |Real.log Q - (Real.log A - Real.log B)| ≤ 6 * 2 ^ (-53 : ℤ) := by
    generalize (2 : ℝ) ^ (-53 : ℤ) = t at *
    rw [abs_le] at *
    constructor <;> linarith [lA.1, lA.2, lB.1, lB.2, lQ.1, lQ.2]
  generalize Real.log A - Real.log B = L at *
  have eL : |ln Q - L| ≤ 28 * 2 ^ (-53 : ℤ) := by
    have h11 : |Real.log Q| ≤ 11 := by
      have : (6 : ℝ) * 2 ^ (-53 : ℤ) ≤ 1 := by norm_num
      rw [abs_le] at *
      constructor <;> linarith [lS.1, lS.2, hL.1, hL.2]
    have : |ln Q - Real.log Q| ≤ 22 * 2 ^ (-53 : ℤ) := by
      refine hl.trans ((mul_le_mul_of_nonneg_left h11 (two_zpow_pos _).le).trans ?_)
      norm_num
    calc |ln Q - L| = |(ln Q - Real.log Q) + (Real.log Q - L)| := by ring_nf
      _ ≤ _ := abs_add_le _ _
      _ ≤ 22 * 2 ^ (-53 : ℤ) + 6 * 2 ^ (-53 : ℤ) := add_le_add this lS
      _ = _ := by ring
  generalize ln Q = l at *
  have hl11 : |l| ≤ 11 := by
    have : (28 : ℝ) * 2 ^ (-53 : ℤ) ≤ 1 := by norm_num
    rw [abs_le] at *
    constructor <;> linarith [eL.1, eL.2, hL.1, hL.2]
  have eP : |D * l - (A - B) * L| ≤ 3 * 2 ^ (-54 : ℤ) * 11 + 1 * (28 * 2 ^ (-53 : ℤ)) := by
    calc |D * l - (A - B) * L| = |(D - (A - B)) * l + (A - B) * (l - L)| := by ring_nf
      _ ≤ |D - (A - B)| * |l| + |A - B| * |l - L| := by rw [← abs_mul, ← abs_mul]; exact abs_add_le _ _
      _ ≤ _ := by gcongr
  have hP : |D * l| ≤ 22 := by
    have h2 : |D| ≤ 2 := by
      have : (3 : ℝ) * 2 ^ (-54 : ℤ) ≤ 1 := by norm_num
      rw [abs_le] at *
      constructor <;> linarith [eDD.1, eDD.2, hD.1, hD.2]
    rw [abs_mul]
    calc |D| * |l| ≤ 2 * 11 := by gcongr
      _ = 22 := by norm_num
  have eR : |rd (D * l) - D * l| ≤ 2 ^ (-48 : ℤ) / 2 := by
    refine (fl_err f64 (D * l)).trans ?_
    by_cases h0 : D * l = 0
    · rw [h0]
      have : ulp f64 0 ≤ -48 := by unfold ulp; rw [abs_zero, Int.log_zero_right]; simp [f64]
      have := zpow_le_zpow_right₀ (by norm_num : (1 : ℝ) ≤ 2) this
      exact div_le_div_of_nonneg_right this (by norm_num)
    · have hu : ulp f64 (D * l) ≤ -48 := ulp_of_lt f64 h0 (by simp [f64]) (by
        refine hP.trans_lt ?_
        norm_num [f64])
      have := zpow_le_zpow_right₀ (by norm_num : (1 : ℝ) ≤ 2) hu
      exact div_le_div_of_nonneg_right this (by norm_num)
  calc |rd (D * l) - (A - B) * L| = |(rd (D * l) - D * l) + (D * l - (A - B) * L)| := by ring_nf
    _ ≤ _ := abs_add_le _ _
    _ ≤ 2 ^ (-48 : ℤ) / 2 + (3 * 2 ^ (-54 : ℤ) * 11 + 1 * (28 * 2 ^ (-53 : ℤ))) := add_le_add eR eP
    _ ≤ 2 ^ (-46 : ℤ) := by norm_num

example : (1 : ℕ) ≤ 3 ∧ (2 : ℕ) ≤ 3 ∧ (3 : ℕ) < 2 ^ 32 ∧ Spec.clipped 1 3 ≠ Spec.clipped 2 3 := by
  refine ⟨by norm_num, by norm_num, by norm_num, ?_⟩
  norm_num [Spec.clipped]

/-- PSI in double arithmetic is not symmetric: with the counts 16383 and 1 in one sample and 16384 and 0 in the other, the order of the
samples matters, whatever the logarithm. -/
theorem psi_asymmetric (ln : ℝ → ℝ) (hln : Spec.GoodLn ln) : psi ln [16384, 0] [16383, 1] < psi ln [16383, 1] [16384, 0] := by
  have rT : rd (1 / 10000 : ℝ) ≤ 1 / 2 := by
    have e : rd (1 / 2 : ℝ) = 1 / 2 := fl_rep f64 ⟨1, -1, by norm_num [f64], by norm_num [f64], by norm_num⟩
    rw [← e]; exact rd_mono (by norm_num)
  have rT' : 2 ^ (-14 : ℤ) ≤ rd (1 / 10000 : ℝ) := by
    have e : rd (2 ^ (-14 : ℤ)) = 2 ^ (-14 : ℤ) := fl_rep f64 ⟨1, -14, by norm_num [f64], by norm_num [f64], by norm_num⟩
    rw [← e]; exact rd_mono (by norm_num)
  have ea : rd (1 - 2 ^ (-14 : ℤ)) = 1 - 2 ^ (-14 : ℤ) :=
    fl_rep f64 ⟨16383, -14, by norm_num [f64], by norm_num [f64], by norm_num⟩
  have ee : rd (2 ^ (-14 : ℤ)) = 2 ^ (-14 : ℤ) := fl_rep f64 ⟨1, -14, by norm_num [f64], by norm_num [f64], by norm_num⟩
  have s1 : share 16383 16384 = 1 - 2 ^ (-14 : ℤ) := by
    unfold share
    rw [quot_eq (by norm_num) (by norm_num), show ((16383 : ℕ) : ℝ) / (16384 : ℕ) = 1 - 2 ^ (-14 : ℤ) by norm_num, ea]
    exact max_eq_left (rT.trans (by norm_num))
  have s2 : share 1 16384 = rd (1 / 10000) := by
    unfold share
    rw [quot_eq (by norm_num) (by norm_num), show ((1 : ℕ) : ℝ) / (16384 : ℕ) = 2 ^ (-14 : ℤ) by norm_num, ee]
    exact max_eq_right rT'
  have s3 : share 16384 16384 = 1 := by
    unfold share
    rw [quot_self (by norm_num)]
    exact max_eq_left (rT.trans (by norm_num))
  have s4 : share 0 16384 = rd (1 / 10000) := by
    unfold share
    rw [quot_zero]
    exact max_eq_right (le_trans (two_zpow_pos _).le rT')
  have eR : rd (1 / (1 - 2 ^ (-14 : ℤ))) = 1 + 2 ^ (-14 : ℤ) + 2 ^ (-28 : ℤ) + 2 ^ (-42 : ℤ) := by
    rw [ConfDbl.rd_at (x := 1 / (1 - 2 ^ (-14 : ℤ))) (-52) (2 ^ 52 + 2 ^ 38 + 2 ^ 24 + 2 ^ 10) (by norm_num) (by norm_num) (by norm_num)
      (by rw [abs_lt]; constructor <;> norm_num)]
    norm_num
  have two : ∀ x : ℝ, rd (rd (0 + rd x) + 0) = rd x := by
    intro x; rw [zero_add, add_zero, ConfDbl.rd_idem, ConfDbl.rd_idem]
  have p1 : psi ln [16383, 1] [16384, 0] = rd (2 ^ (-14 : ℤ) * -ln (1 - 2 ^ (-14 : ℤ))) := by
    simp only [psi, psiBins, total, List.sum_cons, List.sum_nil, List.zip_cons_cons, List.zip_nil_right, List.map_cons, List.map_nil,
      List.foldl_cons, List.foldl_nil, Nat.reduceAdd, s1, s2, s3, s4, contribution_self]
    unfold contribution
    rw [two, div_one, ea, sub_sub_cancel_left, rd_neg, ee, neg_mul, mul_neg]
  have p2 : psi ln [16384, 0] [16383, 1] = rd (2 ^ (-14 : ℤ) * ln (1 + 2 ^ (-14 : ℤ) + 2 ^ (-28 : ℤ) + 2 ^ (-42 : ℤ))) := by
    simp only [psi, psiBins, total, List.sum_cons, List.sum_nil, List.zip_cons_cons, List.zip_nil_right, List.map_cons, List.map_nil,
      List.foldl_cons, List.foldl_nil, Nat.reduceAdd, s1, s2, s3, s4, contribution_self]
    unfold contribution
    rw [two, eR, sub_sub_cancel, ee]
  have g1 := hln (1 - 2 ^ (-14 : ℤ)) (by norm_num) ea
  have g2 := hln (1 + 2 ^ (-14 : ℤ) + 2 ^ (-28 : ℤ) + 2 ^ (-42 : ℤ)) (by norm_num) (by rw [← eR]; exact ConfDbl.rd_idem _)
  have hprod : Real.log (1 + 2 ^ (-14 : ℤ) + 2 ^ (-28 : ℤ) + 2 ^ (-42 : ℤ)) ≤ -Real.log (1 - 2 ^ (-14 : ℤ)) - 2 ^ (-56 : ℤ) := by
    have h := Real.log_le_sub_one_of_pos
      (show (0 : ℝ) < (1 + 2 ^ (-14 : ℤ) + 2 ^ (-28 : ℤ) + 2 ^ (-42 : ℤ)) * (1 - 2 ^ (-14 : ℤ)) by norm_num)
    rw [Real.log_mul (by norm_num) (by norm_num)] at h
    have e : (1 + 2 ^ (-14 : ℤ) + 2 ^ (-28 : ℤ) + 2 ^ (-42 : ℤ) : ℝ) * (1 - 2 ^ (-14 : ℤ)) - 1 = -2 ^ (-56 : ℤ) := by norm_num
    rw [e] at h
    linarith
  have hpos : 0 < Real.log (1 + 2 ^ (-14 : ℤ) + 2 ^ (-28 : ℤ) + 2 ^ (-42 : ℤ)) := Real.log_pos (by norm_num)
  have hL1 : 2 ^ (-14 : ℤ) ≤ -Real.log (1 - 2 ^ (-14 : ℤ)) := by
    have := Real.log_le_sub_one_of_pos (show (0 : ℝ) < 1 - 2 ^ (-14 : ℤ) by norm_num)
    linarith
  have hL2 : -Real.log (1 - 2 ^ (-14 : ℤ)) ≤ 2 ^ (-13 : ℤ) := by
    have := Real.one_sub_inv_le_log_of_pos (show (0 : ℝ) < 1 - 2 ^ (-14 : ℤ) by norm_num)
    have e : -(1 - ((1 : ℝ) - 2 ^ (-14 : ℤ))⁻¹) ≤ 2 ^ (-13 : ℤ) := by norm_num
    exact (neg_le_neg this).trans e
  rw [p1, p2]
  have hL0 : Real.log (1 - 2 ^ (-14 : ℤ)) < 0 := by linarith [two_zpow_pos (-14)]
  rw [abs_of_neg hL0] at g1
  rw [abs_of_pos hpos] at g2
  generalize Real.log (1 - 2 ^ (-14 : ℤ)) = M at *
  generalize Real.log (1 + 2 ^ (-14 : ℤ) + 2 ^ (-28 : ℤ) + 2 ^ (-42 : ℤ)) = N at *
  generalize ln (1 - 2 ^ (-14 : ℤ)) = x at *
  generalize ln (1 + 2 ^ (-14 : ℤ) + 2 ^ (-28 : ℤ) + 2 ^ (-42 : ℤ)) = y at *
  have hx := (abs_le.1 g1).2
  have hy := (abs_le.1 g2).2
  norm_num at hx hy hprod hL1 hL2
  have hx1 : -M * (1 - 1 / 4503599627370496) ≤ -x := by linarith
  have hgap : y + 1 / 2 ^ 57 ≤ -x := by norm_num; linarith
  have hxr : -x ≤ 1 / 2 ^ 12 := by
    have := (abs_le.1 g1).1
    norm_num at this ⊢
    linarith
  have hx0 : 1 / 2 ^ 15 ≤ -x := by norm_num; linarith
  have hy0 : 0 ≤ y := by
    have := (abs_le.1 g2).1
    norm_num at this
    linarith
  have err : ∀ z : ℝ, |z| < 2 ^ (-25 : ℤ) → |rd z - z| ≤ 1 / 2 ^ 79 := by
    intro z hz
    by_cases h0 : z = 0
    · rw [h0, rd_zero]; norm_num
    · refine (fl_err f64 z).trans ?_
      have hu : ulp f64 z ≤ -78 := ulp_of_lt f64 h0 (by simp [f64]) (by
        refine hz.trans_le ?_
        norm_num [f64])
      have := zpow_le_zpow_right₀ (by norm_num : (1 : ℝ) ≤ 2) hu
      exact (div_le_div_of_nonneg_right this (by norm_num)).trans (by norm_num)
  have e1 := (abs_le.1 (err (2 ^ (-14 : ℤ) * -x) (by rw [abs_lt]; norm_num at hxr hx0 ⊢; constructor <;> linarith))).1
  have e2 := (abs_le.1 (err (2 ^ (-14 : ℤ) * y) (by rw [abs_lt]; norm_num at hxr hx0 hgap ⊢; constructor <;> linarith))).2
  have hm : (2 : ℝ) ^ (-14 : ℤ) * y + 1 / 2 ^ 71 ≤ 2 ^ (-14 : ℤ) * -x := by
    have := mul_le_mul_of_nonneg_left hgap (two_zpow_pos (-14)).le
    rw [mul_add] at this
    norm_num at this ⊢
    linarith
  generalize (2 : ℝ) ^ (-14 : ℤ) * y = v at *
  generalize (2 : ℝ) ^ (-14 : ℤ) * -x = w at *
  norm_num at e1 e2 hm
  linarith

example : ∃ ln, Spec.GoodLn ln := ⟨Real.log, fun x _ _ => by rw [sub_self, abs_zero]; positivity⟩

/-- With about `2^31` rows, PSI can be 0 though the exact shares differ in both bins. -/
theorem psi_zero_different (ln : ℝ → ℝ) :
    psi ln [2 ^ 30, 2 ^ 30 + 1] [2 ^ 30 + 1, 2 ^ 30 + 2] = 0 ∧
    Spec.clipped (2 ^ 30) (2 ^ 31 + 1) ≠ Spec.clipped (2 ^ 30 + 1) (2 ^ 31 + 3) ∧
    Spec.clipped (2 ^ 30 + 1) (2 ^ 31 + 1) ≠ Spec.clipped (2 ^ 30 + 2) (2 ^ 31 + 3) := by
  have v1 : Spec.clipped 1073741824 2147483649 = 1073741824 / 2147483649 := by
    unfold Spec.clipped; rw [max_eq_left] <;> norm_num
  have v2 : Spec.clipped 1073741825 2147483651 = 1073741825 / 2147483651 := by
    unfold Spec.clipped; rw [max_eq_left] <;> norm_num
  have v3 : Spec.clipped 1073741825 2147483649 = 1073741825 / 2147483649 := by
    unfold Spec.clipped; rw [max_eq_left] <;> norm_num
  have v4 : Spec.clipped 1073741826 2147483651 = 1073741826 / 2147483651 := by
    unfold Spec.clipped; rw [max_eq_left] <;> norm_num
  refine ⟨?_, ?_, ?_⟩
  · have s1 : share 1073741824 2147483649 = share 1073741825 2147483651 := by
      rw [share_eq (by norm_num) (by norm_num), share_eq (by norm_num) (by norm_num), v1, v2]
      rw [ConfDbl.rd_at (x := 1073741824 / 2147483649) (-54) (2 ^ 53 - 2 ^ 22) (by norm_num) (by norm_num) (by norm_num)
        (by rw [abs_lt]; constructor <;> norm_num)]
      rw [ConfDbl.rd_at (x := 1073741825 / 2147483651) (-54) (2 ^ 53 - 2 ^ 22) (by norm_num) (by norm_num) (by norm_num)
        (by rw [abs_lt]; constructor <;> norm_num)]
    have s2 : share 1073741825 2147483649 = share 1073741826 2147483651 := by
      rw [share_eq (by norm_num) (by norm_num), share_eq (by norm_num) (by norm_num), v3, v4]
      rw [ConfDbl.rd_at (x := 1073741825 / 2147483649) (-53) (2 ^ 52 + 2 ^ 21) (by norm_num) (by norm_num) (by norm_num)
        (by rw [abs_lt]; constructor <;> norm_num)]
      rw [ConfDbl.rd_at (x := 1073741826 / 2147483651) (-53) (2 ^ 52 + 2 ^ 21) (by norm_num) (by norm_num) (by norm_num)
        (by rw [abs_lt]; constructor <;> norm_num)]
    simp only [psi, psiBins, total, List.sum_cons, List.sum_nil, List.zip_cons_cons, List.zip_nil_right, List.map_cons, List.map_nil,
      List.foldl_cons, List.foldl_nil, Nat.reducePow, Nat.reduceAdd, s1, s2, contribution_self, add_zero, rd_zero]
  · norm_num [v1, v2]
  · norm_num [v3, v4]

example : ([2 ^ 30, 2 ^ 30 + 1] : List ℕ).sum = 2 ^ 31 + 1 ∧ ([2 ^ 30 + 1, 2 ^ 30 + 2] : List ℕ).sum = 2 ^ 31 + 3 := by norm_num

end Verif.PsiDbl
