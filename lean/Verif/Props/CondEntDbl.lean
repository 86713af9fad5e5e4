import Verif.Model.CondEntDbl
import Verif.Props.CondEntropy
import Verif.Props.PsiDbl

/-!
# Conditional entropy in double arithmetic: theorems
-/

namespace Verif.CondEntDbl
open Verif.Doubles Verif.Ieee Verif.FloatBits
open Verif.Chi2.Spec (Levels)
open Verif.CondEntropy.Spec (Determines)
open Verif.PsiDbl.Spec (GoodLn)

variable {α β : Type} [DecidableEq α] [DecidableEq β]

/-- Shares of different counts of the same number of rows stay different. -/
theorem quot_lt {c d n : ℕ} (h : c < d) (hd : d ≤ n) (hn : n < 2 ^ 32) : quot c n < quot d n := by
  rw [quot_eq (by omega) (by omega), quot_eq (by omega) (by omega)]
  have n0 : (0 : ℝ) < n := by exact_mod_cast (by omega : 0 < n)
  have hn' : (n : ℝ) < 2 ^ 32 := by exact_mod_cast hn
  have h' : (c : ℝ) + 1 ≤ d := by exact_mod_cast h
  have hd' : (d : ℝ) ≤ n := by exact_mod_cast hd
  have c0 : (0 : ℝ) ≤ c := Nat.cast_nonneg c
  have q1 : |(c : ℝ) / n| ≤ 1 := by rw [abs_of_nonneg (by positivity), div_le_one n0]; linarith
  have q2 : |(d : ℝ) / n| ≤ 1 := by rw [abs_of_nonneg (by positivity), div_le_one n0]; linarith
  have e1 := (abs_le.1 (ConfDbl.rd_abs_err' q1)).2
  have e2 := (abs_le.1 (ConfDbl.rd_abs_err' q2)).1
  have g : (c : ℝ) / n + 1 / 2 ^ 32 ≤ d / n := by
    have : 1 / 2 ^ 32 ≤ 1 / (n : ℝ) := one_div_le_one_div_of_le n0 hn'.le
    have : (c : ℝ) / n + 1 / n ≤ d / n := by rw [← add_div]; gcongr
    linarith
  have : (2 : ℝ) ^ (-54 : ℤ) < 1 / 2 ^ 34 := by norm_num
  norm_num at *
  linarith

/-- A term is never positive, and 0 exactly if the count of the pair is that of its `y`. -/
theorem term_sign {ln : ℝ → ℝ} (hln : GoodLn ln) {c cy n : ℕ} (c0 : 0 < c) (h : c ≤ cy) (hy : cy ≤ n) (hn : n < 2 ^ 32) :
    term ln c cy n ≤ 0 ∧ rd (term ln c cy n) = term ln c cy n ∧ (term ln c cy n = 0 ↔ c = cy) := by
  have p : 2 ^ (-53 : ℤ) ≤ quot c n := quot_pos c0 (h.trans hy) (by omega)
  have pp := (two_zpow_pos (-53)).trans_le p
  rcases h.lt_or_eq with h | rfl
  · have hq := quot_lt h hy hn
    have d1 : rd (quot c n) = quot c n := ConfDbl.rd_idem _
    have d2 : rd (quot cy n) = quot cy n := ConfDbl.rd_idem _
    have b := PsiDbl.quot_below d1 d2 pp hq
    have y1 : quot cy n ≤ 1 := quot_le_one hy
    have bp : 0 < rd (quot c n / quot cy n) := by
      refine PsiDbl.rd_pos (le_trans ?_ (p.trans ?_))
      · exact zpow_le_zpow_right₀ (by norm_num) (by norm_num)
      · rw [le_div_iff₀ (pp.trans hq)]; nlinarith
    have l := (PsiDbl.ln_sign hln bp (ConfDbl.rd_idem _)).2.1 b
    have neg : 0 < -term ln c cy n := by
      unfold term
      rw [← rd_neg, ← neg_mul]
      refine PsiDbl.rd_pos ?_
      have := mul_le_mul (show (2 : ℝ) ^ (-55 : ℤ) ≤ -ln (rd (quot c n / quot cy n)) from le_neg_of_le_neg l) p (two_zpow_pos _).le
        ((two_zpow_pos (-55)).le.trans (le_neg_of_le_neg l))
      rw [← zpow_add₀ (by norm_num)] at this
      exact (zpow_le_zpow_right₀ (by norm_num) (by norm_num)).trans this
    exact ⟨by linarith, ConfDbl.rd_idem _, fun hz => by linarith, fun hz => absurd hz h.ne⟩
  · have z : term ln c c n = 0 := by
      unfold term
      rw [div_self pp.ne', rd_one, (PsiDbl.ln_sign hln one_pos rd_one).2.2 rfl, zero_mul, rd_zero]
    rw [z]
    exact ⟨le_rfl, rd_zero, by simp⟩

theorem total_neg (l : List ℝ) : PsiDbl.total (l.map fun x => -x) = -PsiDbl.total l := by
  have gen : ∀ s : ℝ, (l.map fun x => -x).foldl (fun s x => rd (s + x)) (-s) = -l.foldl (fun s x => rd (s + x)) s := by
    induction l with
    | nil => simp
    | cons y l ih =>
      intro s
      rw [List.map_cons, List.foldl_cons, List.foldl_cons, ← neg_add, rd_neg, ih]
  have := gen 0
  rwa [neg_zero] at this

theorem entropy_total {ln : ℝ → ℝ} (rows groups : List (α × β)) (hg : Levels rows groups) :
    condEntropy ln rows groups = rd (PsiDbl.total (groups.map fun g =>
      -term ln (rows.count g) ((rows.map Prod.snd).count g.2) rows.length)) := by
  unfold condEntropy
  dsimp only
  rw [neg_one_mul, ← total_neg, List.map_map, CondEntropy.total_eq rows groups hg]
  congr 2
  unfold CondEntropy.counted
  rw [List.map_map]
  apply List.map_congr_left
  intro g _
  simp only [Function.comp_apply]
  rw [← CondEntropy.overY_eq rows groups hg]
  rfl

/-- The conditional entropy is never negative, and 0 exactly if `y` determines `x`. -/
theorem cond_entropy_dbl (ln : ℝ → ℝ) (hln : GoodLn ln) (rows groups : List (α × β)) (hg : Levels rows groups)
    (hn : rows.length < 2 ^ 32) :
    0 ≤ condEntropy ln rows groups ∧ (condEntropy ln rows groups = 0 ↔ Determines rows) := by
  have hterm : ∀ g ∈ groups, term ln (rows.count g) ((rows.map Prod.snd).count g.2) rows.length ≤ 0 ∧
      rd (term ln (rows.count g) ((rows.map Prod.snd).count g.2) rows.length) =
        term ln (rows.count g) ((rows.map Prod.snd).count g.2) rows.length ∧
      (term ln (rows.count g) ((rows.map Prod.snd).count g.2) rows.length = 0 ↔
        rows.count g = (rows.map Prod.snd).count g.2) := by
    intro g h
    obtain ⟨h1, h2, _, _⟩ := CondEntropy.count_pos_of rows groups hg g h
    exact term_sign hln h1 h2 (by have := List.count_le_length (a := g.2) (l := rows.map Prod.snd); simpa using this) hn
  have hall : ∀ x ∈ groups.map (fun g => -term ln (rows.count g) ((rows.map Prod.snd).count g.2) rows.length),
      0 ≤ x ∧ rd x = x := by
    intro x hx
    obtain ⟨g, h, rfl⟩ := List.mem_map.1 hx
    obtain ⟨t1, t2, _⟩ := hterm g h
    exact ⟨by linarith, by rw [rd_neg, t2]⟩
  obtain ⟨s1, s2, s3⟩ := PsiDbl.total_spec _ hall
  have hidem : ∀ l : List ℝ, rd (PsiDbl.total l) = PsiDbl.total l := by
    intro l
    unfold PsiDbl.total
    have gen : ∀ s : ℝ, rd s = s → rd (l.foldl (fun s x => rd (s + x)) s) = l.foldl (fun s x => rd (s + x)) s := by
      induction l with
      | nil => intro s hs; simpa using hs
      | cons y l ih => intro s _; rw [List.foldl_cons]; exact ih _ (ConfDbl.rd_idem _)
    exact gen 0 rd_zero
  rw [entropy_total rows groups hg, hidem]
  refine ⟨s1, s3.trans ?_⟩
  constructor
  · intro h p hp q hq he
    have hq' := (hg.2 q).2 hq
    have h0 := h _ (List.mem_map_of_mem hq')
    have := (hterm q hq').2.2.1 (neg_eq_zero.1 h0)
    exact congrArg Prod.fst ((CondEntropy.count_eq_iff rows q).1 this p hp he)
  · intro h v hv
    obtain ⟨g, hgm, rfl⟩ := List.mem_map.1 hv
    rw [neg_eq_zero]
    refine (hterm g hgm).2.2.2 ((CondEntropy.count_eq_iff rows g).2 ?_)
    intro p hp he
    exact Prod.ext (h p hp g ((hg.2 g).1 hgm) he) he

example : Levels [(1, 'a'), (2, 'a'), (1, 'a')] [(1, 'a'), (2, 'a')] ∧ [(1, 'a'), (2, 'a'), (1, 'a')].length < 2 ^ 32 ∧
    ¬ Determines [(1, 'a'), (2, 'a'), (1, 'a')] := by
  refine ⟨⟨by decide, fun x => ?_⟩, by norm_num, fun h => ?_⟩
  · simp; tauto
  · have := h (1, 'a') (by simp) (2, 'a') (by simp) rfl
    simp at this

end Verif.CondEntDbl
