import Verif.Props.AucDbl
import Verif.Props.LossDbl

/-!
# ROC AUC in doubles can exceed one
-/

namespace Verif.AucDbl
open Verif Verif.Doubles Verif.Ieee Verif.Ieee.Spec Verif.Roc Verif.ConfDbl
open Verif.FloatBits (f64)

/-- Twenty-eight negatives with the scores 1, 2 and 3, and a positive with the score 4. -/
def above : List (ℝ × ℕ) := List.replicate 17 (1, 0) ++ List.replicate 10 (2, 0) ++ List.replicate 1 (3, 0) ++ [(4, 1)]

theorem above_pos : Roc.Spec.positives above = [4] := by
  simp [Roc.Spec.positives, above, List.replicate]

theorem above_neg : Roc.Spec.negatives above = List.replicate 17 1 ++ List.replicate 10 2 ++ List.replicate 1 3 := by
  simp [Roc.Spec.negatives, above, List.replicate]

theorem above_bin : ∀ r ∈ above, r.2 = 0 ∨ r.2 = 1 := by
  intro r hr
  simp [above, List.replicate] at hr
  rcases hr with rfl | rfl | rfl | rfl <;> simp

theorem above_thresholds : thresholds above = [1, 2, 3, 4] := by
  have hs : ([1, 2, 3, 4] : List ℝ).Pairwise (· < ·) := by norm_num
  refine List.Perm.eq_of_pairwise (le := (· ≤ ·)) (fun a b _ _ h1 h2 => le_antisymm h1 h2)
    ((thresholds_sorted above).imp fun h => h.le) (hs.imp fun h => h.le) ?_
  refine (List.perm_ext_iff_of_nodup ((thresholds_sorted above).imp fun h => ne_of_lt h) (hs.imp fun h => ne_of_lt h)).2 fun s => ?_
  rw [mem_thresholds]
  simp [above, List.replicate]

/-- **C158i.**  The AUC of a perfect ranking can exceed one in doubles: for twenty-eight negatives with three scores below a positive,
adding from left to right gives the double above one. -/
theorem auc_double_above_one : ∃ rows : List (ℝ × ℕ), (∀ r ∈ rows, r.2 = 0 ∨ r.2 = 1) ∧ rows.length = 29 ∧
    (∀ p ∈ Roc.Spec.positives rows, ∀ q ∈ Roc.Spec.negatives rows, q < p) ∧
    IsRocAuc (rows.map fun r => some r.1) (rows.map fun r => some r.2) (.val (1 + 2 ^ (-52 : ℤ))) := by
  have hp : Roc.Spec.positives above ≠ [] := by rw [above_pos]; simp
  have hn : Roc.Spec.negatives above ≠ [] := by rw [above_neg]; simp
  have hlt : ∀ p ∈ Roc.Spec.positives above, ∀ q ∈ Roc.Spec.negatives above, q < p := by
    rw [above_pos, above_neg]
    intro p h q hq
    simp [List.replicate] at h hq
    subst h
    rcases hq with rfl | rfl | rfl <;> norm_num
  refine ⟨above, above_bin, by simp [above], hlt, ?_⟩
  rw [auc_unfold above above_bin hp hn]
  have n28 : (Roc.Spec.negatives above).length = 28 := by rw [above_neg]; simp
  have n1 : (Roc.Spec.positives above).length = 1 := by rw [above_pos]; simp
  have c1 : ((Roc.Spec.negatives above).countP fun s => decide ((1 : ℝ) ≤ s)) = 28 := by
    rw [above_neg]; norm_num [List.replicate, List.countP_cons]
  have c2 : ((Roc.Spec.negatives above).countP fun s => decide ((2 : ℝ) ≤ s)) = 11 := by
    rw [above_neg]; norm_num [List.replicate, List.countP_cons]
  have c3 : ((Roc.Spec.negatives above).countP fun s => decide ((3 : ℝ) ≤ s)) = 1 := by
    rw [above_neg]; norm_num [List.replicate, List.countP_cons]
  have c4 : ((Roc.Spec.negatives above).countP fun s => decide ((4 : ℝ) ≤ s)) = 0 := by
    rw [above_neg]; norm_num [List.replicate, List.countP_cons]
  have p4 : ∀ t : ℝ, t ≤ 4 → ((Roc.Spec.positives above).countP fun s => decide (t ≤ s)) = 1 := by
    intro t ht
    rw [above_pos]; simp [ht]
  have y1 : ∀ t : ℝ, t ≤ 4 → (dblRow above t).tpr = 1 := by
    intro t ht
    simp only [dblRow, p4 t ht, n1]; exact quot_self (by norm_num)
  have x1 : (dblRow above 1).fpr = 1 := by simp only [dblRow, c1, n28]; exact quot_self (by norm_num)
  have x2 : (dblRow above 2).fpr = 7077085128725065 * 2 ^ (-54 : ℤ) := by
    simp only [dblRow, c2, n28]
    rw [quot_eq (by norm_num) (by norm_num), rd_at (-54) 7077085128725065 (by norm_num) (by norm_num) (by norm_num) (by norm_num [abs_lt])]
    norm_num
  have x3 : (dblRow above 3).fpr = 5146971002709138 * 2 ^ (-57 : ℤ) := by
    simp only [dblRow, c3, n28]
    rw [quot_eq (by norm_num) (by norm_num), rd_at (-57) 5146971002709138 (by norm_num) (by norm_num) (by norm_num) (by norm_num [abs_lt])]
    norm_num
  have x4 : (dblRow above 4).fpr = 0 := by simp only [dblRow, c4, n28]; exact quot_zero _
  have r2 : rd (1 + 1) = 2 := by
    have := rd_nat (n := 2) (by norm_num)
    rw [show (1 : ℝ) + 1 = ((2 : ℕ) : ℝ) by norm_num, this]; norm_num
  have dA : rd (7077085128725065 * 2 ^ (-54 : ℤ) - 1) = -(5468656690378460 * 2 ^ (-53 : ℤ)) := by
    rw [show (7077085128725065 * (2 : ℝ) ^ (-54 : ℤ) - 1) = -(10937313380756919 * 2 ^ (-54 : ℤ)) by norm_num, rd_neg,
      Verif.LossDbl.rd_tie_odd (-53) 5468656690378459 (by norm_num) (by norm_num) (by norm_num) (by norm_num) (by decide)]
    norm_num
  have dB : rd (5146971002709138 * 2 ^ (-57 : ℤ) - 7077085128725065 * 2 ^ (-54 : ℤ)) = -(6433713753386423 * 2 ^ (-54 : ℤ)) := by
    rw [show (5146971002709138 * (2 : ℝ) ^ (-57 : ℤ) - 7077085128725065 * 2 ^ (-54 : ℤ)) = -(51469710027091382 * 2 ^ (-57 : ℤ)) by norm_num,
      rd_neg, rd_at (-54) 6433713753386423 (by norm_num) (by norm_num) (by norm_num) (by norm_num [abs_lt])]
    norm_num
  have dC : rd (0 - 5146971002709138 * 2 ^ (-57 : ℤ)) = -(5146971002709138 * 2 ^ (-57 : ℤ)) := by
    rw [zero_sub, rd_neg, rd_at (-57) 5146971002709138 (by norm_num) (by norm_num) (by norm_num) (by norm_num)]
    norm_num
  have hA : rd ((2 : ℝ) * -(5468656690378460 * 2 ^ (-53 : ℤ))) = -(5468656690378460 * 2 ^ (-52 : ℤ)) := by
    rw [show (2 : ℝ) * -(5468656690378460 * 2 ^ (-53 : ℤ)) = -(5468656690378460 * 2 ^ (-52 : ℤ)) by norm_num, rd_neg,
      rd_at (-52) 5468656690378460 (by norm_num) (by norm_num) (by norm_num) (by norm_num)]
    norm_num
  have hB : rd ((2 : ℝ) * -(6433713753386423 * 2 ^ (-54 : ℤ))) = -(6433713753386423 * 2 ^ (-53 : ℤ)) := by
    rw [show (2 : ℝ) * -(6433713753386423 * 2 ^ (-54 : ℤ)) = -(6433713753386423 * 2 ^ (-53 : ℤ)) by norm_num, rd_neg,
      rd_at (-53) 6433713753386423 (by norm_num) (by norm_num) (by norm_num) (by norm_num)]
    norm_num
  have hC : rd ((2 : ℝ) * -(5146971002709138 * 2 ^ (-57 : ℤ))) = -(5146971002709138 * 2 ^ (-56 : ℤ)) := by
    rw [show (2 : ℝ) * -(5146971002709138 * 2 ^ (-57 : ℤ)) = -(5146971002709138 * 2 ^ (-56 : ℤ)) by norm_num, rd_neg,
      rd_at (-56) 5146971002709138 (by norm_num) (by norm_num) (by norm_num) (by norm_num)]
    norm_num
  have hAB : rd (-(5468656690378460 * 2 ^ (-52 : ℤ)) + -(6433713753386423 * 2 ^ (-53 : ℤ))) = -(8685513567071672 * 2 ^ (-52 : ℤ)) := by
    rw [show (-(5468656690378460 * 2 ^ (-52 : ℤ)) + -(6433713753386423 * 2 ^ (-53 : ℤ)) : ℝ) = -(17371027134143343 * 2 ^ (-53 : ℤ)) by norm_num,
      rd_neg, Verif.LossDbl.rd_tie_odd (-52) 8685513567071671 (by norm_num) (by norm_num) (by norm_num) (by norm_num) (by decide)]
    norm_num
  have hABC : rd (-(8685513567071672 * 2 ^ (-52 : ℤ)) + -(5146971002709138 * 2 ^ (-56 : ℤ))) = -(4503599627370497 * 2 ^ (-51 : ℤ)) := by
    rw [show (-(8685513567071672 * 2 ^ (-52 : ℤ)) + -(5146971002709138 * 2 ^ (-56 : ℤ)) : ℝ) = -(144115188075855890 * 2 ^ (-56 : ℤ)) by norm_num,
      rd_neg, rd_at (-51) 4503599627370497 (by norm_num) (by norm_num) (by norm_num) (by norm_num [abs_lt])]
    norm_num
  rw [above_thresholds]
  refine ⟨_, ⟨-(4503599627370497 * 2 ^ (-51 : ℤ)), ?_, rfl⟩, ?_⟩
  · simp only [List.map_cons, List.map_nil, List.tail_cons, List.zipWith_cons_cons, List.zipWith_nil_left, List.zip_cons_cons,
      List.zip_nil_left, x1, x2, x3, x4, y1 1 (by norm_num), y1 2 (by norm_num), y1 3 (by norm_num), y1 4 (by norm_num)]
    rw [r2, dA, dB, dC]
    have t := ((IsDot.term 2 (-(5468656690378460 * 2 ^ (-53 : ℤ)))).add (.term 2 (-(6433713753386423 * 2 ^ (-54 : ℤ))))).add
      (.term 2 (-(5146971002709138 * 2 ^ (-57 : ℤ))))
    rw [hA, hB, hC, hAB, hABC] at t
    exact t
  · rw [show (1 / 2 * -(4503599627370497 * 2 ^ (-51 : ℤ)) : ℝ) = -(4503599627370497 * 2 ^ (-52 : ℤ)) by norm_num, rd_neg, neg_neg,
      rd_at (-52) 4503599627370497 (by norm_num) (by norm_num) (by norm_num) (by norm_num)]
    norm_num

/-- The value is above one. -/
example : (1 : ℝ) < 1 + 2 ^ (-52 : ℤ) := by norm_num

end Verif.AucDbl
