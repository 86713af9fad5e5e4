import Verif.Lemmas.AucDbl
import Verif.Props.ConfDbl
import Verif.Props.Roc
import Verif.Props.Trapz

/-!
# ROC AUC, average precision and trapezoid integration in double arithmetic: theorems

A result is any value that some order of adding the products of `dot` can give.
-/

namespace Verif.AucDbl
open Verif Verif.Doubles Verif.Ieee Verif.Ieee.Spec Verif.Roc Verif.ConfDbl
open Verif.FloatBits (f64)

/-- The number of different scores. -/
noncomputable def Spec.scores (rows : List (ℝ × ℕ)) : ℕ := (rows.map Prod.fst).dedup.length

theorem length_thresholds (rows : List (ℝ × ℕ)) : (thresholds rows).length = Spec.scores rows := by
  unfold thresholds Spec.scores
  exact List.length_insertionSort _ _

theorem scores_le (rows : List (ℝ × ℕ)) : Spec.scores rows ≤ rows.length := by
  have := (List.dedup_sublist (rows.map Prod.fst)).length_le
  rwa [List.length_map] at this

theorem auc_unfold (rows : List (ℝ × ℕ)) (hb : ∀ r ∈ rows, r.2 = 0 ∨ r.2 = 1)
    (hp : Roc.Spec.positives rows ≠ []) (hn : Roc.Spec.negatives rows ≠ []) (r : Res ℝ) :
    IsRocAuc (rows.map fun r => some r.1) (rows.map fun r => some r.2) r ↔
      ∃ v, IsTrapz (((thresholds rows).map (dblRow rows)).map (·.tpr)) (((thresholds rows).map (dblRow rows)).map (·.fpr)) v ∧
        r = .val (-v) := by
  have hne : rows ≠ [] := by rintro rfl; exact hp rfl
  have hl := length_split rows hb
  have h1 := List.length_pos_iff.2 hp
  have h2 := List.length_pos_iff.2 hn
  unfold IsRocAuc
  simp only [filterMap_some_snd, sum_snd rows hb, checked_map rows hne]
  rw [if_neg (by omega), if_neg (by omega), frame_eq rows hb]

theorem countP_falling (S : List ℝ) {a b : ℝ} (h : a ≤ b) :
    (S.countP fun s => decide (b ≤ s)) ≤ S.countP fun s => decide (a ≤ s) :=
  List.countP_mono_left fun s _ hs => by simp only [decide_eq_true_eq] at hs ⊢; exact h.trans hs

/-- The facts on the double ratio of a falling count. -/
theorem ratio_facts (S : List ℝ) (hl : S.length < 2 ^ 32) (t : ℝ) :
    Rep f64 (quot (S.countP fun s => decide (t ≤ s)) S.length) ∧
    |quot (S.countP fun s => decide (t ≤ s)) S.length - ((S.countP fun s => decide (t ≤ s) : ℕ) : ℝ) / S.length| ≤ 2 ^ (-54 : ℤ) ∧
    (0 ≤ quot (S.countP fun s => decide (t ≤ s)) S.length ∧ quot (S.countP fun s => decide (t ≤ s)) S.length ≤ 1) ∧
    (0 ≤ ((S.countP fun s => decide (t ≤ s) : ℕ) : ℝ) / S.length ∧ ((S.countP fun s => decide (t ≤ s) : ℕ) : ℝ) / S.length ≤ 1) := by
  have hc : (S.countP fun s => decide (t ≤ s)) ≤ S.length := List.countP_le_length
  refine ⟨isRep _, quot_err hc hl, ⟨quot_nonneg _ _, quot_le_one hc⟩, by positivity, ?_⟩
  exact div_le_one_of_le₀ (by exact_mod_cast hc) (by positivity)

theorem ratio_falling (S : List ℝ) (hl : S.length < 2 ^ 32) {a b : ℝ} (h : a ≤ b) :
    quot (S.countP fun s => decide (b ≤ s)) S.length ≤ quot (S.countP fun s => decide (a ≤ s)) S.length ∧
    ((S.countP fun s => decide (b ≤ s) : ℕ) : ℝ) / S.length ≤ ((S.countP fun s => decide (a ≤ s) : ℕ) : ℝ) / S.length := by
  have hc := countP_falling S h
  have h1 : (S.countP fun s => decide (b ≤ s)) ≤ S.length := List.countP_le_length
  have h2 : (S.countP fun s => decide (a ≤ s)) ≤ S.length := List.countP_le_length
  have hd : ((S.countP fun s => decide (b ≤ s) : ℕ) : ℝ) / S.length ≤ ((S.countP fun s => decide (a ≤ s) : ℕ) : ℝ) / S.length :=
    div_le_div_of_nonneg_right (by exact_mod_cast hc) (by positivity)
  refine ⟨?_, hd⟩
  rw [quot_eq (by omega) (by omega), quot_eq (by omega) (by omega)]
  exact rd_mono hd

theorem min_thresholds {rows : List (ℝ × ℕ)} {t : ℝ} {ts : List ℝ} (h : thresholds rows = t :: ts) :
    ∀ s ∈ rows.map Prod.fst, t ≤ s := by
  intro s hs
  have hm := mem_thresholds.2 hs
  have hsort := thresholds_sorted rows
  rw [h] at hm hsort
  rcases List.mem_cons.1 hm with h | h
  · rw [h]
  · exact ((List.pairwise_cons.1 hsort).1 s h).le

/-- The value in doubles against the value of the exact model. -/
theorem auc_near (rows : List (ℝ × ℕ)) (hb : ∀ r ∈ rows, r.2 = 0 ∨ r.2 = 1)
    (hp : Roc.Spec.positives rows ≠ []) (hn : Roc.Spec.negatives rows ≠ []) (hlen : rows.length < 2 ^ 32)
    (r : Res ℝ) (hr : IsRocAuc (rows.map fun r => some r.1) (rows.map fun r => some r.2) r) :
    ∃ v, r = .val v ∧ ∀ w, rocAuc (rows.map fun r => some r.1) (rows.map fun r => some r.2) = .val w →
      |v - w| ≤ (Spec.scores rows + 3 : ℕ) * 2 ^ (-52 : ℤ) := by
  obtain ⟨v, hv, rfl⟩ := (auc_unfold rows hb hp hn r).1 hr
  refine ⟨-v, rfl, fun w hw => ?_⟩
  rw [rocAuc_unfold rows hb hp hn] at hw
  have hw : aucOf ((thresholds rows).map (rocRow rows)) = w := by injection hw
  have hl := length_split rows hb
  have hP : (Roc.Spec.positives rows).length < 2 ^ 32 := by omega
  have hN : (Roc.Spec.negatives rows).length < 2 ^ 32 := by omega
  have hmem := @mem_thresholds ℝ _ _ rows
  have hsort := thresholds_sorted rows
  have hlt := length_thresholds rows
  have hsl := scores_le rows
  set x : ℝ → ℝ := fun t => (dblRow rows t).fpr with hx
  set y : ℝ → ℝ := fun t => (dblRow rows t).tpr with hy
  set X : ℝ → ℝ := fun t => (rocRow rows t).fpr with hX
  set Y : ℝ → ℝ := fun t => (rocRow rows t).tpr with hY
  have fx := fun t => ratio_facts (Roc.Spec.negatives rows) hN t
  have fy := fun t => ratio_facts (Roc.Spec.positives rows) hP t
  have mx := fun {a b : ℝ} (h : a ≤ b) => ratio_falling (Roc.Spec.negatives rows) hN h
  have my := fun {a b : ℝ} (h : a ≤ b) => ratio_falling (Roc.Spec.positives rows) hP h
  have e1 : ((thresholds rows).map (dblRow rows)).map (·.tpr) = (thresholds rows).map y := by rw [List.map_map]; rfl
  have e2 : ((thresholds rows).map (dblRow rows)).map (·.fpr) = (thresholds rows).map x := by rw [List.map_map]; rfl
  have e3 : ((thresholds rows).map (rocRow rows)).map (·.tpr) = (thresholds rows).map Y := by rw [List.map_map]; rfl
  have e4 : ((thresholds rows).map (rocRow rows)).map (·.fpr) = (thresholds rows).map X := by rw [List.map_map]; rfl
  rw [e1, e2] at hv
  rw [aucOf, e3, e4] at hw
  have u52 := two_zpow_pos (-52)
  have hP0 : (Roc.Spec.positives rows).length ≠ 0 := by simpa using hp
  have hN0 : (Roc.Spec.negatives rows).length ≠ 0 := by simpa using hn
  -- the first place
  have h0 : ∀ t ts, thresholds rows = t :: ts → x t = 1 ∧ X t = 1 ∧ y t = 1 ∧ Y t = 1 := by
    intro t ts h
    have hmin := min_thresholds h
    have c1 : ((Roc.Spec.negatives rows).countP fun s => decide (t ≤ s)) = (Roc.Spec.negatives rows).length :=
      List.countP_eq_length.2 fun s hs => by simpa using hmin s (neg_mem hs)
    have c2 : ((Roc.Spec.positives rows).countP fun s => decide (t ≤ s)) = (Roc.Spec.positives rows).length :=
      List.countP_eq_length.2 fun s hs => by simpa using hmin s (pos_mem hs)
    refine ⟨?_, ?_, ?_, ?_⟩
    · simp only [hx, dblRow, c1]; exact quot_self (Nat.pos_of_ne_zero hN0)
    · simp only [hX, rocRow, c1]; exact div_self (by exact_mod_cast hN0)
    · simp only [hy, dblRow, c2]; exact quot_self (Nat.pos_of_ne_zero hP0)
    · simp only [hY, rocRow, Roc.Spec.recall, c2]; exact div_self (by exact_mod_cast hP0)
  generalize hts : thresholds rows = ts at *
  match ts, hts with
  | [], _ =>
    exfalso
    obtain ⟨r, hr⟩ := List.exists_mem_of_ne_nil rows (by rintro rfl; exact hp rfl)
    exact absurd ((hmem (t := r.1)).2 (List.mem_map_of_mem hr)) (by simp)
  | [t], _ =>
    obtain ⟨x1, X1, y1, Y1⟩ := h0 t [] rfl
    have hv' : v = rd (rd (y t * x t) * -(1 / 2)) := hv
    have hw' : -(Y t * X t * (-(1 / 2))) = w := hw
    have hhalf : rd (1 / 2 : ℝ) = 1 / 2 := by
      have := rd_at (x := 1 / 2) (-53) (2 ^ 52) (by norm_num) (by norm_num) (by norm_num) (by norm_num)
      rw [this]; norm_num
    rw [hv', ← hw', x1, y1, X1, Y1, mul_one, rd_one, one_mul, rd_neg, hhalf]
    norm_num
    positivity
  | t :: t' :: ts, _ =>
    obtain ⟨x1, X1, y1, Y1⟩ := h0 t (t' :: ts) rfl
    set l := t :: t' :: ts with hl'
    have hvl : ∃ d, IsDot (panels ((l.map x).zip (l.map y))) d ∧ v = rd (1 / 2 * d) := by
      rw [← zip_panels _ _ (by simp)]
      exact hv
    obtain ⟨d, hd, rfl⟩ := hvl
    rw [Trapz.trapz_eq_area _ _ (by simp) (by simp [hl'])] at hw
    have z1 : (l.map x).zip (l.map y) = l.map fun t => (x t, y t) := by rw [List.zip_map']
    have z2 : (l.map X).zip (l.map Y) = l.map fun t => (X t, Y t) := by rw [List.zip_map']
    rw [z1] at hd
    rw [z2] at hw
    have g1 := half_err (l.map fun t => (x t, y t)) (by
      intro p hp
      obtain ⟨s, _, rfl⟩ := List.mem_map.1 hp
      exact ⟨(fx s).1, (fy s).1⟩) (by rw [List.length_map, hlt]; omega) (by simp [hl']) hd
    have px : l.Pairwise (fun a b => x b ≤ x a) := hsort.imp fun h => (mx h.le).1
    have pY : l.Pairwise (fun a b => Y b ≤ Y a) := hsort.imp fun h => (my h.le).2
    have g2 := area_moved (x := x) (y := y) (X := X) (Y := Y) (two_zpow_pos (-54)).le t (t' :: ts) px pY
      (fun w _ => (fx w).2.1) (fun w _ => (fy w).2.1) (x1.trans X1.symm) (fun w _ => (fx w).2.2.1) (fun w _ => (fy w).2.2.2)
    have g3 : absArea (l.map fun t => (x t, y t)) ≤ 1 := by
      refine (absArea_falling (x := x) (q := y) (e := 1) t (t' :: ts) px fun w _ => ?_).trans ?_
      · have h' : 0 ≤ y w ∧ y w ≤ 1 := (fy w).2.2.1
        rw [abs_of_nonneg h'.1]; exact h'.2
      · have := (fx ((t :: t' :: ts).getLast (by simp))).2.2.1.1
        have h' : 0 ≤ x ((t :: t' :: ts).getLast (by simp)) := this
        linarith
    have g4 := absArea_nonneg (l.map fun t => (x t, y t))
    rw [List.length_map, hlt] at g1
    rw [← hw]
    have e : -rd (1 / 2 * d) - -(Trapz.Spec.area (l.map fun t => (X t, Y t))) =
      -((rd (1 / 2 * d) - Trapz.Spec.area (l.map fun t => (x t, y t))) +
        (Trapz.Spec.area (l.map fun t => (x t, y t)) - Trapz.Spec.area (l.map fun t => (X t, Y t)))) := by ring
    rw [e, abs_neg]
    have tri := abs_add_le (rd (1 / 2 * d) - Trapz.Spec.area (l.map fun t => (x t, y t)))
        (Trapz.Spec.area (l.map fun t => (x t, y t)) - Trapz.Spec.area (l.map fun t => (X t, Y t)))
    have k1 : ((Spec.scores rows + 2 : ℕ) : ℝ) * 2 ^ (-52 : ℤ) * absArea (l.map fun t => (x t, y t)) ≤
        (Spec.scores rows + 2 : ℕ) * 2 ^ (-52 : ℤ) * 1 := mul_le_mul_of_nonneg_left g3 (by positivity)
    have k2 : ((Spec.scores rows + 1 : ℕ) : ℝ) * 2 ^ (-1075 : ℤ) ≤ 2 ^ (-53 : ℤ) := by
      have h1 : ((Spec.scores rows + 1 : ℕ) : ℝ) ≤ 2 ^ (33 : ℤ) := by
        have : Spec.scores rows + 1 ≤ 2 ^ 33 := by omega
        exact_mod_cast this
      refine (mul_le_mul_of_nonneg_right h1 (two_zpow_pos _).le).trans ?_
      rw [← zpow_add₀ (by norm_num)]
      exact zpow_le_zpow_right₀ (by norm_num) (by norm_num)
    have k3 : (2 : ℝ) ^ (-52 : ℤ) = 2 * 2 ^ (-53 : ℤ) := by norm_num
    have k4 : 2 * (2 : ℝ) ^ (-54 : ℤ) = 2 ^ (-53 : ℤ) := by norm_num
    rw [k4, ← hl'] at g2
    have k5 : ((Spec.scores rows + 3 : ℕ) : ℝ) * 2 ^ (-52 : ℤ) = (Spec.scores rows + 2 : ℕ) * 2 ^ (-52 : ℤ) * 1 + 2 ^ (-52 : ℤ) := by
      push_cast; ring
    rw [k5]
    generalize (2 : ℝ) ^ (-53 : ℤ) = u at g2 k2 k3
    generalize (2 : ℝ) ^ (-52 : ℤ) = z at *
    linarith only [tri, g1, g2, k1, k2, k3]

/-- No order of adding makes a sum of falling steps positive. -/
theorem dot_nonpos {l : List (ℝ × ℝ)} {v : ℝ} (h : IsDot l v) : (∀ p ∈ l, p.1 * p.2 ≤ 0) → v ≤ 0 := by
  have low : ∀ z : ℝ, z ≤ 0 → rd z ≤ 0 := fun z hz => by have := rd_mono hz; rwa [rd_zero] at this
  induction h with
  | nil => intro _; exact le_refl _
  | term a b => intro h; exact low _ (h (a, b) (by simp))
  | add _ _ ih₁ ih₂ =>
    intro h
    have h1 := ih₁ fun p hp => h p (by simp [hp])
    have h2 := ih₂ fun p hp => h p (by simp [hp])
    exact low _ (by linarith)
  | fma a b _ ih =>
    intro h
    have h1 := ih fun p hp => h p (by simp [hp])
    have h2 := h (a, b) (by simp)
    exact low _ (by simp only at h2; linarith)
  | perm hp _ ih => intro h; exact ih fun p hp' => h p (hp.mem_iff.1 hp')

theorem panels_sign {x y : ℝ → ℝ} : ∀ ts : List ℝ, ts.Pairwise (fun a b => x b ≤ x a) → (∀ t, 0 ≤ y t) →
    ∀ p ∈ panels (ts.map fun t => (x t, y t)), p.1 * p.2 ≤ 0
  | [], _, _, p, hp => by simp [panels] at hp
  | [_], _, _, p, hp => by simp [panels] at hp
  | t :: w :: ts, hx, hy, p, hp => by
    simp only [List.map_cons, panels, List.mem_cons] at hp
    rcases hp with rfl | hp
    · have h1 := (List.pairwise_cons.1 hx).1 w (by simp)
      have h2 : 0 ≤ rd (y w + y t) := rd_nonneg (add_nonneg (hy w) (hy t))
      have h3 : rd (x w - x t) ≤ 0 := by have := rd_mono (by linarith : x w - x t ≤ 0); rwa [rd_zero] at this
      exact mul_nonpos_of_nonneg_of_nonpos h2 h3
    · exact panels_sign (w :: ts) (List.pairwise_cons.1 hx).2 hy p (by simpa using hp)

/-- **C158a.**  ROC AUC in doubles, on columns with both classes, fewer than `2 ^ 32` rows and at least two different scores: there is
a result, and whatever the order in which the machine adds the products, it is not negative and within `2 ^ -52` per different score
(plus three) of the probability that a positive outranks a negative, less half the product of the two shares at the top score. -/
theorem auc_double (rows : List (ℝ × ℕ)) (hb : ∀ r ∈ rows, r.2 = 0 ∨ r.2 = 1)
    (hp : Roc.Spec.positives rows ≠ []) (hn : Roc.Spec.negatives rows ≠ []) (hlen : rows.length < 2 ^ 32)
    (m : ℝ) (hm : m ∈ rows.map Prod.fst) (hmax : ∀ r ∈ rows, r.1 ≤ m) (h2 : ∃ r ∈ rows, r.1 ≠ m) :
    (∃ r, IsRocAuc (rows.map fun r => some r.1) (rows.map fun r => some r.2) r) ∧
    ∀ r, IsRocAuc (rows.map fun r => some r.1) (rows.map fun r => some r.2) r → ∃ v, r = .val v ∧ 0 ≤ v ∧
      |v - (Roc.Spec.auc rows - ((Roc.Spec.positives rows).count m : ℝ) / (Roc.Spec.positives rows).length *
        (((Roc.Spec.negatives rows).count m : ℝ) / (Roc.Spec.negatives rows).length) / 2)| ≤
          (Spec.scores rows + 3 : ℕ) * 2 ^ (-52 : ℤ) := by
  have hex := roc_auc_deficit rows hb hp hn m hm hmax h2
  have hge : ∃ t t' ts, thresholds rows = t :: t' :: ts := by
    obtain ⟨r0, hr0, hr0m⟩ := h2
    have a1 := mem_thresholds.2 hm
    have a2 : r0.1 ∈ thresholds rows := mem_thresholds.2 (List.mem_map_of_mem hr0)
    match h : thresholds rows with
    | [] => rw [h] at a1; simp at a1
    | [t] =>
      rw [h] at a1 a2
      simp only [List.mem_singleton] at a1 a2
      exact absurd (a2.trans a1.symm) hr0m
    | t :: t' :: ts => exact ⟨t, t', ts, rfl⟩
  obtain ⟨t, t', ts, hts⟩ := hge
  constructor
  · obtain ⟨d, hd⟩ := dot_exists ((List.zipWith (fun a b => rd (a + b)) (((thresholds rows).map (dblRow rows)).map (·.tpr)).tail
      (((thresholds rows).map (dblRow rows)).map (·.tpr))).zip (List.zipWith (fun a b => rd (a - b))
      (((thresholds rows).map (dblRow rows)).map (·.fpr)).tail (((thresholds rows).map (dblRow rows)).map (·.fpr))))
    refine ⟨.val (-(rd (1 / 2 * d))), (auc_unfold rows hb hp hn _).2 ⟨_, ?_, rfl⟩⟩
    rw [hts] at hd ⊢
    exact ⟨d, hd, rfl⟩
  · intro r hr
    obtain ⟨v, rfl, hv⟩ := auc_near rows hb hp hn hlen r hr
    refine ⟨v, rfl, ?_, hv _ hex⟩
    obtain ⟨v', hv', he⟩ := (auc_unfold rows hb hp hn _).1 hr
    have he : v = -v' := by injection he
    have hl := length_split rows hb
    have hsort := thresholds_sorted rows
    rw [hts] at hv' hsort
    have hvl : ∃ d, IsDot (panels ((t :: t' :: ts).map fun t => ((dblRow rows t).fpr, (dblRow rows t).tpr))) d ∧ v' = rd (1 / 2 * d) := by
      have z1 : ((((t :: t' :: ts).map (dblRow rows)).map (·.fpr)).zip (((t :: t' :: ts).map (dblRow rows)).map (·.tpr))) =
          (t :: t' :: ts).map fun t => ((dblRow rows t).fpr, (dblRow rows t).tpr) := by
        rw [List.map_map, List.map_map, List.zip_map']; rfl
      rw [← z1, ← zip_panels _ _ (by simp)]
      exact hv'
    obtain ⟨d, hd, rfl⟩ := hvl
    have hd0 := dot_nonpos hd (panels_sign _ (hsort.imp fun h => (ratio_falling _ (by omega) h.le).1) fun t => quot_nonneg _ _)
    have : rd (1 / 2 * d) ≤ 0 := by have := rd_mono (by linarith : 1 / 2 * d ≤ 0); rwa [rd_zero] at this
    linarith

/-- **C158b.**  With one score for all rows the AUC in doubles is exactly one half; without positives or without negatives it is NaN. -/
theorem auc_double_special (rows : List (ℝ × ℕ)) (hb : ∀ r ∈ rows, r.2 = 0 ∨ r.2 = 1) (r : Res ℝ)
    (hr : IsRocAuc (rows.map fun r => some r.1) (rows.map fun r => some r.2) r) :
    (Roc.Spec.positives rows = [] ∨ Roc.Spec.negatives rows = [] → r = .nan) ∧
    (∀ m, Roc.Spec.positives rows ≠ [] → Roc.Spec.negatives rows ≠ [] → (∀ r ∈ rows, r.1 = m) → r = .val (1 / 2)) := by
  have hl := length_split rows hb
  constructor
  · intro h
    have hr' := hr
    unfold IsRocAuc at hr'
    simp only [filterMap_some_snd, sum_snd rows hb] at hr'
    rcases h with h | h
    · rw [h] at hr'
      simpa using hr'
    · rw [h, List.length_nil, add_zero] at hl
      split_ifs at hr' with h0
      · exact hr'
      · have hne : rows ≠ [] := by rintro rfl; exact h0 rfl
        rw [checked_map rows hne] at hr'
        simp only [← hl, if_true] at hr'
        exact hr'
  · intro m hp hn hall
    obtain ⟨v, hv, rfl⟩ := (auc_unfold rows hb hp hn r).1 hr
    have hts : thresholds rows = [m] := by
      have h1 : ∀ t ∈ thresholds rows, t = m := fun t ht => by
        obtain ⟨q, hq, rfl⟩ := List.mem_map.1 (mem_thresholds.1 ht)
        exact hall q hq
      have h3 : thresholds rows ≠ [] := by
        obtain ⟨q, hq⟩ := List.exists_mem_of_ne_nil rows (by rintro rfl; exact hp rfl)
        exact List.ne_nil_of_mem (mem_thresholds.2 (List.mem_map_of_mem hq))
      have h4 := thresholds_sorted rows
      match h : thresholds rows with
      | [] => exact absurd h h3
      | [t] => rw [h] at h1; rw [h1 t (by simp)]
      | t :: u :: ts =>
        rw [h] at h1 h4
        have := (List.pairwise_cons.1 h4).1 u (by simp)
        rw [h1 t (by simp), h1 u (by simp)] at this
        exact absurd this (lt_irrefl _)
    have hP0 : (Roc.Spec.positives rows).length ≠ 0 := by simpa using hp
    have hN0 : (Roc.Spec.negatives rows).length ≠ 0 := by simpa using hn
    have hmin := min_thresholds hts
    have c1 : ((Roc.Spec.negatives rows).countP fun s => decide (m ≤ s)) = (Roc.Spec.negatives rows).length :=
      List.countP_eq_length.2 fun s hs => by simpa using hmin s (neg_mem hs)
    have c2 : ((Roc.Spec.positives rows).countP fun s => decide (m ≤ s)) = (Roc.Spec.positives rows).length :=
      List.countP_eq_length.2 fun s hs => by simpa using hmin s (pos_mem hs)
    rw [hts] at hv
    have hv' : v = rd (rd ((dblRow rows m).tpr * (dblRow rows m).fpr) * -(1 / 2)) := hv
    have x1 : (dblRow rows m).tpr = 1 := by simp only [dblRow, c2]; exact quot_self (Nat.pos_of_ne_zero hP0)
    have y1 : (dblRow rows m).fpr = 1 := by simp only [dblRow, c1]; exact quot_self (Nat.pos_of_ne_zero hN0)
    have hhalf : rd (1 / 2 : ℝ) = 1 / 2 := by
      have := rd_at (x := 1 / 2) (-53) (2 ^ 52) (by norm_num) (by norm_num) (by norm_num) (by norm_num)
      rw [this]; norm_num
    rw [hv', x1, y1, mul_one, rd_one, one_mul, rd_neg, hhalf, neg_neg]

/-- **C158c.**  A null, or columns of different lengths, is an error if some label is one. -/
theorem auc_double_rejects (pred : List (Option ℝ)) (actual : List (Option ℕ)) (r : Res ℝ) (hr : IsRocAuc pred actual r)
    (h1 : some 1 ∈ actual) (h : none ∈ pred ∨ none ∈ actual ∨ pred.length ≠ actual.length) : r = .err := by
  have hs : (actual.filterMap id).sum ≠ 0 := by
    have : 1 ≤ (actual.filterMap id).sum := le_sum_of_mem' (List.mem_filterMap.2 ⟨some 1, h1, rfl⟩)
    omega
  have hc : checked pred actual = none := by
    unfold checked
    by_cases hlen : actual.length ≠ pred.length ∨ actual.isEmpty ∨ pred.isEmpty
    · rw [if_pos hlen]
    rw [if_neg hlen]
    have nn : ∀ {α : Type} (l : List (Option α)), none ∈ l → l.mapM id = none := by
      intro α l
      induction l with
      | nil => simp
      | cons a l ih =>
        intro hm
        rw [List.mapM_cons]
        cases a with
        | none => rfl
        | some a =>
          rw [ih (by simpa using hm)]
          rfl
    push Not at hlen
    rcases h with h | h | h
    · rw [nn pred h]
    · rw [nn actual h]
      cases pred.mapM id <;> rfl
    · exact absurd hlen.1.symm h
  unfold IsRocAuc at hr
  simp only [hc] at hr
  rwa [if_neg hs] at hr

/-! ## Trapezoid integration of double columns -/

theorem rep_grid_exact {n : ℕ} {u : ℝ} (hu : u = unit f64) (h : n ≤ 2 ^ 51) : (1 + u) ^ n - 1 ≤ 2 * n * u ∧ (1 + u) ^ n ≤ 2 := by
  have u0 : 0 ≤ u := hu ▸ (unit_pos f64).le
  have h1 : 2 * (n : ℝ) * u ≤ 1 := by
    rw [hu, unit_eq]
    have : (n : ℝ) ≤ 2 ^ 51 := by exact_mod_cast h
    have := mul_le_mul_of_nonneg_right this (two_zpow_pos (-53)).le
    norm_num at this ⊢
    linarith
  have := pow_bound u0 n h1
  constructor <;> linarith

/-- **C158d.**  Trapezoid integration of two double columns of the same length of at least two (and at most `2 ^ 50`): whatever the
order of adding, the result is within `2 ^ -52` per point (plus two), relative to the sum of the sizes of the trapezoids, of the
area, up to underflow. -/
theorem trapz_double (pts : List (ℝ × ℝ)) (hr : ∀ p ∈ pts, Rep f64 p.1 ∧ Rep f64 p.2) (h2 : 2 ≤ pts.length)
    (hl : pts.length ≤ 2 ^ 50) (r : Trapz.Res ℝ) (h : IsPlTrapz (pts.map fun p => some p.2) (pts.map fun p => some p.1) r) :
    ∃ v, r = .val v ∧ |v - Trapz.Spec.area pts| ≤
      (pts.length + 2 : ℕ) * 2 ^ (-52 : ℤ) * absArea pts + (pts.length + 1 : ℕ) * 2 ^ (-1075 : ℤ) := by
  have h1 := Trapz.mapM_id_some (pts.map Prod.fst)
  have h2' := Trapz.mapM_id_some (pts.map Prod.snd)
  rw [List.map_map] at h1 h2'
  have h1' : (pts.map fun p => some p.1).mapM id = some (pts.map Prod.fst) := h1
  have h2'' : (pts.map fun p => some p.2).mapM id = some (pts.map Prod.snd) := h2'
  unfold IsPlTrapz at h
  rw [if_neg (by rw [List.length_map]; omega), h1', h2''] at h
  obtain ⟨p, q, rest, rfl⟩ : ∃ p q rest, pts = p :: q :: rest := by
    match pts, h2 with
    | p :: q :: rest, _ => exact ⟨p, q, rest, rfl⟩
  simp only [List.map_cons, List.length_cons, List.length_map, if_true] at h
  obtain ⟨v, hv, rfl⟩ := h
  refine ⟨v, rfl, ?_⟩
  have hv' : ∃ d, IsDot ((List.zipWith (fun a b => rd (a + b)) ((p :: q :: rest).map Prod.snd).tail ((p :: q :: rest).map Prod.snd)).zip
    (List.zipWith (fun a b => rd (a - b)) ((p :: q :: rest).map Prod.fst).tail ((p :: q :: rest).map Prod.fst))) d ∧ v = rd (1 / 2 * d) := hv
  obtain ⟨d, hd, rfl⟩ := hv'
  rw [zip_panels _ _ (by simp), Trapz.zip_fst_snd] at hd
  exact half_err _ hr hl (by simp) hd

theorem mapM_id_none {α : Type} {l : List (Option α)} (h : none ∈ l) : l.mapM id = none := by
  induction l with
  | nil => simp at h
  | cons a l ih =>
    cases a with
    | none => rfl
    | some a =>
      have := ih (by simpa using h)
      simp [List.mapM_cons, this]

/-- **C158j.**  What the integral rejects: a column without rows or with a null gives NaN; columns of different lengths, where the second
is not a single step for at least two rows, give an error and nothing else. -/
theorem trapz_double_rejects (y x : List (Option ℝ)) (r : Trapz.Res ℝ) (h : IsPlTrapz y x r) :
    (y = [] ∨ none ∈ y ∨ none ∈ x → r = .nan) ∧
    (y ≠ [] → none ∉ y → none ∉ x → x.length ≠ y.length → x.length ≠ 1 →
      r = .err "Input must have the same length or x must be a scalar.") := by
  unfold IsPlTrapz at h
  constructor
  · intro hc
    by_cases hy : y.length < 1
    · rwa [if_pos hy] at h
    · rw [if_neg hy] at h
      rcases hc with rfl | hc | hc
      · simp at hy
      · rw [mapM_id_none hc] at h
        simpa using h
      · rw [mapM_id_none hc] at h
        cases hm : y.mapM id <;> rw [hm] at h <;> simpa using h
  · intro hy hy' hx' hne h1
    have full : ∀ l : List (Option ℝ), none ∉ l → ∃ v : List ℝ, l = v.map some := by
      intro l
      induction l with
      | nil => intro _; exact ⟨[], rfl⟩
      | cons a l ih =>
        intro hl
        cases a with
        | none => simp at hl
        | some a =>
          obtain ⟨v, rfl⟩ := ih (by simpa using hl)
          exact ⟨a :: v, rfl⟩
    obtain ⟨ys, rfl⟩ := full y hy'
    obtain ⟨xs, rfl⟩ := full x hx'
    rw [if_neg (by
      have : ys ≠ [] := by simpa using hy
      have := List.length_pos_of_ne_nil this
      rw [List.length_map]; omega), Trapz.mapM_id_some, Trapz.mapM_id_some] at h
    rw [List.length_map, List.length_map] at hne
    rw [List.length_map] at h1
    match xs with
    | [] =>
      simp only at h
      rwa [if_neg hne] at h
    | [dx] => simp at h1
    | a :: b :: xs =>
      simp only at h
      rwa [if_neg hne] at h

example : ∃ r, IsPlTrapz [some 1, none] [some 0, some 1] r ∧ r = .nan :=
  ⟨.nan, by unfold IsPlTrapz; simp, rfl⟩

example : ∃ r, IsPlTrapz [some 1, some 2, some 3] [some 0, some 1] r ∧ r = .err "Input must have the same length or x must be a scalar." :=
  ⟨_, by unfold IsPlTrapz; simp, rfl⟩

theorem sum_abs_nonneg (l : List ℝ) : 0 ≤ (l.map abs).sum :=
  List.sum_nonneg (by intro x hx; obtain ⟨p, _, rfl⟩ := List.mem_map.1 hx; exact abs_nonneg _)

theorem abs_sum_le : ∀ l : List ℝ, |l.sum| ≤ (l.map abs).sum
  | [] => by simp
  | a :: l => by
    rw [List.sum_cons, List.map_cons, List.sum_cons]
    exact (abs_add_le _ _).trans (by linarith [abs_sum_le l])

/-- **C158e.**  Trapezoid integration of a double column `a, mid, b` with a scalar step: within `2 ^ -52` per point (plus two),
relative to the sum of the sizes of the terms, of `dx * (a / 2 + sum of mid + b / 2)`, up to underflow. -/
theorem trapz_dx_double (a b dx : ℝ) (mid : List ℝ) (ha : Rep f64 a) (hb : Rep f64 b) (hm : ∀ y ∈ mid, Rep f64 y)
    (hl : mid.length ≤ 2 ^ 50) (r : Trapz.Res ℝ) (h : IsPlTrapz ((a :: (mid ++ [b])).map some) [some dx] r) :
    ∃ v, r = .val v ∧ |v - dx * (a / 2 + mid.sum + b / 2)| ≤
      (mid.length + 4 : ℕ) * 2 ^ (-52 : ℤ) * (|dx| * (|a| / 2 + (mid.map abs).sum + |b| / 2)) + (2 * |dx| + 1) * 2 ^ (-1075 : ℤ) := by
  unfold IsPlTrapz at h
  rw [if_neg (by simp), Trapz.mapM_id_some] at h
  have hx : ([some dx] : List (Option ℝ)).mapM id = some [dx] := rfl
  rw [hx] at h
  simp only at h
  rw [if_pos (by simp)] at h
  refine ⟨_, h, ?_⟩
  have e1 : (a :: (mid ++ [b])).tail.dropLast = mid := by simp
  have e2 : (a :: (mid ++ [b])).head?.getD 0 = a := rfl
  have e3 : (a :: (mid ++ [b])).getLast?.getD 0 = b := by
    rw [← List.cons_append, List.getLast?_append]; rfl
  unfold trapzDx
  simp only [e1, e2, e3]
  obtain ⟨s1, s2⟩ := sum_err rfl mid 0 rep_zero hm
  rw [zero_add, abs_zero, zero_add] at s2
  set s := mid.foldl (fun a b => rd (a + b)) 0
  set B := (mid.map abs).sum
  have B0 : 0 ≤ B := sum_abs_nonneg mid
  have sB : |mid.sum| ≤ B := abs_sum_le mid
  have r1 : |rd (a + b) - (a + b)| ≤ unit f64 * |a + b| := fl_add_err f64 ha hb
  have r2 : |rd (1 / 2 * rd (a + b)) - 1 / 2 * rd (a + b)| ≤ unit f64 * |1 / 2 * rd (a + b)| + tiny f64 := fl_err_mixed f64 _
  have r3 : |rd (s + rd (1 / 2 * rd (a + b))) - (s + rd (1 / 2 * rd (a + b)))| ≤ unit f64 * |s + rd (1 / 2 * rd (a + b))| :=
    fl_add_err f64 s1 (isRep _)
  have r4 : |rd (dx * rd (s + rd (1 / 2 * rd (a + b)))) - dx * rd (s + rd (1 / 2 * rd (a + b)))| ≤
      unit f64 * |dx * rd (s + rd (1 / 2 * rd (a + b)))| + tiny f64 := fl_err_mixed f64 _
  obtain ⟨b1, b2⟩ := rep_grid_exact (n := mid.length + 4) rfl (by omega)
  obtain ⟨b1', b2'⟩ := rep_grid_exact (n := 2) rfl (by norm_num)
  rw [show (2 : ℝ) ^ (-52 : ℤ) = 2 * unit f64 by rw [unit_eq]; norm_num, ← tiny_eq]
  have u0 := (unit_pos f64).le
  have η0 := (tiny_pos f64).le
  have hab := abs_add_le a b
  generalize rd (dx * rd (s + rd (1 / 2 * rd (a + b)))) = v at *
  generalize rd (s + rd (1 / 2 * rd (a + b))) = q at *
  generalize rd (1 / 2 * rd (a + b)) = g at *
  generalize rd (a + b) = f at *
  generalize unit f64 = u at *
  generalize tiny f64 = η at *
  set E := (|a| + |b|) / 2 with hE
  have E0 : 0 ≤ E := by positivity
  set n := mid.length
  have P0 : 1 ≤ (1 + u) ^ n := one_le_pow₀ (by linarith)
  have P2 : 1 + u ≤ (1 + u) ^ (n + 2) / (1 + u) := by
    rw [le_div_iff₀ (by linarith), pow_add]; nlinarith [sq_nonneg (1 + u)]
  -- the ends
  have c1 : |g - (a + b) / 2| ≤ ((1 + u) ^ 2 - 1) * E + η := by
    have t1 : |1 / 2 * f - (a + b) / 2| ≤ u * E := by
      rw [show 1 / 2 * f - (a + b) / 2 = (f - (a + b)) / 2 by ring, abs_div, abs_two, hE]
      have := mul_le_mul_of_nonneg_left hab u0
      linarith
    have t2 : |1 / 2 * f| ≤ (1 + u) * E := by
      have := abs_add_le (1 / 2 * f - (a + b) / 2) ((a + b) / 2)
      rw [sub_add_cancel] at this
      have h3 : |(a + b) / 2| ≤ E := by rw [abs_div, abs_two, hE]; linarith
      linarith
    have t3 := abs_add_le (g - 1 / 2 * f) (1 / 2 * f - (a + b) / 2)
    rw [sub_add_sub_cancel] at t3
    have := mul_le_mul_of_nonneg_left t2 u0
    nlinarith
  -- the sum
  have c2 : |s + g - (a / 2 + mid.sum + b / 2)| ≤ ((1 + u) ^ (n + 2) - 1) * (B + E) + η := by
    have t := abs_add_le (s - mid.sum) (g - (a + b) / 2)
    rw [show s - mid.sum + (g - (a + b) / 2) = s + g - (a / 2 + mid.sum + b / 2) by ring] at t
    have p1 : (1 + u) ^ n ≤ (1 + u) ^ (n + 2) := pow_le_pow_right₀ (by linarith) (by omega)
    have p2 : (1 + u) ^ 2 ≤ (1 + u) ^ (n + 2) := pow_le_pow_right₀ (by linarith) (by omega)
    have q1 := mul_le_mul_of_nonneg_right (sub_le_sub_right p1 1) B0
    have q2 := mul_le_mul_of_nonneg_right (sub_le_sub_right p2 1) E0
    linarith
  have hT : |a / 2 + mid.sum + b / 2| ≤ B + E := by
    have t1 := abs_add_three (a / 2) mid.sum (b / 2)
    rw [abs_div, abs_div, abs_two] at t1
    rw [hE]; linarith
  generalize hTT : a / 2 + mid.sum + b / 2 = T at *
  have c3 : |q - T| ≤ ((1 + u) ^ (n + 3) - 1) * (B + E) + (1 + u) * η := by
    have t1 := abs_add_le (q - (s + g)) (s + g - T)
    rw [sub_add_sub_cancel] at t1
    have t2 := abs_add_le (s + g - T) T
    rw [sub_add_cancel] at t2
    have t3 := mul_le_mul_of_nonneg_left t2 u0
    have t4 := mul_le_mul_of_nonneg_left hT u0
    have t5 := mul_le_mul_of_nonneg_left c2 (by linarith : 0 ≤ 1 + u)
    have t6 : (1 + u) * (((1 + u) ^ (n + 2) - 1) * (B + E) + η) + u * (B + E) =
        ((1 + u) ^ (n + 3) - 1) * (B + E) + (1 + u) * η := by rw [show n + 3 = n + 2 + 1 by ring, pow_succ]; ring
    linarith
  have c4 : |dx * q - dx * T| ≤ |dx| * (((1 + u) ^ (n + 3) - 1) * (B + E) + (1 + u) * η) := by
    rw [← mul_sub, abs_mul]
    exact mul_le_mul_of_nonneg_left c3 (abs_nonneg _)
  have c5 : |v - dx * T| ≤ ((1 + u) ^ (n + 4) - 1) * (|dx| * (B + E)) + (1 + u) ^ 2 * |dx| * η + η := by
    have t1 := abs_add_le (v - dx * q) (dx * q - dx * T)
    rw [sub_add_sub_cancel] at t1
    have t2 := abs_add_le (dx * q - dx * T) (dx * T)
    rw [sub_add_cancel] at t2
    have t3 := mul_le_mul_of_nonneg_left t2 u0
    have t4 : |dx * T| ≤ |dx| * (B + E) := by rw [abs_mul]; exact mul_le_mul_of_nonneg_left hT (abs_nonneg _)
    have t4' := mul_le_mul_of_nonneg_left t4 u0
    have t5 := mul_le_mul_of_nonneg_left c4 (by linarith : 0 ≤ 1 + u)
    have t6 : (1 + u) * (|dx| * (((1 + u) ^ (n + 3) - 1) * (B + E) + (1 + u) * η)) + u * (|dx| * (B + E)) =
        ((1 + u) ^ (n + 4) - 1) * (|dx| * (B + E)) + (1 + u) ^ 2 * |dx| * η := by
      rw [show n + 4 = n + 3 + 1 by ring, pow_succ]; ring
    linarith
  have d0 := abs_nonneg dx
  have w1 := mul_le_mul_of_nonneg_right b1 (mul_nonneg d0 (add_nonneg B0 E0))
  have w2 := mul_le_mul_of_nonneg_right b2' (mul_nonneg d0 η0)
  have hfin : |a| / 2 + B + |b| / 2 = B + E := by rw [hE]; ring
  rw [hfin]
  nlinarith

/-! ## Average precision, precision, recall and F -/

theorem combo_unfold (rows : List (ℝ × ℕ)) (hb : ∀ r ∈ rows, r.2 = 0 ∨ r.2 = 1)
    (hp : Roc.Spec.positives rows ≠ []) (t : ℝ) :
    comboB (rows.map fun r => some r.1) (rows.map fun r => some r.2) t =
      (match ((thresholds rows).map (dblRow rows))[searchIndex ((thresholds rows).map (dblRow rows)) t]? with
      | none => .panic
      | some r => .val ⟨r.precision, r.tpr,
          if rd (r.precision + r.tpr) = 0 then none
          else some (rd (rd (2 * rd (r.precision * r.tpr)) / rd (r.precision + r.tpr))),
          avgPrecision ((thresholds rows).map (dblRow rows))⟩) := by
  have hne : rows ≠ [] := by rintro rfl; exact hp rfl
  have h1 := List.length_pos_iff.2 hp
  unfold comboB
  simp only [filterMap_some_snd, sum_snd rows hb, checked_map rows hne]
  rw [if_neg (by omega), frame_eq rows hb]
  rfl

theorem searchIndex_eq (rows : List (ℝ × ℕ)) (t : ℝ) : ∀ ts : List ℝ,
    searchIndex (ts.map (dblRow rows)) t = searchIndex (ts.map (rocRow rows)) t
  | [] => rfl
  | u :: ts => by
    have ih := searchIndex_eq rows t ts
    unfold searchIndex at ih ⊢
    simp only [List.map_cons, List.takeWhile_cons]
    have e1 : (dblRow rows u).threshold = u := rfl
    have e2 : (rocRow rows u).threshold = u := rfl
    rw [e1, e2]
    split
    · rw [List.length_cons, List.length_cons, ih]
    · rfl

theorem ap_near (rows : List (ℝ × ℕ)) (hb : ∀ r ∈ rows, r.2 = 0 ∨ r.2 = 1) (hp : Roc.Spec.positives rows ≠ [])
    (hlen : rows.length < 2 ^ 32) :
    |avgPrecision ((thresholds rows).map (dblRow rows)) - Roc.avgPrecision ((thresholds rows).map (rocRow rows))| ≤
      (3 * Spec.scores rows : ℕ) * 2 ^ (-53 : ℤ) := by
  have hl := length_split rows hb
  have hP : (Roc.Spec.positives rows).length < 2 ^ 32 := by omega
  have hsort := thresholds_sorted rows
  have hlt := length_thresholds rows
  have hsl := scores_le rows
  have hmem := @mem_thresholds ℝ _ _ rows
  set y : ℝ → ℝ := fun t => (dblRow rows t).tpr with hy
  set p : ℝ → ℝ := fun t => (dblRow rows t).precision with hpp
  set Y : ℝ → ℝ := fun t => (rocRow rows t).tpr with hY
  set P : ℝ → ℝ := fun t => (rocRow rows t).precision with hPP
  have e1 : ((thresholds rows).map (dblRow rows)).map (·.tpr) = (thresholds rows).map y := by rw [List.map_map]; rfl
  have e2 : ((thresholds rows).map (dblRow rows)).map (·.precision) = (thresholds rows).map p := by rw [List.map_map]; rfl
  have e3 : ((thresholds rows).map (rocRow rows)).map (·.tpr) = (thresholds rows).map Y := by rw [List.map_map]; rfl
  have e4 : ((thresholds rows).map (rocRow rows)).map (·.precision) = (thresholds rows).map P := by rw [List.map_map]; rfl
  have hv : avgPrecision ((thresholds rows).map (dblRow rows)) =
      -((steps y p (thresholds rows)).foldl (fun acc p => rd (p.1 * p.2 + acc)) 0) := by
    unfold avgPrecision
    rw [e1, e2, ← steps_eq, List.foldl_map, neg_one_mul, rd_neg]
    congr 1
    have := dot_rep (foldl_dot ((((thresholds rows).map y).zip ((thresholds rows).map y).tail).zip
      ((thresholds rows).map p) |>.map fun q => (rd (q.1.2 - q.1.1), q.2)))
    rw [List.foldl_map] at this
    exact fl_rep f64 this
  have hw : Roc.avgPrecision ((thresholds rows).map (rocRow rows)) = -stepSum Y P (thresholds rows) := by
    unfold Roc.avgPrecision
    rw [e3, e4, avgPrecision_fold, stepSum_eq, zero_add, neg_one_mul]
  rw [hv, hw]
  have hd := dot_err (foldl_dot (steps y p (thresholds rows)))
  rw [length_steps, hlt] at hd
  set v := (steps y p (thresholds rows)).foldl (fun acc p => rd (p.1 * p.2 + acc)) 0
  have fy := fun t => ratio_facts (Roc.Spec.positives rows) hP t
  have my := fun {a b : ℝ} (h : a ≤ b) => ratio_falling (Roc.Spec.positives rows) hP h
  have hcnt : ∀ t, ((Roc.Spec.positives rows).countP fun s => decide (t ≤ s)) ≤ rows.countP fun r => decide (t ≤ r.1) := by
    intro t
    have := countP_split rows hb (fun s => decide (t ≤ s))
    omega
  have hrows : ∀ t, (rows.countP fun r => decide (t ≤ r.1)) ≤ rows.length := fun t => List.countP_le_length
  have ep : ∀ t, |p t - P t| ≤ 2 ^ (-54 : ℤ) := fun t => quot_err (hcnt t) (by have := hrows t; omega)
  have p1 : ∀ t, 0 ≤ p t ∧ p t ≤ 1 := fun t => ⟨quot_nonneg _ _, quot_le_one (hcnt t)⟩
  have P1 : ∀ t, 0 ≤ P t ∧ P t ≤ 1 := fun t => by
    have h1 : 0 ≤ (((Roc.Spec.positives rows).countP fun s => decide (t ≤ s) : ℕ) : ℝ) / ((rows.countP fun r => decide (t ≤ r.1) : ℕ) : ℝ) := by
      positivity
    exact ⟨h1, div_le_one_of_le₀ (by exact_mod_cast hcnt t) (by positivity)⟩
  have hne : ∃ t ts, thresholds rows = t :: ts := by
    obtain ⟨q, hq⟩ := List.exists_mem_of_ne_nil rows (by rintro rfl; exact hp rfl)
    exact List.exists_cons_of_ne_nil (List.ne_nil_of_mem (hmem.2 (List.mem_map_of_mem hq)))
  obtain ⟨t, ts, hts⟩ := hne
  rw [hts] at hd hsort hlt ⊢
  obtain ⟨s1, s2⟩ := steps_err (y := y) (p := p) (Y := Y) (P := P) (two_zpow_pos (-54)).le t ts (hsort.imp fun h => (my h.le).1)
    (fun w _ => (fy w).1) (fun w _ => (fy w).2.1) (fun w _ => ep w) (fun w _ => p1 w) (fun w _ => P1 w)
  have hy1 : y t - y ((t :: ts).getLast (by simp)) ≤ 1 := by
    have h1 : y t ≤ 1 := (fy t).2.2.1.2
    have h2 : 0 ≤ y ((t :: ts).getLast (by simp)) := (fy ((t :: ts).getLast (by simp))).2.2.1.1
    linarith
  have hy0 : 0 ≤ y t - y ((t :: ts).getLast (by simp)) := by
    rcases List.mem_cons.1 (List.getLast_mem (l := t :: ts) (by simp)) with h | h
    · rw [h, sub_self]
    · have := (my ((List.pairwise_cons.1 hsort).1 _ h).le).1
      exact sub_nonneg.2 this
  generalize hz : y t - y ((t :: ts).getLast (by simp)) = z at *
  rw [List.length_cons] at hlt
  have hn : Spec.scores rows - 1 = ts.length := by omega
  rw [hn] at hd
  rw [← hlt]
  rw [show -v - -stepSum Y P (t :: ts) = -((v - exact (steps y p (t :: ts))) + (exact (steps y p (t :: ts)) - stepSum Y P (t :: ts))) by ring,
    abs_neg]
  have tri := abs_add_le (v - exact (steps y p (t :: ts))) (exact (steps y p (t :: ts)) - stepSum Y P (t :: ts))
  obtain ⟨b1, _⟩ := rep_grid_exact (n := ts.length + 1) rfl (by omega)
  obtain ⟨_, b2⟩ := rep_grid_exact (n := ts.length) rfl (by omega)
  have k1 : (ts.length : ℝ) * 2 * tiny f64 ≤ unit f64 / 4 := by
    have h1 : (ts.length : ℝ) ≤ 2 ^ (32 : ℤ) := by
      have : ts.length ≤ 2 ^ 32 := by omega
      exact_mod_cast this
    have h2 : (ts.length : ℝ) * 2 * tiny f64 ≤ 2 ^ (32 : ℤ) * 2 * tiny f64 :=
      mul_le_mul_of_nonneg_right (by linarith) (tiny_pos f64).le
    refine h2.trans ?_
    have h3 : (2 : ℝ) ^ (32 : ℤ) * 2 * tiny f64 = 2 ^ (-1042 : ℤ) := by
      rw [tiny_eq, show (-1042 : ℤ) = 32 + 1 + -1075 by norm_num, zpow_add₀ (by norm_num), zpow_add₀ (by norm_num)]; norm_num
    have h4 : unit f64 / 4 = 2 ^ (-55 : ℤ) := by rw [unit_eq]; norm_num
    rw [h3, h4]
    exact zpow_le_zpow_right₀ (by norm_num) (by norm_num)
  rw [show (2 : ℝ) ^ (-54 : ℤ) = unit f64 / 2 by rw [unit_eq]; norm_num] at s1
  rw [← unit_eq]
  have u0 := (unit_pos f64).le
  have η0 := (tiny_pos f64).le
  generalize unit f64 = u at *
  generalize tiny f64 = η at *
  set n := ts.length
  have Pn : 1 ≤ (1 + u) ^ n := one_le_pow₀ (by linarith)
  have s2' : size (steps y p (t :: ts)) ≤ 1 + u := s2.trans (by nlinarith)
  have s1' : (u + u / 2) * z ≤ u + u / 2 := by nlinarith
  have m1 : ((1 + u) ^ n - 1) * size (steps y p (t :: ts)) ≤ ((1 + u) ^ n - 1) * (1 + u) :=
    mul_le_mul_of_nonneg_left s2' (by linarith)
  have m2 : ((1 + u) ^ n - 1) * (1 + u) = (1 + u) ^ (n + 1) - 1 - u := by rw [pow_succ]; ring
  have m3 : (n : ℝ) * (1 + u) ^ n * η ≤ n * 2 * η :=
    mul_le_mul_of_nonneg_right (mul_le_mul_of_nonneg_left b2 (Nat.cast_nonneg _)) η0
  push_cast at b1 ⊢
  nlinarith

/-- **C158f.**  `query_binary_metrics` in doubles on fewer than `2 ^ 32` rows with a positive, at a threshold that some score reaches:
precision and recall are the doubles nearest to their definitions; F is missing (NaN) exactly if the recall is zero and otherwise
within five units of rounding of the harmonic mean; the average precision is within three units of rounding per different score of
the documented sum without its term for the top score. -/
theorem combo_double (rows : List (ℝ × ℕ)) (hb : ∀ r ∈ rows, r.2 = 0 ∨ r.2 = 1) (hp : Roc.Spec.positives rows ≠ [])
    (hlen : rows.length < 2 ^ 32) (t : ℝ) (ht : ∃ r ∈ rows, t ≤ r.1)
    (ts : List ℝ) (hts : ts.Pairwise (· < ·)) (hmem : ∀ s, s ∈ ts ↔ s ∈ rows.map Prod.fst)
    (m : ℝ) (hm : m ∈ rows.map Prod.fst) (hmax : ∀ r ∈ rows, r.1 ≤ m) :
    ∃ c, comboB (rows.map fun r => some r.1) (rows.map fun r => some r.2) t = .val c ∧
      c.precision = rd (Roc.Spec.precision rows t) ∧ c.recall = rd (Roc.Spec.recall rows t) ∧
      (c.f = none ↔ Roc.Spec.recall rows t = 0) ∧
      (∀ f, c.f = some f → 0 ≤ f ∧ f ≤ 1 ∧ |f - 2 * Roc.Spec.precision rows t * Roc.Spec.recall rows t /
        (Roc.Spec.precision rows t + Roc.Spec.recall rows t)| ≤ 5 * 2 ^ (-53 : ℤ)) ∧
      |c.avgPrecision - (Roc.Spec.avgPrecision rows ts - Roc.Spec.recall rows m * Roc.Spec.precision rows m)| ≤
        (3 * ts.length : ℕ) * 2 ^ (-53 : ℤ) := by
  have hex := binary_metrics_partial rows hb hp t ht
  obtain ⟨c0, hc0, q1, q2, -, -⟩ := hex
  have hap := (avg_precision_partial rows hb hp t c0 hc0 ts hts hmem m hm hmax).1
  rw [comboB_unfold rows hb hp] at hc0
  rw [combo_unfold rows hb hp, searchIndex_eq]
  rcases search_row rows t (thresholds rows) (thresholds_sorted rows) with ⟨u, hu, htu, hg, hiff⟩ | ⟨hall, _⟩
  swap
  · obtain ⟨r, hr, hle⟩ := ht
    exact absurd (hall r.1 (mem_thresholds.2 (List.mem_map_of_mem hr))) (not_lt.2 hle)
  rw [hg] at hc0
  have hc0' : c0 = ⟨(rocRow rows u).precision, (rocRow rows u).tpr,
          if (rocRow rows u).precision + (rocRow rows u).tpr = 0 then none
          else some (2 * ((rocRow rows u).precision * (rocRow rows u).tpr) / ((rocRow rows u).precision + (rocRow rows u).tpr)),
          Roc.avgPrecision ((thresholds rows).map (rocRow rows))⟩ := by
    injection hc0 with h; exact h.symm
  have hgd : ((thresholds rows).map (dblRow rows))[searchIndex ((thresholds rows).map (rocRow rows)) t]? = some (dblRow rows u) := by
    rw [List.getElem?_map] at hg ⊢
    obtain ⟨u', hu', he⟩ := Option.map_eq_some_iff.1 hg
    have : u' = u := congrArg FrameRow.threshold he
    rw [hu', this]; rfl
  rw [hgd]
  have hl := length_split rows hb
  have hP0 : (Roc.Spec.positives rows).length ≠ 0 := by simpa using hp
  have hcnt : ((Roc.Spec.positives rows).countP fun s => decide (u ≤ s)) ≤ rows.countP fun r => decide (u ≤ r.1) := by
    have := countP_split rows hb (fun s => decide (u ≤ s))
    omega
  have hrows : (rows.countP fun r => decide (u ≤ r.1)) ≤ rows.length := List.countP_le_length
  have hpos : ((Roc.Spec.positives rows).countP fun s => decide (u ≤ s)) ≤ (Roc.Spec.positives rows).length := List.countP_le_length
  have q1' : Roc.Spec.precision rows u = Roc.Spec.precision rows t := by rw [← q1, hc0']; rfl
  have q2' : Roc.Spec.recall rows u = Roc.Spec.recall rows t := by rw [← q2, hc0']; rfl
  have d1 : (dblRow rows u).precision = rd (Roc.Spec.precision rows t) := by
    rw [← q1']; exact quot_eq (by omega) (by omega)
  have d2 : (dblRow rows u).tpr = rd (Roc.Spec.recall rows t) := by
    rw [← q2']; exact quot_eq (by omega) (by omega)
  have hfz : rd ((dblRow rows u).precision + (dblRow rows u).tpr) = 0 ↔ Roc.Spec.recall rows t = 0 := by
    rw [← q2']
    have hz : Roc.Spec.recall rows u = 0 ↔ ((Roc.Spec.positives rows).countP fun s => decide (u ≤ s)) = 0 := by
      unfold Roc.Spec.recall
      rw [div_eq_zero_iff]
      simp only [Nat.cast_eq_zero, hP0, or_false]
    rw [hz]
    constructor
    · intro h
      by_contra hc
      have h1 := quot_pos (Nat.pos_of_ne_zero hc) hpos (by omega)
      have h2 := quot_nonneg ((Roc.Spec.positives rows).countP fun s => decide (u ≤ s)) (rows.countP fun r => decide (u ≤ r.1))
      have h3 : (2 : ℝ) ^ (-53 : ℤ) ≤ (dblRow rows u).precision + (dblRow rows u).tpr := by
        change (2 : ℝ) ^ (-53 : ℤ) ≤ quot _ _ + quot _ _
        linarith
      have := rd_mono h3
      rw [rd_two53, h] at this
      exact absurd this (not_le.2 (two_zpow_pos _))
    · intro h
      change rd (quot ((Roc.Spec.positives rows).countP fun s => decide (u ≤ s)) _ + quot ((Roc.Spec.positives rows).countP fun s => decide (u ≤ s)) _) = 0
      rw [h, quot_zero, quot_zero, add_zero, rd_zero]
  refine ⟨_, rfl, d1, d2, ?_, ?_, ?_⟩
  · rw [← hfz]
    simp only
    split_ifs with h <;> simp [h]
  · intro f hf
    simp only at hf
    split_ifs at hf with h0
    have hf : rd (rd (2 * rd ((dblRow rows u).precision * (dblRow rows u).tpr)) / rd ((dblRow rows u).precision + (dblRow rows u).tpr)) = f := by
      injection hf
    rw [hfz, ← q2'] at h0
    have hc : 0 < (Roc.Spec.positives rows).countP fun s => decide (u ≤ s) := by
      rcases Nat.eq_zero_or_pos ((Roc.Spec.positives rows).countP fun s => decide (u ≤ s)) with h | h
      · exact absurd (by unfold Roc.Spec.recall; rw [h]; simp) h0
      · exact h
    have e1 := quot_rel hc hpos (by omega)
    have e2 := quot_rel hc hcnt (by omega)
    have e1' := quot_err hpos (by omega)
    have e2' := quot_err hcnt (by omega)
    have l1 := share_pos hc (b := (Roc.Spec.positives rows).length) (by omega) (by omega)
    have l2 := share_pos hc (b := rows.countP fun r => decide (u ≤ r.1)) (by omega) (by omega)
    have T0 := (two_zpow_pos _).trans_le l1
    have P0 := (two_zpow_pos _).trans_le l2
    have hcore := f1_core (isRep _) (half_le l2 e2) (half_le l1 e1) (quot_le_one hcnt) (quot_le_one hpos) P0 T0 e2' e1'
    have hpl := half_le l2 e2
    have htl := half_le l1 e1
    have hswap : rd (2 * rd ((dblRow rows u).precision * (dblRow rows u).tpr)) =
        rd (rd (2 * (dblRow rows u).precision) * (dblRow rows u).tpr) := by
      rw [rd_two_mul (isRep _), rd_two_mul (show Rep f64 (dblRow rows u).precision from isRep _)]
      have hlow : (2 : ℝ) ^ (-1000 : ℤ) ≤ |(dblRow rows u).precision * (dblRow rows u).tpr| := by
        have h1 : (2 : ℝ) ^ (-33 : ℤ) ≤ (dblRow rows u).precision := hpl
        have h2 : (2 : ℝ) ^ (-33 : ℤ) ≤ (dblRow rows u).tpr := htl
        have h3 : (2 : ℝ) ^ (-33 : ℤ) * 2 ^ (-33 : ℤ) ≤ (dblRow rows u).precision * (dblRow rows u).tpr :=
          mul_le_mul h1 h2 (two_zpow_pos _).le ((two_zpow_pos _).le.trans h1)
        refine le_trans ?_ (h3.trans (le_abs_self _))
        rw [← zpow_add₀ (by norm_num)]
        exact zpow_le_zpow_right₀ (by norm_num) (by norm_num)
      have := rd_scale (x := (dblRow rows u).precision * (dblRow rows u).tpr) 1 hlow (by rw [zpow_one]; linarith [abs_nonneg ((dblRow rows u).precision * (dblRow rows u).tpr)])
      rw [zpow_one] at this
      rw [← this, mul_assoc]
    rw [hswap] at hf
    rw [← hf, ← q1', ← q2']
    exact ⟨hcore.2.1, hcore.2.2.1, hcore.2.2.2⟩
  · have hts' : ts.length = Spec.scores rows := by
      have h1 : ts.Nodup := hts.imp fun h => ne_of_lt h
      have h2 : (rows.map Prod.fst).dedup.Nodup := List.nodup_dedup _
      exact ((List.perm_ext_iff_of_nodup h1 h2).2 fun s => by rw [hmem, List.mem_dedup]).length_eq
    rw [hts', ← hap, hc0']
    exact ap_near rows hb hp hlen

/-- **C158g.**  Above every score the expression panics, in doubles as well. -/
theorem combo_double_panics (rows : List (ℝ × ℕ)) (hb : ∀ r ∈ rows, r.2 = 0 ∨ r.2 = 1)
    (hp : Roc.Spec.positives rows ≠ []) (t : ℝ) (ht : ∀ r ∈ rows, r.1 < t) :
    comboB (rows.map fun r => some r.1) (rows.map fun r => some r.2) t = .panic := by
  rw [combo_unfold rows hb hp, searchIndex_eq]
  rcases search_row rows t (thresholds rows) (thresholds_sorted rows) with ⟨u, hu, htu, _, _⟩ | ⟨_, hg⟩
  · obtain ⟨r, hr, rfl⟩ := List.mem_map.1 (mem_thresholds.1 hu)
    exact absurd (ht r hr) (not_lt.2 htu)
  · rw [List.getElem?_map] at hg ⊢
    rw [Option.map_eq_none_iff] at hg
    rw [hg]; rfl

/-! ## A perfect ranking whose AUC in doubles is below one -/

theorem rd_tie {x : ℝ} (k m : ℤ) (h1 : (2 : ℝ) ^ (k + 52) ≤ x) (h2 : x < 2 ^ (k + 53)) (h4 : -1074 ≤ k)
    (h : x / 2 ^ k = m + 1 / 2) (he : Even m) : rd x = m * 2 ^ k := by
  have hu : ulp f64 x = k := ulp_eq (e := k + 52) h1 (by rwa [show k + 52 + 1 = k + 53 by ring]) (by simp [f64]) (by simpa [f64] using h4)
  have hfl : ⌊(m : ℝ) + 1 / 2⌋ = m := by rw [Int.floor_eq_iff]; constructor <;> linarith
  have hfr : Int.fract ((m : ℝ) + 1 / 2) = 1 / 2 := by rw [Int.fract, hfl]; ring
  have hr : rne ((m : ℝ) + 1 / 2) = m := by
    unfold rne
    rw [hfr, hfl, if_neg (by norm_num), if_neg (by norm_num), if_pos he]
  unfold rd fl
  rw [hu, h, hr]

/-- The rounded sums of the three terms of the witness, in units of `2 ^ -55`, by which terms are in. -/
def tab (i j k : ℕ) : ℕ :=
  if i = 0 then
    if j = 0 then if k = 0 then 0 else 12009599006321322
    else if k = 0 then 18014398509481984 else 30023997515803304
  else
    if j = 0 then if k = 0 then 42033596522124624 else 54043195528445944
    else if k = 0 then 60047995031606608 else 72057594037927928

theorem tab_sum (a b c d e f : ℕ) (h1 : a + b ≤ 1) (h2 : c + d ≤ 1) (h3 : e + f ≤ 1) :
    rd ((tab a c e : ℝ) * 2 ^ (-55 : ℤ) + tab b d f * 2 ^ (-55 : ℤ)) = tab (a + b) (c + d) (e + f) * 2 ^ (-55 : ℤ) := by
  have g0 : rd ((0 : ℝ) * 2 ^ (-55 : ℤ)) = 0 * 2 ^ (-55 : ℤ) := by rw [zero_mul, rd_zero]
  have gA : rd ((42033596522124624 : ℝ) * 2 ^ (-55 : ℤ)) = 42033596522124624 * 2 ^ (-55 : ℤ) := by
    rw [rd_at (-52) 5254199565265578 (by norm_num) (by norm_num) (by norm_num) (by norm_num)]; norm_num
  have gB : rd ((18014398509481984 : ℝ) * 2 ^ (-55 : ℤ)) = 18014398509481984 * 2 ^ (-55 : ℤ) := by
    rw [rd_at (-53) 4503599627370496 (by norm_num) (by norm_num) (by norm_num) (by norm_num)]; norm_num
  have gC : rd ((12009599006321322 : ℝ) * 2 ^ (-55 : ℤ)) = 12009599006321322 * 2 ^ (-55 : ℤ) := by
    rw [rd_at (-54) 6004799503160661 (by norm_num) (by norm_num) (by norm_num) (by norm_num)]; norm_num
  have gAB : rd ((60047995031606608 : ℝ) * 2 ^ (-55 : ℤ)) = 60047995031606608 * 2 ^ (-55 : ℤ) := by
    rw [rd_at (-52) 7505999378950826 (by norm_num) (by norm_num) (by norm_num) (by norm_num)]; norm_num
  have gAC : rd ((54043195528445946 : ℝ) * 2 ^ (-55 : ℤ)) = 54043195528445944 * 2 ^ (-55 : ℤ) := by
    rw [rd_at (-52) 6755399441055743 (by norm_num) (by norm_num) (by norm_num) (by norm_num [abs_lt])]; norm_num
  have gAC' : rd ((54043195528445944 : ℝ) * 2 ^ (-55 : ℤ)) = 54043195528445944 * 2 ^ (-55 : ℤ) := by
    rw [rd_at (-52) 6755399441055743 (by norm_num) (by norm_num) (by norm_num) (by norm_num)]; norm_num
  have gBC : rd ((30023997515803306 : ℝ) * 2 ^ (-55 : ℤ)) = 30023997515803304 * 2 ^ (-55 : ℤ) := by
    rw [rd_tie (-53) 7505999378950826 (by norm_num) (by norm_num) (by norm_num) (by norm_num) (by decide)]; norm_num
  have gBC' : rd ((30023997515803304 : ℝ) * 2 ^ (-55 : ℤ)) = 30023997515803304 * 2 ^ (-55 : ℤ) := by
    rw [rd_at (-53) 7505999378950826 (by norm_num) (by norm_num) (by norm_num) (by norm_num)]; norm_num
  have gABC : rd ((72057594037927930 : ℝ) * 2 ^ (-55 : ℤ)) = 72057594037927928 * 2 ^ (-55 : ℤ) := by
    rw [rd_at (-52) 9007199254740991 (by norm_num) (by norm_num) (by norm_num) (by norm_num [abs_lt])]; norm_num
  have gABC' : rd ((72057594037927928 : ℝ) * 2 ^ (-55 : ℤ)) = 72057594037927928 * 2 ^ (-55 : ℤ) := by
    rw [rd_at (-52) 9007199254740991 (by norm_num) (by norm_num) (by norm_num) (by norm_num)]; norm_num
  rw [← add_mul, ← Nat.cast_add]
  have hcase : ∀ n m : ℕ, (n, m) ∈ ([(0, 0), (42033596522124624, 42033596522124624), (18014398509481984, 18014398509481984),
      (12009599006321322, 12009599006321322), (60047995031606608, 60047995031606608), (54043195528445946, 54043195528445944),
      (54043195528445944, 54043195528445944), (30023997515803306, 30023997515803304), (30023997515803304, 30023997515803304),
      (72057594037927930, 72057594037927928), (72057594037927928, 72057594037927928)] : List (ℕ × ℕ)) →
      rd ((n : ℝ) * 2 ^ (-55 : ℤ)) = m * 2 ^ (-55 : ℤ) := by
    intro n m h
    simp only [List.mem_cons, Prod.mk.injEq, List.not_mem_nil, or_false] at h
    rcases h with ⟨rfl, rfl⟩ | ⟨rfl, rfl⟩ | ⟨rfl, rfl⟩ | ⟨rfl, rfl⟩ | ⟨rfl, rfl⟩ | ⟨rfl, rfl⟩ | ⟨rfl, rfl⟩ | ⟨rfl, rfl⟩ | ⟨rfl, rfl⟩ |
      ⟨rfl, rfl⟩ | ⟨rfl, rfl⟩ <;> push_cast <;> assumption
  refine hcase _ _ ?_
  have k1 : (a = 0 ∧ b = 0) ∨ (a = 1 ∧ b = 0) ∨ (a = 0 ∧ b = 1) := by omega
  have k2 : (c = 0 ∧ d = 0) ∨ (c = 1 ∧ d = 0) ∨ (c = 0 ∧ d = 1) := by omega
  have k3 : (e = 0 ∧ f = 0) ∨ (e = 1 ∧ f = 0) ∨ (e = 0 ∧ f = 1) := by omega
  rcases k1 with ⟨rfl, rfl⟩ | ⟨rfl, rfl⟩ | ⟨rfl, rfl⟩ <;> rcases k2 with ⟨rfl, rfl⟩ | ⟨rfl, rfl⟩ | ⟨rfl, rfl⟩ <;>
    rcases k3 with ⟨rfl, rfl⟩ | ⟨rfl, rfl⟩ | ⟨rfl, rfl⟩ <;> decide +kernel

/-- The three terms of the witness. -/
noncomputable def term (n : ℕ) : ℝ × ℝ := (2, -((n : ℝ) * 2 ^ (-55 : ℤ)))

open Classical in
theorem dot_tab {l : List (ℝ × ℝ)} {v : ℝ} (h : IsDot l v) :
    (∀ p ∈ l, p = term 21016798261062312 ∨ p = term 9007199254740992 ∨ p = term 6004799503160661) →
    (l.countP fun p => decide (p = term 21016798261062312)) ≤ 1 → (l.countP fun p => decide (p = term 9007199254740992)) ≤ 1 →
    (l.countP fun p => decide (p = term 6004799503160661)) ≤ 1 →
    v = -((tab (l.countP fun p => decide (p = term 21016798261062312)) (l.countP fun p => decide (p = term 9007199254740992))
      (l.countP fun p => decide (p = term 6004799503160661)) : ℝ) * 2 ^ (-55 : ℤ)) := by
  have inj : ∀ n m : ℕ, n ≠ m → term n ≠ term m := by
    intro n m hnm h
    have := congrArg Prod.snd h
    simp only [term, neg_inj] at this
    exact hnm (by exact_mod_cast mul_right_cancel₀ (two_zpow_pos (-55)).ne' this)
  have n1 := inj 21016798261062312 9007199254740992 (by norm_num)
  have n2 := inj 21016798261062312 6004799503160661 (by norm_num)
  have n3 := inj 9007199254740992 6004799503160661 (by norm_num)
  have val : ∀ n : ℕ, (term n).1 * (term n).2 = -(((2 * n : ℕ) : ℝ) * 2 ^ (-55 : ℤ)) := by
    intro n; simp only [term]; push_cast; ring
  induction h with
  | nil => intros; simp [tab]
  | term a b =>
    intro hm _ _ _
    have hp := hm (a, b) (by simp)
    have hz : ∀ i j k : ℕ, i ≤ 1 → j ≤ 1 → k ≤ 1 → rd (-((tab i j k : ℝ) * 2 ^ (-55 : ℤ))) = -((tab i j k : ℝ) * 2 ^ (-55 : ℤ)) := by
      intro i j k hi hj hk
      have := tab_sum i 0 j 0 k 0 (by omega) (by omega) (by omega)
      rw [show tab 0 0 0 = 0 from rfl, Nat.cast_zero, zero_mul, add_zero] at this
      rw [rd_neg, this]
      rfl
    have hv : ∀ n, (a, b) = term n → a * b = -(((2 * n : ℕ) : ℝ) * 2 ^ (-55 : ℤ)) := fun n h => by
      rw [← val n, ← h]
    rcases hp with h | h | h
    · rw [hv _ h, List.countP_singleton, List.countP_singleton, List.countP_singleton]
      simp only [h, n1, n2, decide_true, decide_false, if_true, Bool.false_eq_true, if_false]
      exact hz 1 0 0 (by norm_num) (by norm_num) (by norm_num)
    · rw [hv _ h, List.countP_singleton, List.countP_singleton, List.countP_singleton]
      simp only [h, n1.symm, n3, decide_true, decide_false, if_true, Bool.false_eq_true, if_false]
      exact hz 0 1 0 (by norm_num) (by norm_num) (by norm_num)
    · rw [hv _ h, List.countP_singleton, List.countP_singleton, List.countP_singleton]
      simp only [h, n2.symm, n3.symm, decide_true, decide_false, if_true, Bool.false_eq_true, if_false]
      exact hz 0 0 1 (by norm_num) (by norm_num) (by norm_num)
  | add h₁ h₂ ih₁ ih₂ =>
    intro hm ha hb hc
    rw [List.countP_append] at ha hb hc
    rw [ih₁ (fun p hp => hm p (by simp [hp])) (by omega) (by omega) (by omega),
      ih₂ (fun p hp => hm p (by simp [hp])) (by omega) (by omega) (by omega), List.countP_append, List.countP_append,
      List.countP_append, ← tab_sum _ _ _ _ _ _ ha hb hc, ← rd_neg, neg_add]
  | @fma l v a b h ih =>
    intro hm ha hb hc
    rw [List.countP_cons] at ha hb hc
    have hp := hm (a, b) (by simp)
    have hv : ∀ n, (a, b) = term n → a * b = -(((2 * n : ℕ) : ℝ) * 2 ^ (-55 : ℤ)) := fun n h => by
      rw [← val n, ← h]
    rw [ih (fun p hp => hm p (by simp [hp])) (by omega) (by omega) (by omega), List.countP_cons, List.countP_cons, List.countP_cons]
    rcases hp with h | h | h
    · rw [hv _ h]
      simp only [h, n1, n2, decide_true, decide_false, if_true, Bool.false_eq_true, if_false] at ha hb hc ⊢
      rw [← neg_add, rd_neg]
      revert ha hb hc
      generalize (l.countP fun p => decide (p = term 21016798261062312)) = i
      generalize (l.countP fun p => decide (p = term 9007199254740992)) = j
      generalize (l.countP fun p => decide (p = term 6004799503160661)) = k
      intro ha hb hc
      have := tab_sum 1 i 0 j 0 k (by omega) (by omega) (by omega)
      rw [add_comm i, add_comm j, add_comm k, ← this]
      rfl
    · rw [hv _ h]
      simp only [h, n1.symm, n3, decide_true, decide_false, if_true, Bool.false_eq_true, if_false] at ha hb hc ⊢
      rw [← neg_add, rd_neg]
      revert ha hb hc
      generalize (l.countP fun p => decide (p = term 21016798261062312)) = i
      generalize (l.countP fun p => decide (p = term 9007199254740992)) = j
      generalize (l.countP fun p => decide (p = term 6004799503160661)) = k
      intro ha hb hc
      have := tab_sum 0 i 1 j 0 k (by omega) (by omega) (by omega)
      rw [add_comm i, add_comm j, add_comm k, ← this]
      rfl
    · rw [hv _ h]
      simp only [h, n2.symm, n3.symm, decide_true, decide_false, if_true, Bool.false_eq_true, if_false] at ha hb hc ⊢
      rw [← neg_add, rd_neg]
      revert ha hb hc
      generalize (l.countP fun p => decide (p = term 21016798261062312)) = i
      generalize (l.countP fun p => decide (p = term 9007199254740992)) = j
      generalize (l.countP fun p => decide (p = term 6004799503160661)) = k
      intro ha hb hc
      have := tab_sum 0 i 0 j 1 k (by omega) (by omega) (by omega)
      rw [add_comm i, add_comm j, add_comm k, ← this]
      rfl
  | perm hp _ ih =>
    intro hm ha hb hc
    rw [← hp.countP_eq] at ha hb hc ⊢
    rw [← hp.countP_eq, ← hp.countP_eq]
    exact ih (fun p h => hm p (hp.mem_iff.1 h)) ha hb hc

/-- Twelve negatives with the scores 1, 2 and 3, and a positive with the score 4. -/
def perfect : List (ℝ × ℕ) := List.replicate 7 (1, 0) ++ List.replicate 3 (2, 0) ++ List.replicate 2 (3, 0) ++ [(4, 1)]

theorem perfect_pos : Roc.Spec.positives perfect = [4] := by
  simp [Roc.Spec.positives, perfect, List.replicate]

theorem perfect_neg : Roc.Spec.negatives perfect = List.replicate 7 1 ++ List.replicate 3 2 ++ List.replicate 2 3 := by
  simp [Roc.Spec.negatives, perfect, List.replicate]

theorem perfect_bin : ∀ r ∈ perfect, r.2 = 0 ∨ r.2 = 1 := by
  intro r hr
  simp [perfect, List.replicate] at hr
  rcases hr with rfl | rfl | rfl | rfl <;> simp

theorem perfect_thresholds : thresholds perfect = [1, 2, 3, 4] := by
  have hs : ([1, 2, 3, 4] : List ℝ).Pairwise (· < ·) := by norm_num
  refine List.Perm.eq_of_pairwise (le := (· ≤ ·)) (fun a b _ _ h1 h2 => le_antisymm h1 h2)
    ((thresholds_sorted perfect).imp fun h => h.le) (hs.imp fun h => h.le) ?_
  refine (List.perm_ext_iff_of_nodup ((thresholds_sorted perfect).imp fun h => ne_of_lt h) (hs.imp fun h => ne_of_lt h)).2 fun s => ?_
  rw [mem_thresholds]
  simp [perfect, List.replicate]

open Classical in
/-- **C158h.**  A perfect ranking need not have AUC one in doubles: for twelve negatives with three scores below a positive, every
order of adding gives the double below one. -/
theorem auc_double_perfect_wrong : ∃ rows : List (ℝ × ℕ), (∀ r ∈ rows, r.2 = 0 ∨ r.2 = 1) ∧ rows.length = 13 ∧
    (∀ p ∈ Roc.Spec.positives rows, ∀ q ∈ Roc.Spec.negatives rows, q < p) ∧ Roc.Spec.auc rows = 1 ∧
    (∃ r, IsRocAuc (rows.map fun r => some r.1) (rows.map fun r => some r.2) r) ∧
    ∀ r, IsRocAuc (rows.map fun r => some r.1) (rows.map fun r => some r.2) r → r = .val (1 - 2 ^ (-53 : ℤ)) := by
  have hp : Roc.Spec.positives perfect ≠ [] := by rw [perfect_pos]; simp
  have hn : Roc.Spec.negatives perfect ≠ [] := by rw [perfect_neg]; simp
  have hlt : ∀ p ∈ Roc.Spec.positives perfect, ∀ q ∈ Roc.Spec.negatives perfect, q < p := by
    rw [perfect_pos, perfect_neg]
    intro p h q hq
    simp [List.replicate] at h hq
    subst h
    rcases hq with rfl | rfl | rfl <;> norm_num
  have hlen : perfect.length = 13 := by simp [perfect]
  refine ⟨perfect, perfect_bin, hlen, hlt, ?_, ?_, ?_⟩
  · have hw := wins_const (Roc.Spec.positives perfect) (Roc.Spec.negatives perfect) (1 : ℝ) (fun x hx y hy => by
      have := hlt x hx y hy
      simp [MWU.Spec.score, this])
    rw [Roc.Spec.auc, hw]
    have h1 : ((Roc.Spec.positives perfect).length : ℝ) ≠ 0 := by simpa using hp
    have h2 : ((Roc.Spec.negatives perfect).length : ℝ) ≠ 0 := by simpa using hn
    field_simp
  · refine (auc_double perfect perfect_bin hp hn (by rw [hlen]; norm_num) 4 (by simp [perfect]) ?_ ⟨(1, 0), by simp [perfect], by norm_num⟩).1
    intro r hr
    simp [perfect, List.replicate] at hr
    rcases hr with rfl | rfl | rfl | rfl <;> norm_num
  · intro r hr
    obtain ⟨v, hv, rfl⟩ := (auc_unfold perfect perfect_bin hp hn r).1 hr
    have n12 : (Roc.Spec.negatives perfect).length = 12 := by rw [perfect_neg]; simp
    have n1 : (Roc.Spec.positives perfect).length = 1 := by rw [perfect_pos]; simp
    have c1 : ((Roc.Spec.negatives perfect).countP fun s => decide ((1 : ℝ) ≤ s)) = 12 := by
      rw [perfect_neg]; norm_num [List.replicate, List.countP_cons]
    have c2 : ((Roc.Spec.negatives perfect).countP fun s => decide ((2 : ℝ) ≤ s)) = 5 := by
      rw [perfect_neg]; norm_num [List.replicate, List.countP_cons]
    have c3 : ((Roc.Spec.negatives perfect).countP fun s => decide ((3 : ℝ) ≤ s)) = 2 := by
      rw [perfect_neg]; norm_num [List.replicate, List.countP_cons]
    have c4 : ((Roc.Spec.negatives perfect).countP fun s => decide ((4 : ℝ) ≤ s)) = 0 := by
      rw [perfect_neg]; norm_num [List.replicate, List.countP_cons]
    have p4 : ∀ t : ℝ, t ≤ 4 → ((Roc.Spec.positives perfect).countP fun s => decide (t ≤ s)) = 1 := by
      intro t ht
      rw [perfect_pos]; simp [ht]
    have y1 : ∀ t : ℝ, t ≤ 4 → (dblRow perfect t).tpr = 1 := by
      intro t ht
      simp only [dblRow, p4 t ht, n1]; exact quot_self (by norm_num)
    have x1 : (dblRow perfect 1).fpr = 1 := by simp only [dblRow, c1, n12]; exact quot_self (by norm_num)
    have x2 : (dblRow perfect 2).fpr = 7505999378950827 * 2 ^ (-54 : ℤ) := by
      simp only [dblRow, c2, n12]
      rw [quot_eq (by norm_num) (by norm_num), rd_at (-54) 7505999378950827 (by norm_num) (by norm_num) (by norm_num) (by norm_num [abs_lt])]
      norm_num
    have x3 : (dblRow perfect 3).fpr = 6004799503160661 * 2 ^ (-55 : ℤ) := by
      simp only [dblRow, c3, n12]
      rw [quot_eq (by norm_num) (by norm_num), rd_at (-55) 6004799503160661 (by norm_num) (by norm_num) (by norm_num) (by norm_num [abs_lt])]
      norm_num
    have x4 : (dblRow perfect 4).fpr = 0 := by simp only [dblRow, c4, n12]; exact quot_zero _
    rw [perfect_thresholds] at hv
    obtain ⟨d, hd, rfl⟩ := hv
    simp only [List.map_cons, List.map_nil, List.tail_cons, List.zipWith_cons_cons, List.zipWith_nil_left, List.zip_cons_cons,
      List.zip_nil_left, x1, x2, x3, x4, y1 1 (by norm_num), y1 2 (by norm_num), y1 3 (by norm_num), y1 4 (by norm_num)] at hd
    have r2 : rd (1 + 1) = 2 := by
      have := rd_nat (n := 2) (by norm_num)
      rw [show (1 : ℝ) + 1 = ((2 : ℕ) : ℝ) by norm_num, this]; norm_num
    have dA : rd (7505999378950827 * 2 ^ (-54 : ℤ) - 1) = -(((21016798261062312 : ℕ) : ℝ) * 2 ^ (-55 : ℤ)) := by
      rw [show (7505999378950827 * (2 : ℝ) ^ (-54 : ℤ) - 1) = -(10508399130531157 * 2 ^ (-54 : ℤ)) by norm_num, rd_neg,
        rd_tie (-53) 5254199565265578 (by norm_num) (by norm_num) (by norm_num) (by norm_num) (by decide)]
      norm_num
    have dB : rd (6004799503160661 * 2 ^ (-55 : ℤ) - 7505999378950827 * 2 ^ (-54 : ℤ)) = -(((9007199254740992 : ℕ) : ℝ) * 2 ^ (-55 : ℤ)) := by
      rw [show (6004799503160661 * (2 : ℝ) ^ (-55 : ℤ) - 7505999378950827 * 2 ^ (-54 : ℤ)) = -(9007199254740993 * 2 ^ (-55 : ℤ)) by norm_num,
        rd_neg, rd_tie (-54) 4503599627370496 (by norm_num) (by norm_num) (by norm_num) (by norm_num) (by decide)]
      norm_num
    have dC : rd (0 - 6004799503160661 * 2 ^ (-55 : ℤ)) = -(((6004799503160661 : ℕ) : ℝ) * 2 ^ (-55 : ℤ)) := by
      rw [zero_sub, rd_neg, rd_at (-55) 6004799503160661 (by norm_num) (by norm_num) (by norm_num) (by norm_num)]
      norm_num
    rw [r2, dA, dB, dC] at hd
    have hd' : IsDot [term 21016798261062312, term 9007199254740992, term 6004799503160661] d := hd
    have inj : ∀ n m : ℕ, n ≠ m → term n ≠ term m := by
      intro n m hnm h
      have := congrArg Prod.snd h
      simp only [term, neg_inj] at this
      exact hnm (by exact_mod_cast mul_right_cancel₀ (two_zpow_pos (-55)).ne' this)
    have n1 := inj 21016798261062312 9007199254740992 (by norm_num)
    have n2 := inj 21016798261062312 6004799503160661 (by norm_num)
    have n3 := inj 9007199254740992 6004799503160661 (by norm_num)
    have e1 : ([term 21016798261062312, term 9007199254740992, term 6004799503160661].countP
        fun p => decide (p = term 21016798261062312)) = 1 := by simp [n1.symm, n2.symm]
    have e2 : ([term 21016798261062312, term 9007199254740992, term 6004799503160661].countP
        fun p => decide (p = term 9007199254740992)) = 1 := by simp [n1, n3.symm]
    have e3 : ([term 21016798261062312, term 9007199254740992, term 6004799503160661].countP
        fun p => decide (p = term 6004799503160661)) = 1 := by simp [n2, n3]
    have hd := dot_tab hd' (by intro p hp; simpa using hp) e1.le e2.le e3.le
    rw [e1, e2, e3] at hd
    rw [hd, show tab 1 1 1 = 72057594037927928 from rfl,
      show (1 / 2 : ℝ) * -(((72057594037927928 : ℕ) : ℝ) * 2 ^ (-55 : ℤ)) = -(1 - 2 ^ (-53 : ℤ)) by norm_num, rd_neg, rd_below, neg_neg]

/-! ## The hypotheses can be met -/

private theorem repN (n : ℕ) (h : n ≤ 2 ^ 53) : Rep f64 (n : ℝ) := by rw [← rd_nat h]; exact isRep _

/-- The hypotheses of `auc_double` hold for the rows of `perfect`, where the share of the negatives at the top score is zero. -/
example : (∀ r ∈ perfect, r.2 = 0 ∨ r.2 = 1) ∧ Roc.Spec.positives perfect ≠ [] ∧ Roc.Spec.negatives perfect ≠ [] ∧
    perfect.length < 2 ^ 32 ∧ (4 : ℝ) ∈ perfect.map Prod.fst ∧ (∃ r ∈ perfect, r.1 ≠ 4) ∧ (Roc.Spec.negatives perfect).count 4 = 0 :=
  ⟨perfect_bin, by rw [perfect_pos]; simp, by rw [perfect_neg]; simp, by simp [perfect], by simp [perfect],
    ⟨(1, 0), by simp [perfect], by norm_num⟩, by rw [perfect_neg]; norm_num [List.replicate]⟩

/-- One score for a positive and a negative: exactly one half. -/
example : IsRocAuc [some 3, some 3] [some 0, some 1] (.val (1 / 2)) := by
  have hb : ∀ r ∈ [((3 : ℝ), 0), (3, 1)], r.2 = 0 ∨ r.2 = 1 := by simp
  have hp : Roc.Spec.positives [((3 : ℝ), 0), (3, 1)] ≠ [] := by simp [Roc.Spec.positives]
  have hn : Roc.Spec.negatives [((3 : ℝ), 0), (3, 1)] ≠ [] := by simp [Roc.Spec.negatives]
  have hts : thresholds [((3 : ℝ), 0), (3, 1)] = [3] := by simp [thresholds]
  have hex : ∃ v, IsTrapz (((thresholds [((3 : ℝ), 0), (3, 1)]).map (dblRow [((3 : ℝ), 0), (3, 1)])).map (·.tpr))
      (((thresholds [((3 : ℝ), 0), (3, 1)]).map (dblRow [((3 : ℝ), 0), (3, 1)])).map (·.fpr)) v := by
    rw [hts]; exact ⟨_, rfl⟩
  obtain ⟨v, hv⟩ := hex
  have h := (auc_unfold _ hb hp hn (.val (-v))).2 ⟨v, hv, rfl⟩
  have := (auc_double_special _ hb _ h).2 3 hp hn (by simp)
  rw [this] at h
  exact h

/-- A null score is an error. -/
example : IsRocAuc [none, some 3] [some 0, some 1] .err := by
  unfold IsRocAuc
  simp [checked]

/-- A trapezoid under the points (0, 1) and (1, 2). -/
example : ∃ r, IsPlTrapz [some 1, some 2] [some 0, some 1] r ∧ ∃ v, r = .val v ∧ |v - 3 / 2| ≤ (1 : ℝ) / 2 ^ 40 := by
  obtain ⟨d, hd⟩ := dot_exists ((List.zipWith (fun a b => rd (a + b)) [1, 2].tail [1, 2]).zip
    (List.zipWith (fun a b => rd (a - b)) [0, 1].tail [(0 : ℝ), 1]))
  have h : IsPlTrapz [some 1, some 2] [some 0, some 1] (.val (rd (1 / 2 * d))) := by
    unfold IsPlTrapz
    simp only [List.length_cons, List.length_nil]
    exact ⟨_, ⟨d, hd, rfl⟩, rfl⟩
  refine ⟨_, h, ?_⟩
  have r0 : Rep f64 0 := rep_zero
  have r1 : Rep f64 1 := by simpa using repN 1 (by norm_num)
  have r2 : Rep f64 2 := by simpa using repN 2 (by norm_num)
  obtain ⟨v, hv, he⟩ := trapz_double [(0, 1), (1, 2)] (by
    intro p hp
    simp at hp
    rcases hp with rfl | rfl
    · exact ⟨r0, r1⟩
    · exact ⟨r1, r2⟩) (by simp) (by simp) _ h
  refine ⟨v, hv, he.trans' ?_ |>.trans ?_⟩
  · rw [show (3 / 2 : ℝ) = Trapz.Spec.area [(0, 1), (1, 2)] by norm_num [Trapz.Spec.area]]
  · have ha : absArea [((0 : ℝ), 1), (1, 2)] = 3 / 2 := by norm_num [absArea]
    rw [ha]
    have : (2 : ℝ) ^ (-1075 : ℤ) ≤ 2 ^ (-60 : ℤ) := zpow_le_zpow_right₀ (by norm_num) (by norm_num)
    generalize (2 : ℝ) ^ (-1075 : ℤ) = z at *
    norm_num at this ⊢
    linarith

/-- The hypotheses of `trapz_dx_double` can be met. -/
example : ∃ r, IsPlTrapz ([1, 2, 3].map some) [some (1 / 2)] r ∧ ∀ y ∈ [(2 : ℝ)], Rep f64 y :=
  ⟨_, by unfold IsPlTrapz; simp only [List.map_cons, List.map_nil, List.length_cons, List.length_nil]; exact rfl,
    fun y hy => by rw [List.mem_singleton] at hy; subst hy; simpa using repN 2 (by norm_num)⟩

/-- The hypotheses of `combo_double` can be met, with a positive below the top score. -/
example : ∃ rows : List (ℝ × ℕ), (∀ r ∈ rows, r.2 = 0 ∨ r.2 = 1) ∧ Roc.Spec.positives rows ≠ [] ∧ rows.length < 2 ^ 32 ∧
    (∃ r ∈ rows, (1 : ℝ) ≤ r.1) ∧ ([1, 2] : List ℝ).Pairwise (· < ·) ∧ (∀ s, s ∈ [1, 2] ↔ s ∈ rows.map Prod.fst) ∧
    (2 : ℝ) ∈ rows.map Prod.fst ∧ (∀ r ∈ rows, r.1 ≤ 2) ∧ Roc.Spec.recall rows 1 ≠ 0 :=
  ⟨[(1, 1), (2, 0)], by simp, by simp [Roc.Spec.positives], by simp, ⟨(1, 1), by simp⟩, by norm_num, by simp, by simp, by norm_num,
    by simp [Roc.Spec.recall, Roc.Spec.positives]⟩

/-- The hypotheses of `combo_double_panics` can be met. -/
example : comboB [some (1 : ℝ), some 2] [some 0, some 1] 3 = .panic :=
  combo_double_panics [(1, 0), (2, 1)] (by simp) (by simp [Roc.Spec.positives]) 3 (by norm_num)

end Verif.AucDbl
