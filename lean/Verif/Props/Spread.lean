import Verif.Model.Spread
import Verif.Props.Weighted

/-!
# C144: symmetry ratio and coefficient of variation
-/

namespace Verif.Spread
open Verif.Pl Verif.Metrics Verif.Confusion
open Verif.Weighted.Spec (IsMedian)

namespace Spec

/-- Arithmetic mean. -/
noncomputable def avg (l : List ℝ) : ℝ := l.sum / l.length

/-- Sum of squared deviations from the mean. -/
noncomputable def squares (l : List ℝ) : ℝ := (l.map fun v => (v - avg l) ^ 2).sum

end Spec

open Spec

theorem mean_some (c : Col ℝ) (h : vals c ≠ []) : mean c = some (avg (vals c)) := by
  have : count c ≠ 0 := by
    unfold count
    exact fun h' => h (List.length_eq_zero_iff.1 h')
  unfold mean
  rw [if_neg this]
  rfl

theorem max_of {l : List ℝ} {M : ℝ} (h1 : M ∈ l) (h2 : ∀ v ∈ l, v ≤ M) : l.max? = some M := by
  rw [List.max?_eq_some_iff]
  exact ⟨h1, h2⟩

theorem min_of {l : List ℝ} {m : ℝ} (h1 : m ∈ l) (h2 : ∀ v ∈ l, m ≤ v) : l.min? = some m := by
  rw [List.min?_eq_some_iff]
  exact ⟨h1, h2⟩

/-- **C144.**  `query_symm_ratio` is the distance between mean and median over the range of the values. -/
theorem symm_ratio_value (c : Col ℝ) (lo hi med : ℝ) (h1 : lo ∈ vals c) (h2 : ∀ v ∈ vals c, lo ≤ v) (h3 : hi ∈ vals c)
    (h4 : ∀ v ∈ vals c, v ≤ hi) (hne : lo ≠ hi) (hmed : IsMedian (vals c) med) :
    symmRatio c = some (.num (|avg (vals c) - med| / (hi - lo))) := by
  unfold symmRatio
  rw [mean_some c (List.ne_nil_of_mem h1), max_of h3 h4, min_of h1 h2, Weighted.median_value c med hmed]
  simp only [qdiv]
  rw [if_neg (sub_ne_zero.2 hne.symm)]

theorem getD_eq (s : List ℝ) (d : ℝ) {i : ℕ} (h : i < s.length) : s.getD i d = s[i] := by
  rw [List.getD_eq_getElem?_getD, List.getElem?_eq_getElem h]
  rfl

theorem sorted_le {s : List ℝ} (hs : s.Pairwise (· ≤ ·)) {i j : ℕ} (hij : i ≤ j) (hj : j < s.length) :
    s.getD i 0 ≤ s.getD j 0 := by
  rw [getD_eq _ _ (by omega), getD_eq _ _ hj]
  rcases hij.lt_or_eq with h | h
  · exact List.pairwise_iff_getElem.1 hs i j (by omega) hj h
  · subst h; exact le_rfl

theorem sum_getD (s : List ℝ) : s.sum = ∑ i ∈ Finset.range s.length, s.getD i 0 := by
  rw [Finset.sum_range, ← List.sum_ofFn]
  congr 1
  apply List.ext_getElem
  · simp
  · intro i h1 h2
    simp

/-- Twice the mean lies between median plus least and median plus greatest value. -/
theorem mean_median {l : List ℝ} {lo hi med : ℝ} (hl : l ≠ []) (h2 : ∀ v ∈ l, lo ≤ v) (h4 : ∀ v ∈ l, v ≤ hi)
    (hmed : IsMedian l med) : lo + med ≤ 2 * avg l ∧ 2 * avg l ≤ hi + med := by
  obtain ⟨s, hp, hs, rfl⟩ := hmed
  have hlen := hp.length_eq
  have hn : 0 < s.length := by rw [hlen]; exact List.length_pos_iff.2 hl
  rw [← hlen]
  have hmid : s.getD ((s.length - 1) / 2) 0 ≤ s.getD (s.length / 2) 0 := sorted_le hs (by omega) (by omega)
  have hmem : ∀ i < s.length, lo ≤ s.getD i 0 ∧ s.getD i 0 ≤ hi := by
    intro i hi'
    rw [getD_eq _ _ hi']
    have := hp.mem_iff.1 (List.getElem_mem hi')
    exact ⟨h2 _ this, h4 _ this⟩
  have hsum : 2 * s.sum = ∑ i ∈ Finset.range s.length, (s.getD i 0 + s.getD (s.length - 1 - i) 0) := by
    rw [Finset.sum_add_distrib, Finset.sum_range_reflect (fun i => s.getD i 0) s.length, ← sum_getD]
    ring
  have hlow : ∀ i, i ≤ (s.length - 1) / 2 → s.getD i 0 ≤
      (s.getD ((s.length - 1) / 2) 0 + s.getD (s.length / 2) 0) / 2 := by
    intro i hi'
    have := sorted_le hs hi' (by omega)
    linarith
  have hhigh : ∀ i, s.length / 2 ≤ i → i < s.length →
      (s.getD ((s.length - 1) / 2) 0 + s.getD (s.length / 2) 0) / 2 ≤ s.getD i 0 := by
    intro i hi' hi''
    have := sorted_le hs hi' hi''
    linarith
  generalize (s.getD ((s.length - 1) / 2) 0 + s.getD (s.length / 2) 0) / 2 = med at *
  have hup : 2 * s.sum ≤ s.length * (hi + med) := by
    rw [hsum]
    refine (Finset.sum_le_card_nsmul _ _ (hi + med) ?_).trans (by simp [mul_add])
    intro i hi'
    rw [Finset.mem_range] at hi'
    by_cases h : i ≤ (s.length - 1) / 2
    · have := hlow i h
      have := (hmem (s.length - 1 - i) (by omega)).2
      linarith
    · have := hlow (s.length - 1 - i) (by omega)
      have := (hmem i hi').2
      linarith
  have hdn : s.length * (lo + med) ≤ 2 * s.sum := by
    rw [hsum]
    refine le_trans (by simp [mul_add]) (Finset.card_nsmul_le_sum _ _ (lo + med) ?_)
    intro i hi'
    rw [Finset.mem_range] at hi'
    by_cases h : s.length / 2 ≤ i
    · have := hhigh i h hi'
      have := (hmem (s.length - 1 - i) (by omega)).1
      linarith
    · have := hhigh (s.length - 1 - i) (by omega) (by omega)
      have := (hmem i hi').1
      linarith
  have hpos : (0 : ℝ) < s.length := by exact_mod_cast hn
  have e : 2 * avg l = 2 * s.sum / s.length := by
    unfold avg
    rw [hp.sum_eq, hlen]
    ring
  rw [e]
  constructor
  · rw [le_div_iff₀ hpos]; linarith
  · rw [div_le_iff₀ hpos]; linarith

theorem median_exists (l : List ℝ) : ∃ m, IsMedian l m :=
  ⟨_, l.insertionSort (· ≤ ·), List.perm_insertionSort _ _, List.pairwise_insertionSort _ _, rfl⟩

theorem extremes {l : List ℝ} (h : l ≠ []) : ∃ lo ∈ l, ∃ hi ∈ l, (∀ v ∈ l, lo ≤ v) ∧ ∀ v ∈ l, v ≤ hi := by
  obtain ⟨hi, h1⟩ : ∃ hi, l.max? = some hi := by
    cases hm : l.max? with
    | none => exact absurd (List.max?_eq_none_iff.1 hm) h
    | some v => exact ⟨v, rfl⟩
  obtain ⟨lo, h2⟩ : ∃ lo, l.min? = some lo := by
    cases hm : l.min? with
    | none => exact absurd (List.min?_eq_none_iff.1 hm) h
    | some v => exact ⟨v, rfl⟩
  rw [List.max?_eq_some_iff] at h1
  rw [List.min?_eq_some_iff] at h2
  exact ⟨lo, h2.1, hi, h1.1, h2.2, h1.2⟩

/-- **C144.**  With at least two different values the ratio is a number between zero and one half. -/
theorem symm_ratio_range (c : Col ℝ) (a b : ℝ) (ha : a ∈ vals c) (hb : b ∈ vals c) (hab : a ≠ b) :
    ∃ r, symmRatio c = some (.num r) ∧ 0 ≤ r ∧ r ≤ 1 / 2 := by
  obtain ⟨lo, h1, hi, h3, h2, h4⟩ := extremes (List.ne_nil_of_mem ha)
  obtain ⟨med, hmed⟩ := median_exists (vals c)
  have hlt : lo < hi := by
    rcases lt_or_gt_of_ne hab with h | h
    · linarith [h2 a ha, h4 b hb]
    · linarith [h2 b hb, h4 a ha]
  have hm := mean_median (List.ne_nil_of_mem ha) h2 h4 hmed
  have hb1 : lo ≤ med ∧ med ≤ hi := by
    obtain ⟨s, hp, hs, rfl⟩ := hmed
    have hn : 0 < (vals c).length := List.length_pos_iff.2 (List.ne_nil_of_mem ha)
    have hmem : ∀ i < (vals c).length, lo ≤ s.getD i 0 ∧ s.getD i 0 ≤ hi := by
      intro i hi'
      rw [getD_eq _ _ (by rw [hp.length_eq]; exact hi')]
      have := hp.mem_iff.1 (List.getElem_mem (l := s) (by rw [hp.length_eq]; exact hi'))
      exact ⟨h2 _ this, h4 _ this⟩
    have q1 := hmem (((vals c).length - 1) / 2) (by omega)
    have q2 := hmem ((vals c).length / 2) (by omega)
    constructor <;> linarith [q1.1, q1.2, q2.1, q2.2]
  refine ⟨_, symm_ratio_value c lo hi med h1 h2 h3 h4 hlt.ne hmed, by
    apply div_nonneg (abs_nonneg _); linarith, ?_⟩
  rw [div_le_iff₀ (by linarith), abs_le]
  constructor <;> linarith [hm.1, hm.2, hb1.1, hb1.2]

/-- 0, 0 and 3: mean 1, median 0, ratio one third. -/
example : symmRatio [some 0, none, some 3, some 0] = some (.num (1 / 3)) := by
  have hv : vals ([some 0, none, some 3, some 0] : Col ℝ) = [0, 3, 0] := rfl
  rw [symm_ratio_value [some 0, none, some 3, some 0] 0 3 0 (by rw [hv]; simp) (by rw [hv]; simp) (by rw [hv]; simp)
    (by rw [hv]; simp) (by norm_num) ⟨[0, 0, 3], by rw [hv]; exact (List.Perm.swap (0 : ℝ) 3 []).cons 0 |>.symm, by norm_num, by
      rw [hv]; norm_num⟩]
  rw [hv]
  norm_num [avg]

/-- **C144.**  Values that are symmetric about a point have ratio zero. -/
theorem symm_ratio_symmetric (c : Col ℝ) (p : ℝ) (hsym : ((vals c).map fun v => 2 * p - v).Perm (vals c)) (a b : ℝ)
    (ha : a ∈ vals c) (hb : b ∈ vals c) (hab : a ≠ b) : symmRatio c = some (.num 0) := by
  obtain ⟨lo, h1, hi, h3, h2, h4⟩ := extremes (List.ne_nil_of_mem ha)
  have hlt : lo ≠ hi := by
    intro h
    apply hab
    have q1 := h2 a ha; have q2 := h4 a ha; have q3 := h2 b hb; have q4 := h4 b hb
    linarith
  have hn : 0 < (vals c).length := List.length_pos_iff.2 (List.ne_nil_of_mem ha)
  have hpos : (0 : ℝ) < (vals c).length := by exact_mod_cast hn
  have havg : avg (vals c) = p := by
    have hs := hsym.sum_eq
    have : ((vals c).map fun v => 2 * p - v).sum = 2 * p * (vals c).length - (vals c).sum := by
      have gen : ∀ l : List ℝ, (l.map fun v => 2 * p - v).sum = 2 * p * l.length - l.sum := by
        intro l
        induction l with
        | nil => simp
        | cons a l ih =>
          simp only [List.map_cons, List.sum_cons, List.length_cons, ih]
          push_cast
          ring
      exact gen _
    rw [this] at hs
    unfold avg
    rw [div_eq_iff hpos.ne']
    linarith
  have hmed : IsMedian (vals c) p := by
    refine ⟨(vals c).insertionSort (· ≤ ·), List.perm_insertionSort _ _, List.pairwise_insertionSort _ _, ?_⟩
    set s := (vals c).insertionSort (· ≤ ·) with hsd
    have hsp : s.Perm (vals c) := List.perm_insertionSort _ _
    have hss : s.Pairwise (· ≤ ·) := List.pairwise_insertionSort _ _
    have hlen : s.length = (vals c).length := hsp.length_eq
    -- the reflected list, read backwards, is the sorted list again
    have hrev : (s.map fun v => 2 * p - v).reverse = s := by
      refine List.Perm.eq_of_pairwise (le := (· ≤ ·)) (fun a b _ _ => le_antisymm) ?_ hss
        ((List.reverse_perm _).trans ((hsp.map _).trans (hsym.trans hsp.symm)))
      rw [List.pairwise_reverse, List.pairwise_map]
      exact hss.imp fun h => by linarith
    have hi' : (s.length - 1) / 2 < s.length := by omega
    have hj' : s.length / 2 < s.length := by omega
    have key : s.getD (s.length / 2) 0 = 2 * p - s.getD ((s.length - 1) / 2) 0 := by
      have h5 : s[s.length / 2] = (s.map fun v => 2 * p - v).reverse[s.length / 2]'(by simpa using hj') := by
        simp only [hrev]
      rw [getD_eq _ _ hj', getD_eq _ _ hi', h5, List.getElem_reverse, List.getElem_map]
      congr 2
      simp only [List.length_map]
      omega
    rw [← hlen, key]
    ring
  rw [symm_ratio_value c lo hi p h1 h2 h3 h4 hlt hmed, havg]
  simp

example : symmRatio [some 1, none, some 5, some 3] = some (.num 0) := by
  have hv : vals ([some 1, none, some 5, some 3] : Col ℝ) = [1, 5, 3] := rfl
  refine symm_ratio_symmetric _ 3 ?_ 1 5 (by rw [hv]; simp) (by rw [hv]; simp) (by norm_num)
  rw [hv]
  norm_num
  exact List.Perm.swap _ _ _

/-- **C144 (edges).**  Null without values, NaN when all values are equal. -/
theorem symm_ratio_edges (c : Col ℝ) : (vals c = [] → symmRatio c = none) ∧
    (∀ v, vals c ≠ [] → (∀ w ∈ vals c, w = v) → symmRatio c = some .nan) := by
  refine ⟨fun h => ?_, fun v hne hv => ?_⟩
  · unfold symmRatio
    rw [h]
    cases mean c <;> rfl
  · obtain ⟨w, hw⟩ := List.exists_mem_of_ne_nil _ hne
    obtain ⟨lo, h1, hi, h3, h2, h4⟩ := extremes hne
    obtain ⟨med, hmed⟩ := median_exists (vals c)
    have e1 := hv lo h1
    have e2 := hv hi h3
    have hm := mean_median hne h2 h4 hmed
    have hmed' : med = v := by
      obtain ⟨s, hp, hs, rfl⟩ := hmed
      have hn : 0 < (vals c).length := List.length_pos_iff.2 hne
      have hmem : ∀ i < (vals c).length, s.getD i 0 = v := by
        intro i hi'
        rw [getD_eq _ _ (by rw [hp.length_eq]; exact hi')]
        exact hv _ (hp.mem_iff.1 (List.getElem_mem (l := s) (by rw [hp.length_eq]; exact hi')))
      rw [hmem _ (by omega), hmem _ (by omega)]
      ring
    unfold symmRatio
    rw [mean_some c hne, max_of h3 h4, min_of h1 h2, Weighted.median_value c med hmed]
    simp only [qdiv]
    rw [if_pos (by rw [e1, e2]; ring), if_pos]
    rw [abs_eq_zero]
    subst e1 e2 hmed'
    linarith [hm.1, hm.2]

example : symmRatio [none, none] = none ∧ symmRatio [some 4, none, some 4] = some .nan :=
  ⟨(symm_ratio_edges _).1 rfl, (symm_ratio_edges _).2 4 (by simp [vals]) (by simp [vals])⟩

/-! ### Coefficient of variation -/

/-- **C144.**  `query_cv` is the standard deviation over the mean. -/
theorem cv_value (c : Col ℝ) (ddof : ℕ) (hn : ddof < (vals c).length) (hm : avg (vals c) ≠ 0) :
    cv ddof c = some (.num (√(squares (vals c) / ((vals c).length - ddof)) / avg (vals c))) := by
  unfold cv std
  rw [mean_some c (by intro h; rw [h] at hn; simp at hn), if_neg (by unfold count; omega)]
  simp only [opt2, fdiv]
  rw [if_neg hm]
  rfl

example : cv 1 [some 1, none, some 3] = some (.num (√2 / 2)) := by
  have hv : vals ([some 1, none, some 3] : Col ℝ) = [1, 3] := rfl
  rw [cv_value _ 1 (by rw [hv]; simp) (by rw [hv]; norm_num [avg]), hv]
  norm_num [avg, squares]

/-- **C144 (edges).**  Null with at most `ddof` values or none; infinity or NaN when the mean is zero, according to whether
the values differ. -/
theorem cv_edges (c : Col ℝ) (ddof : ℕ) :
    ((vals c).length ≤ ddof ∨ vals c = [] → cv ddof c = none) ∧
    (ddof < (vals c).length → avg (vals c) = 0 →
      ((∀ v ∈ vals c, v = 0) → cv ddof c = some .nan) ∧ ((∃ v ∈ vals c, v ≠ 0) → cv ddof c = some (.inf true))) := by
  constructor
  · rintro (h | h)
    · unfold cv std
      rw [if_pos (by unfold count; exact h)]
      cases mean c <;> rfl
    · have : mean c = none := by
        unfold mean count
        rw [if_pos (by rw [h]; rfl)]
      unfold cv
      rw [this]
      cases std ddof c <;> rfl
  · intro hn hm
    have hlen : (0 : ℝ) < (vals c).length - ddof := by
      have : (ddof : ℝ) < (vals c).length := by exact_mod_cast hn
      linarith
    have hcv : cv ddof c = some (fdiv (√(squares (vals c) / ((vals c).length - ddof))) 0) := by
      unfold cv std
      rw [mean_some c (by intro h; rw [h] at hn; simp at hn), if_neg (by unfold count; omega), hm]
      rfl
    have hsq : squares (vals c) = ((vals c).map fun v => v ^ 2).sum := by
      unfold squares
      rw [hm]
      simp
    rw [hcv]
    unfold fdiv
    rw [if_pos rfl]
    constructor
    · intro hz
      rw [if_pos]
      have : squares (vals c) = 0 := by
        rw [hsq]
        apply List.sum_eq_zero
        intro v hv
        obtain ⟨w, hw, rfl⟩ := List.mem_map.1 hv
        rw [hz w hw]
        norm_num
      rw [this]
      simp
    · rintro ⟨v, hv, hv0⟩
      rw [if_neg]
      apply (Real.sqrt_pos.2 _).ne'
      apply div_pos _ hlen
      rw [hsq]
      have h1 : v ^ 2 ≤ ((vals c).map fun v => v ^ 2).sum :=
        List.single_le_sum (by
          intro w hw
          obtain ⟨u, _, rfl⟩ := List.mem_map.1 hw
          positivity) _ (List.mem_map.2 ⟨v, hv, rfl⟩)
      have : 0 < v ^ 2 := by positivity
      linarith

example : cv 1 [some (-1), some 1] = some (.inf true) :=
  ((cv_edges [some (-1), some 1] 1).2 (by simp [vals]) (by
    rw [show vals ([some (-1), some 1] : Col ℝ) = [-1, 1] from rfl]; norm_num [avg])).2 ⟨1, by simp [vals], by norm_num⟩

theorem avg_scale (l : List ℝ) (a : ℝ) : avg (l.map fun v => a * v) = a * avg l := by
  unfold avg
  rw [List.sum_map_mul_left, List.length_map, List.map_id']
  ring

/-- **C144.**  Multiplying the series by a positive number does not change the coefficient of variation, by a negative number
it changes its sign. -/
theorem cv_scale (c : Col ℝ) (ddof : ℕ) (a v : ℝ) (ha : a ≠ 0) (h : cv ddof c = some (.num v)) :
    cv ddof (map1 (fun x => a * x) c) = some (.num (if 0 < a then v else -v)) := by
  have hv : vals (map1 (fun x => a * x) c) = (vals c).map fun x => a * x := by
    unfold vals map1
    rw [List.filterMap_map, List.map_filterMap]
    rfl
  have hn : ddof < (vals c).length ∧ vals c ≠ [] := by
    constructor
    · by_contra hcon
      rw [(cv_edges c ddof).1 (Or.inl (by omega))] at h
      exact absurd h (by simp)
    · intro hcon
      rw [(cv_edges c ddof).1 (Or.inr hcon)] at h
      exact absurd h (by simp)
  have hm : avg (vals c) ≠ 0 := by
    intro hcon
    have := (cv_edges c ddof).2 hn.1 hcon
    by_cases hz : ∀ v ∈ vals c, v = 0
    · rw [this.1 hz] at h
      simp at h
    · push Not at hz
      rw [this.2 hz] at h
      simp at h
  rw [cv_value c ddof hn.1 hm] at h
  simp only [Option.some.injEq, Val.num.injEq] at h
  have hm' : avg (vals (map1 (fun x => a * x) c)) ≠ 0 := by
    rw [hv, avg_scale]
    exact mul_ne_zero ha hm
  rw [cv_value _ ddof (by rw [hv, List.length_map]; exact hn.1) hm', hv, avg_scale, List.length_map]
  have hs : squares ((vals c).map fun x => a * x) = a ^ 2 * squares (vals c) := by
    unfold squares
    rw [avg_scale, List.map_map, ← List.sum_map_mul_left]
    congr 1
    apply List.map_congr_left
    intro v _
    simp only [Function.comp_apply]
    ring
  rw [hs, mul_div_assoc, Real.sqrt_mul (sq_nonneg a), Real.sqrt_sq_eq_abs, ← h]
  congr 2
  split
  · next hp => rw [abs_of_pos hp, mul_div_mul_left _ _ ha]
  · next hp =>
    rw [abs_of_nonpos (not_lt.1 hp), neg_mul, neg_div, mul_div_mul_left _ _ ha]

example : ∃ v, cv 1 [some 1, none, some 3] = some (.num v) ∧ cv 1 [some (-2), none, some (-6)] = some (.num (-v)) := by
  have hv : vals ([some 1, none, some 3] : Col ℝ) = [1, 3] := rfl
  have h := cv_value [some 1, none, some 3] 1 (by rw [hv]; simp) (by rw [hv]; norm_num [avg])
  refine ⟨_, h, ?_⟩
  have := cv_scale _ 1 (-2) _ (by norm_num) h
  rw [if_neg (by norm_num)] at this
  rw [← this]
  norm_num [map1]

theorem sum_sq_le (l : List ℝ) (h : ∀ v ∈ l, 0 ≤ v) : (l.map fun v => v ^ 2).sum ≤ l.sum ^ 2 := by
  induction l with
  | nil => simp
  | cons a l ih =>
    have h1 := ih fun v hv => h v (List.mem_cons_of_mem _ hv)
    have h2 := h a (List.mem_cons_self)
    have h3 : 0 ≤ l.sum := List.sum_nonneg fun v hv => h v (List.mem_cons_of_mem _ hv)
    rw [List.map_cons, List.sum_cons, List.sum_cons]
    nlinarith [mul_nonneg h2 h3]

theorem squares_eq (l : List ℝ) (hl : l ≠ []) : squares l = (l.map fun v => v ^ 2).sum - l.length * avg l ^ 2 := by
  have hpos : (0 : ℝ) < l.length := by exact_mod_cast List.length_pos_iff.2 hl
  have hs : l.sum = l.length * avg l := by unfold avg; field_simp
  have gen : ∀ (l : List ℝ) (m : ℝ), (l.map fun v => (v - m) ^ 2).sum =
      (l.map fun v => v ^ 2).sum - 2 * m * l.sum + l.length * m ^ 2 := by
    intro l m
    induction l with
    | nil => simp
    | cons a l ih =>
      simp only [List.map_cons, List.sum_cons, List.length_cons, ih]
      push_cast
      ring
  unfold squares
  rw [gen, hs]
  ring

/-- **C144.**  For values that are not negative and not all zero the coefficient of variation lies between zero and the square
root of the number of values. -/
theorem cv_range (c : Col ℝ) (h0 : ∀ v ∈ vals c, 0 ≤ v) (hex : ∃ v ∈ vals c, v ≠ 0) (hn : 2 ≤ (vals c).length) :
    ∃ r, cv 1 c = some (.num r) ∧ 0 ≤ r ∧ r ≤ √(vals c).length := by
  have hne : vals c ≠ [] := by intro h; rw [h] at hn; simp at hn
  have hnr : (2 : ℝ) ≤ (vals c).length := by exact_mod_cast hn
  have hsum : 0 < (vals c).sum := by
    obtain ⟨v, hv, hv0⟩ := hex
    have := List.single_le_sum h0 v hv
    have := lt_of_le_of_ne (h0 v hv) hv0.symm
    linarith
  have hm : 0 < avg (vals c) := div_pos hsum (by linarith)
  have hs : (vals c).sum = (vals c).length * avg (vals c) := by unfold avg; field_simp
  refine ⟨_, cv_value c 1 (by omega) hm.ne', by positivity, ?_⟩
  rw [div_le_iff₀ hm]
  have h1 : squares (vals c) / ((vals c).length - (1 : ℕ)) ≤ (vals c).length * avg (vals c) ^ 2 := by
    have h2 := sum_sq_le (vals c) h0
    rw [hs] at h2
    push_cast
    rw [div_le_iff₀ (by linarith), squares_eq _ hne]
    nlinarith
  calc √(squares (vals c) / ((vals c).length - (1 : ℕ))) ≤ √((vals c).length * avg (vals c) ^ 2) := Real.sqrt_le_sqrt h1
    _ = √(vals c).length * avg (vals c) := by
      rw [Real.sqrt_mul (by linarith), Real.sqrt_sq hm.le]

example : ∃ r, cv 1 [some 1, none, some 3] = some (.num r) ∧ 0 ≤ r ∧ r ≤ √2 := by
  have hv : vals ([some 1, none, some 3] : Col ℝ) = [1, 3] := rfl
  have := cv_range [some 1, none, some 3] (by rw [hv]; simp) ⟨1, by rw [hv]; simp, by norm_num⟩ (by rw [hv]; simp)
  rw [hv] at this
  simpa using this

end Verif.Spread
