import Verif.Model.KnnDbl
import Verif.Lemmas.KnnDbl
import Verif.Lemmas.KnnAvg
import Verif.Props.Ieee

/-! # C163: the average of the nearest neighbors in double arithmetic -/

namespace Verif.KnnDbl
open Verif Verif.KDT Verif.Ieee Verif.Ieee.Spec FloatOps Verif.ConfDbl
open Verif.FloatBits (f64)
open Verif.Doubles (rd)

namespace Spec

/-- The documented weight of a neighbor at distance `d`: equal weights, or `1/d`, or `1/(1+d)` for a tiny minimal distance. -/
noncomputable def weight (weighted : Bool) (minB d : ℝ) : ℝ :=
  if weighted then (if minB ≤ 2 ^ (-52 : ℤ) then 1 / (1 + d) else 1 / d) else 1

/-- The weighted mean of the targets of the neighbors, in exact arithmetic. -/
noncomputable def mean (weighted : Bool) (minB : ℝ) (nn : List (NB D D)) : ℝ :=
  (nn.map fun nb => weight weighted minB nb.dist.val * nb.item.val).sum / (nn.map fun nb => weight weighted minB nb.dist.val).sum

end Spec

/-! ## Weights -/

theorem rep_two (k : ℤ) (hk : -1074 ≤ k) : Rep f64 (2 ^ k) := ⟨1, k, by norm_num [f64], by simpa [f64] using hk, by simp⟩

theorem recip_err {s : ℝ} (hs : 0 < s) (hs2 : s ≤ 2 ^ (501 : ℤ)) :
    2 ^ (-501 : ℤ) ≤ rd (1 / s) ∧ |rd (1 / s) - 1 / s| ≤ 9 / 8 * 2 ^ (-53 : ℤ) * (1 / s) := by
  have h1 : (2 : ℝ) ^ (-501 : ℤ) ≤ 1 / s := by
    rw [zpow_neg, ← one_div]
    exact one_div_le_one_div_of_le hs hs2
  refine ⟨?_, ?_⟩
  · rw [← show rd ((2 : ℝ) ^ (-501 : ℤ)) = 2 ^ (-501 : ℤ) from fl_rep f64 (rep_two _ (by norm_num))]
    exact Doubles.rd_mono h1
  · have e := fl_err_mixed f64 (1 / s)
    rw [AucDbl.unit_eq, AucDbl.tiny_eq, abs_of_pos (one_div_pos.2 hs)] at e
    have h2 : (2 : ℝ) ^ (-1075 : ℤ) ≤ 1 / 8 * 2 ^ (-53 : ℤ) * 2 ^ (-501 : ℤ) := by
      rw [show (1 / 8 : ℝ) = 2 ^ (-3 : ℤ) by norm_num, ← zpow_add₀ two_ne_zero, ← zpow_add₀ two_ne_zero]
      exact zpow_le_zpow_right₀ (by norm_num) (by norm_num)
    have h3 : 1 / 8 * (2 : ℝ) ^ (-53 : ℤ) * 2 ^ (-501 : ℤ) ≤ 1 / 8 * 2 ^ (-53 : ℤ) * (1 / s) :=
      mul_le_mul_of_nonneg_left h1 (by positivity)
    refine e.trans ?_
    linarith

theorem zero_val : (0 : D).val = 0 := rfl

theorem zero_add_val (x : D) : (0 + x).val = x.val := by
  show rd (0 + x.val) = x.val
  rw [zero_add]
  exact fl_rep f64 (Flt.isRep x)

theorem one_val : one.val = 1 := Doubles.rd_one

theorem weight_p1 {d : D} (h0 : 0 ≤ d.val) (h : d.val ≤ 2 ^ (500 : ℤ)) :
    2 ^ (-501 : ℤ) ≤ (recip (one + d)).val ∧
      |(recip (one + d)).val - 1 / (1 + d.val)| ≤ 3 * 2 ^ (-53 : ℤ) * (1 / (1 + d.val)) := by
  have hs : (one + d).val = rd (1 + d.val) := by rw [← one_val]; rfl
  have e := fl_add_err f64 (Flt.isRep one) (Flt.isRep d)
  rw [one_val, AucDbl.unit_eq] at e
  change |rd (1 + d.val) - (1 + d.val)| ≤ _ at e
  have hw : (recip (one + d)).val = rd (1 / rd (1 + d.val)) := by rw [← hs]; rfl
  rw [hw]
  have h1 : 1 ≤ rd (1 + d.val) := Doubles.one_le_rd (by linarith)
  have h2 : rd (1 + d.val) ≤ 2 ^ (501 : ℤ) := by
    rw [← show rd ((2 : ℝ) ^ (501 : ℤ)) = 2 ^ (501 : ℤ) from fl_rep f64 (rep_two _ (by norm_num))]
    apply Doubles.rd_mono
    have a : (2 : ℝ) ^ (501 : ℤ) = 2 * 2 ^ (500 : ℤ) := by rw [← zpow_one_add₀ two_ne_zero]; norm_num
    have b : (1 : ℝ) ≤ 2 ^ (500 : ℤ) := one_le_zpow₀ (by norm_num) (by norm_num)
    rw [a, two_mul]
    exact add_le_add b h
  obtain ⟨r1, r2⟩ := recip_err (by linarith) h2
  refine ⟨r1, ?_⟩
  have hp : 0 < 1 + d.val := by linarith
  rw [abs_of_pos hp] at e
  generalize rd (1 / rd (1 + d.val)) = w at *
  generalize rd (1 + d.val) = s at *
  generalize 1 + d.val = x at *
  have hu0 : (0 : ℝ) < 2 ^ (-53 : ℤ) := by positivity
  have hu1 : (2 : ℝ) ^ (-53 : ℤ) ≤ 1 / 1024 := by norm_num
  generalize (2 : ℝ) ^ (-53 : ℤ) = u at *
  have hs0 : 0 < s := by linarith
  have hx : 0 < 1 / x := by positivity
  have b1 : 1 / s ≤ (1 + 2 * u) * (1 / x) := by
    rw [div_le_iff₀ hs0]
    have : (1 - u) * x ≤ s := by linarith [(abs_le.1 e).1]
    have h3 : (1 + 2 * u) * (1 / x) * ((1 - u) * x) ≤ (1 + 2 * u) * (1 / x) * s := mul_le_mul_of_nonneg_left this (by positivity)
    have h4 : (1 + 2 * u) * (1 / x) * ((1 - u) * x) = (1 + 2 * u) * (1 - u) := by field_simp
    nlinarith
  have b2 : |1 / s - 1 / x| ≤ u * (1 / s) := by
    have : 1 / s - 1 / x = (x - s) * (1 / s) * (1 / x) := by field_simp
    rw [this, abs_mul, abs_mul, abs_of_pos hx, abs_of_pos (one_div_pos.2 hs0), abs_sub_comm]
    have h3 : |s - x| * (1 / s) * (1 / x) ≤ u * x * (1 / s) * (1 / x) := by gcongr
    have h4 : u * x * (1 / s) * (1 / x) = u * (1 / s) := by field_simp
    linarith
  have b3 : |w - 1 / x| ≤ |w - 1 / s| + |1 / s - 1 / x| := by
    have := abs_add_le (w - 1 / s) (1 / s - 1 / x)
    rwa [sub_add_sub_cancel] at this
  have b4 : u * (1 / s) ≤ u * ((1 + 2 * u) * (1 / x)) := mul_le_mul_of_nonneg_left b1 hu0.le
  have b5 : u * (u * (1 / x)) ≤ 1 / 1024 * (u * (1 / x)) := mul_le_mul_of_nonneg_right hu1 (by positivity)
  clear r1 h2
  generalize 1 / s = S at *
  generalize 1 / x = X at *
  nlinarith

theorem weight_recip {d : D} (h0 : 0 < d.val) (h : d.val ≤ 2 ^ (500 : ℤ)) :
    2 ^ (-501 : ℤ) ≤ (recip d).val ∧ |(recip d).val - 1 / d.val| ≤ 3 * 2 ^ (-53 : ℤ) * (1 / d.val) := by
  obtain ⟨r1, r2⟩ := recip_err h0 (h.trans (zpow_le_zpow_right₀ (by norm_num) (by norm_num)))
  refine ⟨r1, r2.trans ?_⟩
  apply mul_le_mul_of_nonneg_right _ (by positivity)
  have hu0 : (0 : ℝ) < 2 ^ (-53 : ℤ) := by positivity
  linarith

/-! ## Averages -/

theorem fold_dot (w : D → D) : ∀ (l : List (NB D D)) (m : List (ℝ × ℝ)) (acc : D), AucDbl.IsDot m acc.val →
    AucDbl.IsDot (m ++ l.map fun nb => ((w nb.dist).val, nb.item.val))
      ((l.zip (l.map fun nb => w nb.dist)).foldl (fun acc p => acc + p.2 * p.1.item) acc).val := by
  intro l
  induction l with
  | nil => intro m acc h; simpa using h
  | cons p l ih =>
    intro m acc h
    simp only [List.map_cons, List.zip_cons_cons, List.foldl_cons]
    have := ih (m ++ [((w p.dist).val, p.item.val)]) (acc + w p.dist * p.item) (AucDbl.IsDot.add h (.term _ _))
    rwa [List.append_assoc, List.singleton_append] at this

theorem fold_sum : ∀ (l : List D) (m : List ℝ) (acc : D), ScaleDbl.IsSum m acc.val →
    ScaleDbl.IsSum (m ++ l.map (·.val)) (l.foldl (· + ·) acc).val := by
  intro l
  induction l with
  | nil => intro m acc h; simpa using h
  | cons p l ih =>
    intro m acc h
    simp only [List.map_cons, List.foldl_cons]
    have := ih (m ++ [p.val]) (acc + p) (ScaleDbl.IsSum.add h (.leaf _))
    rwa [List.append_assoc, List.singleton_append] at this

theorem weightedAvg_err (w : D → D) (v : ℝ → ℝ) (nn : List (NB D D)) (hne : nn ≠ []) (hn : nn.length ≤ 2 ^ 40) {T : ℝ}
    (hT : ∀ nb ∈ nn, |nb.item.val| ≤ T) (hv : ∀ nb ∈ nn, 0 < v nb.dist.val)
    (hw : ∀ nb ∈ nn, 2 ^ (-501 : ℤ) ≤ (w nb.dist).val ∧ |(w nb.dist).val - v nb.dist.val| ≤ 3 * 2 ^ (-53 : ℤ) * v nb.dist.val) :
    ∃ y, weightedAvg w nn = some y ∧
      |y.val - (nn.map fun nb => v nb.dist.val * nb.item.val).sum / (nn.map fun nb => v nb.dist.val).sum| ≤
        (8 * nn.length + 9) * 2 ^ (-53 : ℤ) * T + 2 ^ (-570 : ℤ) := by
  have he : nn.isEmpty = false := by simpa using hne
  refine ⟨_, by rw [weightedAvg, he]; rfl, ?_⟩
  have hN := fold_dot w nn [] 0 .nil
  have hS := fold_sum (nn.map fun nb => w nb.dist) [] 0 .nil
  rw [List.nil_append] at hN hS
  rw [List.map_map] at hS
  have h1 := wavg_core (fun nb : NB D D => (w nb.dist).val) (fun nb => nb.item.val) rfl nn hne hn (fun nb h => (hw nb h).1)
    (fun nb _ => Flt.isRep _) hT hN hS
  have h2 := reweight (fun nb : NB D D => (w nb.dist).val) (fun nb => v nb.dist.val) (fun nb => nb.item.val)
    (e := 3 * 2 ^ (-53 : ℤ)) (by positivity) (by norm_num) nn hne hv hT (fun nb h => (hw nb h).2)
  refine (abs_sub_le _ _ _).trans ((add_le_add h1 h2).trans ?_)
  clear h1 h2 hN hS hw
  linarith

/-- The average of some neighbors. -/
theorem aggregate_err (weighted : Bool) (minB : D) (nn : List (NB D D)) (hne : nn ≠ []) (hn : nn.length ≤ 2 ^ 32) {T : ℝ}
    (hT : ∀ nb ∈ nn, |nb.item.val| ≤ T) (hd : ∀ nb ∈ nn, 0 ≤ nb.dist.val ∧ nb.dist.val ≤ 2 ^ (500 : ℤ) ∧ minB.val ≤ nb.dist.val) :
    ∃ y, aggregate (method weighted minB) nn = some y ∧
      |y.val - Spec.mean weighted minB.val nn| ≤ (8 * nn.length + 9) * 2 ^ (-53 : ℤ) * T + 2 ^ (-570 : ℤ) := by
  have heps : (minB ≤ eps) ↔ minB.val ≤ 2 ^ (-52 : ℤ) := by
    have : (eps : D).val = 2 ^ (-52 : ℤ) := by
      show rd ((2 : ℝ) ^ (-(f64.frac : ℤ))) = _
      have : (-(f64.frac : ℤ)) = -52 := by simp [f64]
      rw [this]
      exact fl_rep f64 (rep_two _ (by norm_num))
    rw [← this]; rfl
  have hn40 : nn.length ≤ 2 ^ 40 := hn.trans (by norm_num)
  cases weighted with
  | true =>
    by_cases h : minB ≤ eps
    · have hm : method true minB = .p1Weighted := by simp [method, h]
      have e := weightedAvg_err (fun d => recip (one + d)) (fun d => 1 / (1 + d)) nn hne hn40 hT
        (fun nb hb => one_div_pos.2 (by linarith [(hd nb hb).1])) (fun nb hb => weight_p1 (hd nb hb).1 (hd nb hb).2.1)
      rw [hm]
      simpa only [aggregate, Spec.mean, Spec.weight, if_true, if_pos (heps.1 h)] using e
    · have hm : method true minB = .weighted := by simp [method, h]
      have hpos : ∀ nb ∈ nn, 0 < nb.dist.val := fun nb hb => by
        have h1 := not_le.1 (fun c => h (heps.2 c))
        have h2 : (0 : ℝ) < 2 ^ (-52 : ℤ) := by positivity
        linarith [(hd nb hb).2.2]
      have e := weightedAvg_err recip (fun d => 1 / d) nn hne hn40 hT
        (fun nb hb => one_div_pos.2 (hpos nb hb)) (fun nb hb => weight_recip (hpos nb hb) (hd nb hb).2.1)
      rw [hm]
      simpa only [aggregate, Spec.mean, Spec.weight, if_true, if_neg (fun c => h (heps.2 c))] using e
  | false =>
    have hm : method false minB = .notWeighted := by simp [method]
    have he : nn.isEmpty = false := by simpa using hne
    rw [hm]
    refine ⟨_, by simp only [aggregate, he]; rfl, ?_⟩
    have hf : nn.foldl (fun acc nb => acc + nb.item) 0 = (nn.map (·.item)).foldl (· + ·) (0 : D) := by rw [List.foldl_map]
    have hS := fold_sum (nn.map (·.item)) [] 0 .nil
    rw [List.nil_append, List.map_map, ← hf] at hS
    have hl : (nn.map fun nb => nb.item.val).length = nn.length := by simp
    have e := ScaleDbl.mean_err (l := nn.map fun nb => nb.item.val) (A := T) ⟨_, hS, rfl⟩ (by
        intro x hx
        obtain ⟨nb, _, rfl⟩ := List.mem_map.1 hx
        exact Flt.isRep _) (by
        intro x hx
        obtain ⟨nb, hb, rfl⟩ := List.mem_map.1 hx
        exact hT nb hb) (by simpa using hne) (by rw [hl]; exact hn)
    have hov : (ofNat nn.length).val = nn.length := Doubles.rd_nat (hn.trans (by norm_num))
    have hy : (div (nn.foldl (fun acc nb => acc + nb.item) 0) (ofNat nn.length)).val =
        rd ((nn.foldl (fun acc nb => acc + nb.item) (0 : D)).val / nn.length) := by rw [← hov]; rfl
    have hsm : Spec.mean false minB.val nn = ScaleDbl.Spec.mean (nn.map fun nb => nb.item.val) := by
      simp [Spec.mean, Spec.weight, ScaleDbl.Spec.mean]
    rw [hl] at e
    rw [hy, hsm]
    refine e.trans ?_
    have hT0 : 0 ≤ T := by
      obtain ⟨nb, hb⟩ := List.exists_mem_of_ne_nil nn hne
      exact (abs_nonneg _).trans (hT nb hb)
    have h1 : (2 : ℝ) ^ (-1075 : ℤ) ≤ 2 ^ (-570 : ℤ) := zpow_le_zpow_right₀ (by norm_num) (by norm_num)
    have h2 : (2 * (nn.length : ℝ) + 2) * 2 ^ (-53 : ℤ) * T ≤ (8 * nn.length + 9) * 2 ^ (-53 : ℤ) * T := by
      apply mul_le_mul_of_nonneg_right _ hT0
      apply mul_le_mul_of_nonneg_right _ (by positivity)
      have : (0 : ℝ) ≤ nn.length := Nat.cast_nonneg _
      linarith
    linarith


/-! ## The expression -/

theorem all_some (r : List (Option D)) : none ∉ r ↔ r.all Option.isSome = true := by
  rw [List.all_eq_true]
  constructor
  · intro h x hx
    cases x with
    | none => exact absurd hx h
    | some x => rfl
  · intro h hx
    simpa using h none hx

/-- What every entry of the column is: the aggregate of the nearest neighbors beyond the lower bound. -/
theorem column (us : USort) (cosine hav : List D → List D → D) (ncols : ℕ) (hn : 0 < ncols)
    (target : List D) (rows : List (List (Option D))) (hl : target.length = rows.length)
    (hrows : ∀ r ∈ rows, r.length = ncols) (k : ℕ) (hk : 1 ≤ k) (weighted : Bool) (minB maxB : D)
    (hmax : eps < maxB) (metric : String) (hm : metric ∈ KDT.Spec.metricNames) (hc : ∃ r ∈ rows, none ∉ r) :
    ∃ d col, KDT.Dist.ofString cosine hav metric ncols = .ok d ∧ d.prunable ∧
      knnAvg us cosine hav ncols target rows k weighted minB maxB metric = .ok col ∧ col.length = rows.length ∧
      ∀ (i : ℕ) (r : List (Option D)), rows[i]? = some r →
        (none ∈ r → col[i]? = some none) ∧
        (none ∉ r → ∃ nbs, KDT.Spec.Nearest (k + 1) maxB nbs
            (KDT.Spec.all d (r.filterMap id) (KDT.Spec.candidates target (List.replicate rows.length true) rows)) ∧
          col[i]? = some (aggregate (method weighted minB) (nbs.filter fun nb => decide (minB ≤ nb.dist)))) := by
  obtain ⟨d, hd1, hd2⟩ := ofString_prunable cosine hav hm ncols
  have hleaves : filteredLeaves target (keepMask none rows) rows =
      KDT.Spec.candidates target (List.replicate rows.length true) rows :=
    filteredLeaves_eq target (keepMask none rows) _ rows (keepMask_spec none rows)
  have hne : KDT.Spec.candidates target (List.replicate rows.length true) rows ≠ [] := by
    obtain ⟨r, hr, hr2⟩ := hc
    obtain ⟨i, hi, rfl⟩ := List.getElem_of_mem hr
    intro h
    have : (⟨target[i]'(by omega), rows[i].filterMap id⟩ : Leaf D D) ∈
        KDT.Spec.candidates target (List.replicate rows.length true) rows := by
      refine List.mem_map.2 ⟨(target[i]'(by omega), true, rows[i]), List.mem_filter.2 ⟨?_, ?_⟩, rfl⟩
      · rw [List.mem_iff_getElem]
        refine ⟨i, by simp; omega, by simp⟩
      · simpa using (all_some _).1 hr2
    rw [h] at this
    simp at this
  obtain ⟨cfg, t, ht, hq⟩ := fromLeaves_knn us hd2 .midpoint ncols hn _ hne (candidates_row hrows)
  refine ⟨d, rows.map (avgRow cfg t k minB maxB (method weighted minB)), hd1, hd2, ?_, by simp, ?_⟩
  · unfold knnAvg
    rw [if_neg (by omega), if_neg, hd1]
    · simp only [hleaves, ht]
    · simp only [KDT.Spec.metricNames, List.mem_cons, List.not_mem_nil, or_false] at hm
      rcases hm with rfl | rfl | rfl | rfl | rfl <;> decide
  · intro i r hi
    have hcol : (rows.map (avgRow cfg t k minB maxB (method weighted minB)))[i]? =
        some (avgRow cfg t k minB maxB (method weighted minB) r) := by simp [hi]
    have hrl : r.length = ncols := hrows r (List.mem_of_getElem? hi)
    refine ⟨fun hnone => ?_, fun hr => ?_⟩
    · rw [hcol]
      have : r.all Option.isSome = false := by
        cases h : r.all Option.isSome with
        | false => rfl
        | true => exact absurd hnone ((all_some r).2 h)
      simp [avgRow, fullRow_none this]
    · have hr' := (all_some r).1 hr
      obtain ⟨nbs, n1, n2⟩ := hq (k + 1) (r.filterMap id) maxB (by omega) (by rw [filterMap_length hr', hrl]) hmax
      refine ⟨nbs, n2, ?_⟩
      rw [hcol]
      simp only [avgRow, fullRow_some hr', regress, n1]

/-- **C163a.**  `query_knn_avg` in double arithmetic, for any frame whose rows have `ncols > 0` features (nulls allowed; below 16
with `l2` and `sql2`), at least one of them complete, and an upper bound between machine epsilon and `2^500`: the column has
one entry per row, an incomplete row gets null, and for a complete row there is an exact answer to "the `k+1` nearest complete rows
within `max_bound`" such that the entry is null iff none of these lies at `min_bound` or beyond, and otherwise differs from their
documented weighted mean by at most `8n + 9` roundings of the largest of their targets, and so lies between their least and their
greatest target up to as much.  Missing from the full claim: that it lies between them (see `knn_avg_leaves`). -/
theorem knn_avg_double_partial (us : USort) (cosine hav : List D → List D → D) (ncols : ℕ) (hn : 0 < ncols)
    (target : List D) (rows : List (List (Option D))) (hl : target.length = rows.length)
    (hrows : ∀ r ∈ rows, r.length = ncols) (k : ℕ) (hk : 1 ≤ k) (hk2 : k < 2 ^ 32) (weighted : Bool) (minB maxB : D)
    (hmax : eps < maxB) (hmax2 : maxB.val ≤ 2 ^ (500 : ℤ)) (metric : String) (hm : metric ∈ KDT.Spec.metricNames)
    (_hs : metric = "l2" ∨ metric = "sql2" → ncols < 16) (hc : ∃ r ∈ rows, none ∉ r) :
    ∃ d col, KDT.Dist.ofString cosine hav metric ncols = .ok d ∧
      knnAvg us cosine hav ncols target rows k weighted minB maxB metric = .ok col ∧ col.length = rows.length ∧
      ∀ (i : ℕ) (r : List (Option D)), rows[i]? = some r →
        (none ∈ r → col[i]? = some none) ∧
        (none ∉ r → ∃ nbs, KDT.Spec.Nearest (k + 1) maxB nbs
            (KDT.Spec.all d (r.filterMap id) (KDT.Spec.candidates target (List.replicate rows.length true) rows)) ∧
          let used := nbs.filter fun nb => decide (minB ≤ nb.dist)
          (used = [] → col[i]? = some none) ∧
          (used ≠ [] → ∃ v, col[i]? = some (some v) ∧ ∀ T, (∀ nb ∈ used, |nb.item.val| ≤ T) →
            |v.val - Spec.mean weighted minB.val used| ≤ (8 * used.length + 9) * 2 ^ (-53 : ℤ) * T + 2 ^ (-570 : ℤ) ∧
            (∀ lo, (∀ nb ∈ used, lo ≤ nb.item.val) →
              lo - ((8 * used.length + 9) * 2 ^ (-53 : ℤ) * T + 2 ^ (-570 : ℤ)) ≤ v.val) ∧
            (∀ hi, (∀ nb ∈ used, nb.item.val ≤ hi) →
              v.val ≤ hi + ((8 * used.length + 9) * 2 ^ (-53 : ℤ) * T + 2 ^ (-570 : ℤ))))) := by
  obtain ⟨d, col, hd1, hd2, h1, h2, h3⟩ := column us cosine hav ncols hn target rows hl hrows k hk weighted minB maxB hmax metric hm hc
  refine ⟨d, col, hd1, h1, h2, fun i r hi => ⟨(h3 i r hi).1, fun hr => ?_⟩⟩
  obtain ⟨nbs, n2, hcol⟩ := (h3 i r hi).2 hr
  refine ⟨nbs, n2, ?_⟩
  intro used
  change col[i]? = some (aggregate (method weighted minB) used) at hcol
  have hd : ∀ nb ∈ used, 0 ≤ nb.dist.val ∧ nb.dist.val ≤ 2 ^ (500 : ℤ) ∧ minB.val ≤ nb.dist.val := by
    intro nb hnb
    obtain ⟨m1, m2⟩ := List.mem_filter.1 hnb
    have m2 : minB ≤ nb.dist := by simpa using m2
    obtain ⟨left, hperm, -⟩ := n2.split
    have hmem := hperm.subset (List.mem_append_left left m1)
    refine ⟨?_, le_trans (n2.bounded nb m1) hmax2, m2⟩
    obtain ⟨p, -, rfl⟩ := List.mem_map.1 hmem
    exact dist_nonneg hd2 _ _
  have hlen : used.length ≤ 2 ^ 32 := by
    have a : used.length ≤ nbs.length := List.length_filter_le _ _
    have b := n2.len
    omega
  refine ⟨fun h => ?_, fun h => ?_⟩
  · rw [hcol, h]
    cases method weighted minB <;> simp [aggregate, weightedAvg]
  · obtain ⟨nb0, hb0⟩ := List.exists_mem_of_ne_nil used h
    obtain ⟨T0, hT0⟩ : ∃ T0, ∀ nb ∈ used, |nb.item.val| ≤ T0 :=
      ⟨(used.map fun nb => |nb.item.val|).sum, fun nb hb =>
        List.single_le_sum (by simp) _ (List.mem_map.2 ⟨nb, hb, rfl⟩)⟩
    obtain ⟨v, hv, -⟩ := aggregate_err weighted minB used h hlen hT0 hd
    refine ⟨v, by rw [hcol, hv], fun T hT => ?_⟩
    obtain ⟨v', hv', he⟩ := aggregate_err weighted minB used h hlen hT hd
    rw [hv] at hv'
    obtain rfl : v = v' := by simpa using hv'
    have hw : ∀ nb ∈ used, 0 < Spec.weight weighted minB.val nb.dist.val := by
      intro nb hb
      obtain ⟨g1, g2, g3⟩ := hd nb hb
      unfold Spec.weight
      split
      · split
        · exact one_div_pos.2 (by linarith)
        · rename_i hh
          have : (0 : ℝ) < 2 ^ (-52 : ℤ) := by positivity
          exact one_div_pos.2 (by linarith [not_le.1 hh])
      · exact one_pos
    have hS : 0 < (used.map fun nb => Spec.weight weighted minB.val nb.dist.val).sum := sum_pos' _ _ h hw
    refine ⟨he, fun lo hlo => ?_, fun hi hhi => ?_⟩
    · have : lo ≤ Spec.mean weighted minB.val used := by
        rw [Spec.mean, le_div_iff₀ hS, ← List.sum_map_mul_left]
        exact List.sum_le_sum fun nb hb => by
          rw [mul_comm]
          exact mul_le_mul_of_nonneg_left (hlo nb hb) (hw nb hb).le
      linarith [(abs_le.1 he).1]
    · have : Spec.mean weighted minB.val used ≤ hi := by
        rw [Spec.mean, div_le_iff₀ hS, ← List.sum_map_mul_left]
        exact List.sum_le_sum fun nb hb => by
          rw [mul_comm hi]
          exact mul_le_mul_of_nonneg_left (hhi nb hb) (hw nb hb).le
      linarith [(abs_le.1 he).2]

/-! ## Whole numbers as targets -/

theorem fold_int : ∀ (l : List (NB D D)) (acc : D) (a : ℤ), acc.val = a → (∀ nb ∈ l, ∃ z : ℤ, nb.item.val = z) →
    |acc.val| + (l.map fun nb => |nb.item.val|).sum ≤ 2 ^ 53 →
    (l.foldl (fun acc nb => acc + nb.item) acc).val = acc.val + (l.map fun nb => nb.item.val).sum := by
  intro l
  induction l with
  | nil => intro acc a _ _ _; simp
  | cons p l ih =>
    intro acc a ha hz hb
    simp only [List.map_cons, List.sum_cons, List.foldl_cons] at hb ⊢
    obtain ⟨z, hpz⟩ := hz p (List.mem_cons_self ..)
    have hnn : 0 ≤ (l.map fun nb => |nb.item.val|).sum := List.sum_nonneg (by simp)
    have h1 : |acc.val + p.item.val| ≤ |acc.val| + |p.item.val| := abs_add_le _ _
    have he : (acc + p.item).val = acc.val + p.item.val := by
      show rd (acc.val + p.item.val) = _
      have h2 : |acc.val + p.item.val| ≤ 2 ^ 53 := by linarith
      rw [ha, hpz, ← Int.cast_add] at h2 ⊢
      exact Doubles.rd_int (by exact_mod_cast h2)
    rw [ih (acc + p.item) (a + z) (by rw [he, ha, hpz]; push_cast; ring) (fun nb hb => hz nb (List.mem_cons_of_mem _ hb))
      (by rw [he]; linarith), he]
    ring

/-- **C163b.**  Unweighted and with whole targets whose magnitudes add up to at most `2^53`, the average is the correctly rounded
exact mean, and so lies between the least and the greatest target exactly. -/
theorem knn_avg_whole (minB : D) (nn : List (NB D D)) (hne : nn ≠ []) (hn : nn.length ≤ 2 ^ 32)
    (hz : ∀ nb ∈ nn, ∃ z : ℤ, nb.item.val = z) (hb : (nn.map fun nb => |nb.item.val|).sum ≤ 2 ^ 53) :
    ∃ v, aggregate (method false minB) nn = some v ∧ v.val = rd ((nn.map fun nb => nb.item.val).sum / nn.length) ∧
      (∀ lo : D, (∀ nb ∈ nn, lo ≤ nb.item) → lo ≤ v) ∧ (∀ hi : D, (∀ nb ∈ nn, nb.item ≤ hi) → v ≤ hi) := by
  have hm : method false minB = .notWeighted := by simp [method]
  have he : nn.isEmpty = false := by simpa using hne
  have hov : (ofNat nn.length).val = nn.length := Doubles.rd_nat (hn.trans (by norm_num))
  have hs := fold_int nn 0 0 (by rw [zero_val]; simp) hz (by rw [zero_val]; simpa using hb)
  rw [zero_val, zero_add] at hs
  have hy : (div (nn.foldl (fun acc nb => acc + nb.item) 0) (ofNat nn.length)).val =
      rd ((nn.map fun nb => nb.item.val).sum / nn.length) := by rw [← hov, ← hs]; rfl
  have hpos : (0 : ℝ) < nn.length := by
    have := List.length_pos_of_ne_nil hne
    exact_mod_cast this
  refine ⟨_, by rw [hm]; simp only [aggregate, he]; rfl, hy, fun lo hlo => ?_, fun hi hhi => ?_⟩
  · show lo.val ≤ _
    rw [hy, ← show rd lo.val = lo.val from fl_rep f64 (Flt.isRep lo)]
    apply Doubles.rd_mono
    rw [le_div_iff₀ hpos]
    have h := List.card_nsmul_le_sum (nn.map fun nb => nb.item.val) lo.val (by
      intro x hx
      obtain ⟨nb, hb, rfl⟩ := List.mem_map.1 hx
      exact hlo nb hb)
    simp only [List.length_map, nsmul_eq_mul] at h
    linarith
  · show _ ≤ hi.val
    rw [hy, ← show rd hi.val = hi.val from fl_rep f64 (Flt.isRep hi)]
    apply Doubles.rd_mono
    rw [div_le_iff₀ hpos]
    have h := List.sum_le_card_nsmul (nn.map fun nb => nb.item.val) hi.val (by
      intro x hx
      obtain ⟨nb, hb, rfl⟩ := List.mem_map.1 hx
      exact hhi nb hb)
    simp only [List.length_map, nsmul_eq_mul] at h
    linarith

/-! ## Where the average leaves the range of the targets -/

theorem dist_one (cosine hav : List D → List D → D) {d : KDT.Dist D} (h : KDT.Dist.ofString cosine hav "l1" 1 = .ok d) (a b : D) :
    (d.dist [a] [b]).val = |rd (a.val - b.val)| := by
  obtain rfl : KDT.Dist.l1 = d := by simpa [KDT.Dist.ofString] using h
  show rd (0 + |rd (a.val - b.val)|) = _
  rw [zero_add, Doubles.rd_abs]
  exact fl_idem f64 _

theorem ofInt_three : (ofInt 3 : D).val = 3 := by rw [ofInt_val (by norm_num)]; norm_num

/-- The only neighbor at distance 3 with target 7. -/
theorem seven {nb : NB D D} (hd : nb.dist.val = 3) (ht : nb.item.val = 7) :
    ∃ v, aggregate .weighted [nb] = some v ∧ v.val = 7 - 2 ^ (-50 : ℤ) := by
  have hw : (recip nb.dist).val = 6004799503160661 * 2 ^ (-54 : ℤ) := by
    show rd (1 / nb.dist.val) = _
    rw [hd, rd_at (-54) 6004799503160661 (by norm_num) (by norm_num) (by norm_num) (by norm_num [abs_lt])]
    norm_num
  have hw1 : (0 + recip nb.dist).val = 6004799503160661 * 2 ^ (-54 : ℤ) := by rw [zero_add_val, hw]
  have hp : (recip nb.dist * nb.item).val = 5254199565265578 * 2 ^ (-51 : ℤ) := by
    show rd ((recip nb.dist).val * nb.item.val) = _
    rw [hw, ht, rd_at (-51) 5254199565265578 (by norm_num) (by norm_num) (by norm_num) (by norm_num [abs_lt])]
    norm_num
  have hp1 : (0 + recip nb.dist * nb.item).val = 5254199565265578 * 2 ^ (-51 : ℤ) := by rw [zero_add_val, hp]
  refine ⟨_, rfl, ?_⟩
  show rd ((0 + recip nb.dist * nb.item).val / (0 + recip nb.dist).val) = _
  rw [hw1, hp1, rd_at (-50) 7881299347898367 (by norm_num) (by norm_num) (by norm_num) (by norm_num [abs_lt])]
  norm_num

/-- Three neighbors with the target 7000000000000006. -/
theorem thrice {l : List (NB D D)} (hl : l.length = 3) (ht : ∀ nb ∈ l, nb.item.val = 7000000000000006) :
    ∃ v, aggregate .notWeighted l = some v ∧ v.val = 7000000000000005 := by
  have hS := fold_sum (l.map (·.item)) [] 0 .nil
  rw [List.nil_append, List.map_map] at hS
  have h3 := (ScaleDbl.three_sum hS (by
    intro x hx
    obtain ⟨nb, hb, rfl⟩ := List.mem_map.1 hx
    exact ht nb hb) (by simp [hl])).2.2.2 (by simp [hl])
  rw [List.foldl_map] at h3
  have he : l.isEmpty = false := by
    cases l with
    | nil => simp at hl
    | cons => rfl
  refine ⟨_, by simp only [aggregate, he]; rfl, ?_⟩
  have hov : (ofNat l.length).val = 3 := by
    rw [hl]
    show rd ((3 : ℕ) : ℝ) = 3
    rw [Doubles.rd_nat (by norm_num)]
    norm_num
  show rd ((l.foldl (fun (acc : D) (nb : NB D D) => acc + nb.item) 0).val / (ofNat l.length).val) = _
  rw [h3, hov, rd_at 0 7000000000000005 (by norm_num) (by norm_num) (by norm_num) (by norm_num [abs_lt])]
  norm_num

/-- When there is room for all, nobody nearer than the bound is left out. -/
theorem nearest_all {A : Type} {k : ℕ} {b : D} {res all : List (NB D A)} (h : KDT.Spec.Nearest k b res all) (hk : all.length ≤ k)
    (hb : ∀ x ∈ all, x.dist < b) : res.Perm all := by
  obtain ⟨left, hp, hl⟩ := h.split
  cases left with
  | nil => simpa using hp
  | cons x left =>
    exfalso
    have hlen := hp.length_eq
    simp only [List.length_append, List.length_cons] at hlen
    rcases hl x (List.mem_cons_self ..) with h1 | ⟨h1, -⟩
    · exact absurd (hb x (hp.subset (List.mem_append_right _ (List.mem_cons_self ..)))) (not_lt.2 h1)
    · omega

theorem val_of {n : ℤ} (h : |n| < 2 ^ 53) : (ofInt n : D).val = n := ofInt_val h

theorem dist_val (cosine hav : List D → List D → D) {d : KDT.Dist D} (h : KDT.Dist.ofString cosine hav "l1" 1 = .ok d) {a b : ℤ}
    (ha : |a| < 2 ^ 53) (hb : |b| < 2 ^ 53) (hab : |a - b| ≤ 2 ^ 53) : (d.dist [ofInt a] [ofInt b]).val = |(a : ℝ) - b| := by
  rw [dist_one cosine hav h, val_of ha, val_of hb, ← Int.cast_sub, Doubles.rd_int hab]

theorem eps_lt : (eps : D) < ofInt 100 := by
  show (eps : D).val < (ofInt 100 : D).val
  rw [val_of (by norm_num)]
  have : (eps : D).val = 2 ^ (-52 : ℤ) := by
    show rd ((2 : ℝ) ^ (-(f64.frac : ℤ))) = _
    have : (-(f64.frac : ℤ)) = -52 := by simp [f64]
    rw [this]
    exact fl_rep f64 (rep_two _ (by norm_num))
  rw [this]
  norm_num

/-- **C163c.**  The average leaves the range of the targets.  Weighted with `min_dist = 1`: of the rows 0 and 3 with the targets 1 and 7
the first gets 7 − 2^-50, although its only neighbor has the target 7.  Unweighted: of the rows 0, 3, 3, 3 with the targets 1 and
three times 7000000000000006 the first gets 7000000000000005.  For every way of sorting. -/
theorem knn_avg_leaves (us : USort) (cosine hav : List D → List D → D) :
    (∃ col v, knnAvg us cosine hav 1 [ofInt 1, ofInt 7] [[some (ofInt 0)], [some (ofInt 3)]] 1 true (ofInt 1) (ofInt 100) "l1" = .ok col ∧
      col[0]? = some (some v) ∧ v.val = 7 - 2 ^ (-50 : ℤ)) ∧
    (∃ col v, knnAvg us cosine hav 1 [ofInt 1, ofInt 7000000000000006, ofInt 7000000000000006, ofInt 7000000000000006]
        [[some (ofInt 0)], [some (ofInt 3)], [some (ofInt 3)], [some (ofInt 3)]] 3 false (ofInt 1) (ofInt 100) "l1" = .ok col ∧
      col[0]? = some (some v) ∧ v.val = 7000000000000005) := by
  have h1 : (ofInt 1 : D).val = 1 := by rw [val_of (by norm_num)]; norm_num
  have h100 : (ofInt 100 : D).val = 100 := by rw [val_of (by norm_num)]; norm_num
  constructor
  · obtain ⟨d, col, hd, -, hc, -, hr⟩ := column us cosine hav 1 one_pos [ofInt 1, ofInt 7] [[some (ofInt 0)], [some (ofInt 3)]] rfl
      (by simp) 1 le_rfl true (ofInt 1) (ofInt 100) eps_lt "l1" (by simp [KDT.Spec.metricNames]) ⟨[some (ofInt 0)], by simp, by simp⟩
    obtain ⟨nbs, n2, hcol⟩ := (hr 0 [some (ofInt 0)] rfl).2 (by simp)
    have hall : KDT.Spec.all d ([some (ofInt 0)].filterMap id) (KDT.Spec.candidates [ofInt 1, ofInt 7]
        (List.replicate 2 true) [[some (ofInt 0)], [some (ofInt 3)]]) =
        [⟨d.dist [ofInt 0] [ofInt 0], ofInt 1⟩, ⟨d.dist [ofInt 3] [ofInt 0], ofInt 7⟩] := rfl
    have d0 : (d.dist [ofInt 0] [ofInt 0]).val = 0 := by
      rw [dist_val cosine hav hd (by norm_num) (by norm_num) (by norm_num)]; norm_num
    have d3 : (d.dist [ofInt 3] [ofInt 0]).val = 3 := by
      rw [dist_val cosine hav hd (by norm_num) (by norm_num) (by norm_num)]; norm_num
    change KDT.Spec.Nearest _ _ _ (KDT.Spec.all d ([some (ofInt 0)].filterMap id) (KDT.Spec.candidates [ofInt 1, ofInt 7]
        (List.replicate 2 true) [[some (ofInt 0)], [some (ofInt 3)]])) at n2
    rw [hall] at n2
    have hp := (nearest_all n2 (by simp) (by
      intro x hx
      show x.dist.val < (ofInt 100 : D).val
      simp only [List.mem_cons, List.not_mem_nil, or_false] at hx
      rcases hx with rfl | rfl
      · rw [d0, h100]; norm_num
      · rw [d3, h100]; norm_num)).filter (fun nb => decide (ofInt 1 ≤ nb.dist))
    have e0 : ¬ (ofInt 1 : D) ≤ d.dist [ofInt 0] [ofInt 0] := by
      show ¬ (ofInt 1 : D).val ≤ (d.dist [ofInt 0] [ofInt 0]).val
      rw [d0, h1]; norm_num
    have e3 : (ofInt 1 : D) ≤ d.dist [ofInt 3] [ofInt 0] := by
      show (ofInt 1 : D).val ≤ (d.dist [ofInt 3] [ofInt 0]).val
      rw [d3, h1]; norm_num
    rw [List.filter_cons_of_neg (by simpa using e0), List.filter_cons_of_pos (by simpa using e3), List.filter_nil] at hp
    rw [List.perm_singleton.1 hp] at hcol
    have hmeth : method true (ofInt 1) = .weighted := by
      have : ¬ (ofInt 1 : D) ≤ eps := by
        show ¬ (ofInt 1 : D).val ≤ (eps : D).val
        rw [h1]
        have : (eps : D).val = 2 ^ (-52 : ℤ) := by
          show rd ((2 : ℝ) ^ (-(f64.frac : ℤ))) = _
          have : (-(f64.frac : ℤ)) = -52 := by simp [f64]
          rw [this]
          exact fl_rep f64 (rep_two _ (by norm_num))
        rw [this]
        norm_num
      simp [method, this]
    obtain ⟨v, v1, v2⟩ := seven (nb := ⟨d.dist [ofInt 3] [ofInt 0], ofInt 7⟩) d3 (by
      show (ofInt 7 : D).val = 7
      rw [val_of (by norm_num)]; norm_num)
    rw [hmeth, v1] at hcol
    exact ⟨col, v, hc, hcol, v2⟩
  · obtain ⟨d, col, hd, -, hc, -, hr⟩ := column us cosine hav 1 one_pos
      [ofInt 1, ofInt 7000000000000006, ofInt 7000000000000006, ofInt 7000000000000006]
      [[some (ofInt 0)], [some (ofInt 3)], [some (ofInt 3)], [some (ofInt 3)]] rfl
      (by simp) 3 (by norm_num) false (ofInt 1) (ofInt 100) eps_lt "l1" (by simp [KDT.Spec.metricNames]) ⟨[some (ofInt 0)], by simp, by simp⟩
    obtain ⟨nbs, n2, hcol⟩ := (hr 0 [some (ofInt 0)] rfl).2 (by simp)
    have d0 : (d.dist [ofInt 0] [ofInt 0]).val = 0 := by
      rw [dist_val cosine hav hd (by norm_num) (by norm_num) (by norm_num)]; norm_num
    have d3 : (d.dist [ofInt 3] [ofInt 0]).val = 3 := by
      rw [dist_val cosine hav hd (by norm_num) (by norm_num) (by norm_num)]; norm_num
    change KDT.Spec.Nearest 4 _ _ [⟨d.dist [ofInt 0] [ofInt 0], ofInt 1⟩, ⟨d.dist [ofInt 3] [ofInt 0], ofInt 7000000000000006⟩,
      ⟨d.dist [ofInt 3] [ofInt 0], ofInt 7000000000000006⟩, ⟨d.dist [ofInt 3] [ofInt 0], ofInt 7000000000000006⟩] at n2
    have hp := (nearest_all n2 (by simp) (by
      intro x hx
      show x.dist.val < (ofInt 100 : D).val
      simp only [List.mem_cons, List.not_mem_nil, or_false] at hx
      rcases hx with rfl | rfl | rfl | rfl
      · rw [d0, h100]; norm_num
      all_goals rw [d3, h100]; norm_num)).filter (fun nb => decide (ofInt 1 ≤ nb.dist))
    have e0 : ¬ (ofInt 1 : D) ≤ d.dist [ofInt 0] [ofInt 0] := by
      show ¬ (ofInt 1 : D).val ≤ (d.dist [ofInt 0] [ofInt 0]).val
      rw [d0, h1]; norm_num
    have e3 : (ofInt 1 : D) ≤ d.dist [ofInt 3] [ofInt 0] := by
      show (ofInt 1 : D).val ≤ (d.dist [ofInt 3] [ofInt 0]).val
      rw [d3, h1]; norm_num
    rw [List.filter_cons_of_neg (by simpa using e0), List.filter_cons_of_pos (by simpa using e3),
      List.filter_cons_of_pos (by simpa using e3), List.filter_cons_of_pos (by simpa using e3), List.filter_nil] at hp
    obtain ⟨v, v1, v2⟩ := thrice (by simpa using hp.length_eq) (by
      intro nb hb
      have hb := hp.subset hb
      simp only [List.mem_cons, List.not_mem_nil, or_false, or_self] at hb
      rw [hb]
      show (ofInt 7000000000000006 : D).val = _
      rw [val_of (by norm_num)]; norm_num)
    have hmeth : method false (ofInt 1) = .notWeighted := by simp [method]
    rw [hmeth, v1] at hcol
    exact ⟨col, v, hc, hcol, v2⟩

/-- The hypotheses of `knn_avg_double_partial` for a frame with a null, weighted, k = 2. -/
example : ∃ d col, KDT.Dist.ofString (fun _ _ => (0 : D)) (fun _ _ => 0) "l2" 2 = .ok d ∧
    knnAvg insertionUSort (fun _ _ => 0) (fun _ _ => 0) 2 [ofInt 10, ofInt 20, ofInt 30]
      [[some (ofInt 0), some (ofInt 1)], [some (ofInt 4), none], [some (ofInt 3), some (ofInt 5)]] 2 true 0 (ofInt 100) "l2" = .ok col ∧
    col.length = 3 ∧ col[1]? = some (none : Option D) := by
  obtain ⟨d, col, h1, h2, h3, h4⟩ := knn_avg_double_partial insertionUSort (fun _ _ => 0) (fun _ _ => 0) 2 (by norm_num)
    [ofInt 10, ofInt 20, ofInt 30]
    [[some (ofInt 0), some (ofInt 1)], [some (ofInt 4), none], [some (ofInt 3), some (ofInt 5)]] rfl (by simp) 2 (by norm_num) (by norm_num)
    true 0 (ofInt 100) eps_lt (by
      rw [val_of (by norm_num)]
      calc ((100 : ℤ) : ℝ) ≤ 2 ^ (7 : ℤ) := by norm_num
        _ ≤ _ := zpow_le_zpow_right₀ (by norm_num) (by norm_num)) "l2" (by simp [KDT.Spec.metricNames]) (by norm_num)
    ⟨[some (ofInt 0), some (ofInt 1)], by simp, by simp⟩
  exact ⟨d, col, h1, h2, h3, (h4 1 _ rfl).1 (by simp)⟩

/-- Two neighbors with the targets 3 and 4. -/
example : ∃ v, aggregate (method false 0) [⟨ofInt 1, ofInt 3⟩, ⟨ofInt 2, ofInt 4⟩] = some v ∧ v.val = rd ((3 + 4) / 2) := by
  have h3 : (ofInt 3 : D).val = 3 := ofInt_three
  have h4 : (ofInt 4 : D).val = 4 := by rw [val_of (by norm_num)]; norm_num
  obtain ⟨v, h1, h2, -⟩ := knn_avg_whole 0 [⟨ofInt 1, ofInt 3⟩, ⟨ofInt 2, ofInt 4⟩] (by simp) (by norm_num) (by
      intro nb hb
      simp only [List.mem_cons, List.not_mem_nil, or_false] at hb
      rcases hb with rfl | rfl
      · exact ⟨3, by simpa using h3⟩
      · exact ⟨4, by simpa using h4⟩) (by simp [h3, h4]; norm_num)
  refine ⟨v, h1, ?_⟩
  rw [h2]
  simp [h3, h4]

end Verif.KnnDbl
