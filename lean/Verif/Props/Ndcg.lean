import Verif.Lemmas.Ndcg

/-!
# Normalised discounted cumulative gain (C77)
-/

namespace Verif.Ndcg

namespace Spec

/-- The discount of a rank for a cut-off `k` (`none`: every rank counts). -/
noncomputable def discount (k : Option ℤ) (rank : ℕ) : ℝ :=
  if (∀ c, k = some c → (rank : ℤ) ≤ c) then 1 / Real.logb 2 ((rank : ℝ) + 1) else 0

/-- DCG of a list of relevances, best ranked first. -/
noncomputable def dcg (k : Option ℤ) (l : List ℝ) : ℝ :=
  ∑ i ∈ Finset.range l.length, l.getD i 0 * discount k (i + 1)

/-- The rows of a group. -/
def group (g : ℕ) (df : List Row) : List Row := df.filter fun r => decide (r.grp = g)

/-- Rows of `l` scored above `v`. -/
noncomputable def above (l : List Row) (v : ℝ) : ℕ := l.countP fun r => decide (v < r.score)
/-- Rows of `l` scored exactly `v`. -/
noncomputable def at_ (l : List Row) (v : ℝ) : ℕ := l.countP fun r => decide (r.score = v)

/-- DCG with ties: each row gets the mean discount of the ranks its tied rows occupy together. -/
noncomputable def tiedDcg (k : Option ℤ) (l : List Row) : ℝ :=
  (l.map fun r => r.rel * ((∑ i ∈ Finset.range (at_ l r.score), discount k (above l r.score + i + 1))
    / (at_ l r.score : ℝ))).sum

end Spec
open Spec

/-! ## Lemmas -/

theorem disc_spec {k : Option ℤ} (hk : k ≠ some 0) (i : ℕ) : disc k i = discount k i := by
  cases k with
  | none => simp [disc, mask, discount]
  | some k =>
    have : k ≠ 0 := fun h => hk (by rw [h])
    simp only [disc, mask, if_neg this, discount, Option.some.injEq, forall_eq']
    split_ifs <;> simp

theorem wsum_spec (w : ℕ → ℝ) (r : ℕ) (l : List ℝ) :
    wsum w r l = ∑ i ∈ Finset.range l.length, l.getD i 0 * w (r + i) := by
  induction l generalizing r with
  | nil => simp [wsum]
  | cons x l ih =>
    rw [wsum, List.length_cons, Finset.sum_range_succ', ih, add_comm]
    congr 1
    apply Finset.sum_congr rfl
    intro i _
    simp only [List.getD_cons_succ]
    rw [show r + 1 + i = r + (i + 1) by ring]

theorem wsum_dcg {k : Option ℤ} (hk : k ≠ some 0) (l : List ℝ) : wsum (disc k) 1 l = dcg k l := by
  rw [wsum_spec, dcg]
  apply Finset.sum_congr rfl
  intro i _
  rw [disc_spec hk, add_comm 1 i]

theorem group_eq (g : ℕ) (df : List Row) : inGroup g df = group g df := by
  unfold inGroup group
  congr 1

theorem ideal_wsum (us : USort) (k : Option ℤ) (df : List Row) (g : ℕ) :
    ∃ m : List ℝ, m.Perm ((group g df).map Row.rel) ∧ m.Pairwise (· ≥ ·)
      ∧ dcgIgnore us k Row.rel df g = wsum (disc k) 1 m := by
  refine ⟨(inGroup g (sortDesc us Row.rel df)).map Row.rel, ?_, ?_, dcgFrom_eq k 1 _⟩
  · rw [← group_eq]; exact (inGroup_perm us Row.rel df g).map _
  · rw [List.pairwise_map]; exact inGroup_sorted us Row.rel df g

theorem score_wsum (us : USort) (k : Option ℤ) (key : Row → ℝ) (df : List Row) (g : ℕ) :
    ∃ m : List Row, m.Perm (group g df) ∧ m.Pairwise (fun x y => key y ≤ key x)
      ∧ dcgIgnore us k key df g = wsum (disc k) 1 (m.map Row.rel) :=
  ⟨_, by rw [← group_eq]; exact inGroup_perm us key df g, inGroup_sorted us key df g, dcgFrom_eq k 1 _⟩

theorem ties_blocks (us : USort) (k : Option ℤ) (df : List Row) (g : ℕ) :
    ∃ bs : List (List Row), bs.flatten.Perm (group g df) ∧ IsBlocks bs
      ∧ dcgTies us k Row.score df g = blockDcg k 0 bs := by
  obtain ⟨bs, hbs, hI⟩ := exists_blocks _ (inGroup_sorted us Row.score df g)
  refine ⟨bs, ?_, hI, ?_⟩
  · rw [← hbs, ← group_eq]; exact inGroup_perm us Row.score df g
  · rw [dcgTies, hbs, tie_eq_blockDcg k bs hI]

theorem score_le_ideal (us : USort) (k : Option ℤ) (ties : Bool) (df : List Row) (g : ℕ) :
    (if ties then dcgTies us k Row.score df g else dcgIgnore us k Row.score df g)
      ≤ dcgIgnore us k Row.rel df g := by
  obtain ⟨mi, hmi, hsi, ei⟩ := ideal_wsum us k df g
  rw [ei]
  cases ties
  · obtain ⟨m, hm, -, e⟩ := score_wsum us k Row.score df g
    simp only [Bool.false_eq_true, if_false]
    rw [e]
    exact wsum_perm_le (disc_anti k) ((hm.map Row.rel).trans hmi.symm) hsi
  · obtain ⟨bs, hbs, hI, e⟩ := ties_blocks us k df g
    obtain ⟨m, hm, hle⟩ := blockDcg_le k 0 bs fun b hb => (hI.1 b hb).1
    simp only [if_true]
    rw [e]
    exact le_trans hle (wsum_perm_le (disc_anti k) ((hm.trans (hbs.map Row.rel)).trans hmi.symm) hsi)

theorem score_nonneg (us : USort) (k : Option ℤ) (ties : Bool) (df : List Row) (g : ℕ)
    (h : ∀ r ∈ df, 0 ≤ r.rel) :
    0 ≤ (if ties then dcgTies us k Row.score df g else dcgIgnore us k Row.score df g) := by
  have hg : ∀ r ∈ group g df, 0 ≤ r.rel := fun r hr => h r (List.mem_filter.1 hr).1
  cases ties
  · obtain ⟨m, hm, -, e⟩ := score_wsum us k Row.score df g
    simp only [Bool.false_eq_true, if_false]
    rw [e]
    apply wsum_nonneg (disc_nonneg k)
    simp only [List.mem_map]; rintro _ ⟨r, hr, rfl⟩; exact hg r (hm.mem_iff.1 hr)
  · obtain ⟨bs, hbs, hI, e⟩ := ties_blocks us k df g
    simp only [if_true]
    rw [e]
    exact blockDcg_nonneg k 0 bs fun b hb r hr => hg r (hbs.mem_iff.1 (List.mem_flatten.2 ⟨b, hb, hr⟩))

/-! ## The claims -/

/-- **C77.**  The ideal DCG the score is divided by is the largest DCG any order of the group's rows can have,
and some order attains it; it does not depend on how the sort breaks ties. -/
theorem ideal_is_max (us : USort) {k : Option ℤ} (hk : k ≠ some 0) (df : List Row) (g : ℕ) :
    (∀ m : List Row, m.Perm (group g df) → dcg k (m.map Row.rel) ≤ dcgIgnore us k Row.rel df g)
    ∧ ∃ m : List Row, m.Perm (group g df) ∧ dcg k (m.map Row.rel) = dcgIgnore us k Row.rel df g := by
  obtain ⟨mi, hmi, hsi, ei⟩ := ideal_wsum us k df g
  constructor
  · intro m hm
    rw [ei, ← wsum_dcg hk]
    exact wsum_perm_le (disc_anti k) ((hm.map Row.rel).trans hmi.symm) hsi
  · obtain ⟨m, hm, -, e⟩ := score_wsum us k Row.rel df g
    exact ⟨m, hm, by rw [e, wsum_dcg hk]⟩

/-- A sort that is not stable: equal elements come out in reverse order. -/
def revSort : USort where
  run le l := l.reverse.mergeSort le
  perm _ l := (List.mergeSort_perm _ _).trans (List.reverse_perm l)
  sorted _ ht htot l := List.pairwise_mergeSort ht htot l.reverse

/-- A stable sort. -/
def stableSort : USort where
  run le l := l.mergeSort le
  perm _ _ := List.mergeSort_perm _ _
  sorted _ ht htot l := List.pairwise_mergeSort ht htot l

example : ([⟨1, 0, 5⟩, ⟨1, 3, 4⟩] : List Row).Perm (group 1 [⟨1, 0, 5⟩, ⟨2, 1, 1⟩, ⟨1, 3, 4⟩]) := by
  simp [group]

/-- **C77.**  For relevances that are not negative, the score of every group is between 0 and 1, with and
without averaging over ties, however the sort breaks ties. -/
theorem ndcg_unit (us : USort) (k : Option ℤ) (ties : Bool) (df : List Row) (g : ℕ)
    (h : ∀ r ∈ df, 0 ≤ r.rel) : 0 ≤ ndcgGroup us k ties df g ∧ ndcgGroup us k ties df g ≤ 1 := by
  have h1 := score_nonneg us k ties df g h
  have h2 := score_le_ideal us k ties df g
  unfold ndcgGroup
  simp only
  generalize (if ties = true then dcgTies us k Row.score df g else dcgIgnore us k Row.score df g) = d at h1 h2 ⊢
  split_ifs with h0
  · exact ⟨le_refl _, zero_le_one⟩
  · exact ⟨div_nonneg h1 (le_trans h1 h2), div_le_one_of_le₀ h2 (le_trans h1 h2)⟩

example : ∀ r ∈ ([⟨1, 0, 5⟩, ⟨1, 3, 4⟩] : List Row), 0 ≤ r.rel := by simp

/-- **C77.**  If the scores order the group's rows as the relevances do and the ideal DCG is not zero, the score
is exactly one. -/
theorem ndcg_perfect (us : USort) (k : Option ℤ) (df : List Row) (g : ℕ)
    (h : ∀ x ∈ group g df, ∀ y ∈ group g df, y.rel < x.rel → y.score < x.score)
    (h0 : dcgIgnore us k Row.rel df g ≠ 0) : ndcgGroup us k false df g = 1 := by
  obtain ⟨mi, hmi, hsi, ei⟩ := ideal_wsum us k df g
  obtain ⟨m, hm, hs, e⟩ := score_wsum us k Row.score df g
  have hms : (m.map Row.rel).Pairwise (· ≥ ·) := by
    rw [List.pairwise_map]
    refine List.Pairwise.imp_of_mem ?_ hs
    intro a b ha hb hab
    by_contra hlt
    exact absurd hab (not_le.2 (h b (hm.mem_iff.1 hb) a (hm.mem_iff.1 ha) (lt_of_not_ge hlt)))
  have : m.map Row.rel = mi := sorted_unique ((hm.map Row.rel).trans hmi.symm) hms hsi
  unfold ndcgGroup
  simp only [Bool.false_eq_true, if_false, if_neg h0]
  rw [e, this, ← ei]
  exact div_self h0

theorem example_ideal (us : USort) : dcgIgnore us none Row.rel [⟨1, 1, 5⟩, ⟨1, 0, 4⟩] 1 ≠ 0 := by
  have h1 := (ideal_is_max us (k := none) (by simp) [⟨1, 1, 5⟩, ⟨1, 0, 4⟩] 1).1 [⟨1, 1, 5⟩, ⟨1, 0, 4⟩] (by simp [group])
  have h2 : dcg none (([⟨1, 1, 5⟩, ⟨1, 0, 4⟩] : List Row).map Row.rel) = 1 := by
    have : (1 : ℝ) + 1 = 2 := by norm_num
    simp [dcg, Finset.sum_range_succ, discount, this]
  rw [h2] at h1
  intro h; rw [h] at h1; norm_num at h1

example (us : USort) : ndcgGroup us none false [⟨1, 1, 5⟩, ⟨1, 0, 4⟩] 1 = 1 :=
  ndcg_perfect us none _ 1 (by simp [group]; norm_num) (example_ideal us)

/-- **C77.**  With `ignore_ties=True` every row contributes its relevance times the mean discount of the ranks
that its tied rows occupy together. -/
theorem ties_value (us : USort) {k : Option ℤ} (hk : k ≠ some 0) (df : List Row) (g : ℕ) :
    dcgTies us k Row.score df g = tiedDcg k (group g df) := by
  obtain ⟨bs, hbs, hI, e⟩ := ties_blocks us k df g
  have hsp : tiedDcg k (group g df) = tiedDcg k bs.flatten := by
    unfold tiedDcg
    have ha : ∀ v, above bs.flatten v = above (group g df) v := fun v => hbs.countP_eq _
    have ht : ∀ v, at_ bs.flatten v = at_ (group g df) v := fun v => hbs.countP_eq _
    simp only [ha, ht]
    exact ((hbs.map _).sum_eq).symm
  rw [e, hsp]
  unfold tiedDcg
  have key : ∀ pre post : List (List Row), IsBlocks (pre ++ post) →
      blockDcg k pre.flatten.length post
        = (post.flatten.map fun r => r.rel * ((∑ i ∈ Finset.range (at_ (pre ++ post).flatten r.score),
            discount k (above (pre ++ post).flatten r.score + i + 1)) / (at_ (pre ++ post).flatten r.score : ℝ))).sum := by
    intro pre post
    induction post generalizing pre with
    | nil => intro _; rfl
    | cons b post ih =>
      intro h
      obtain ⟨hne, v, hp, hb, hq⟩ := blocks_split h
      have hfl : (pre ++ b :: post).flatten = pre.flatten ++ b ++ post.flatten := by simp
      have hab : above (pre ++ b :: post).flatten v = pre.flatten.length := by
        have := minRank_block hp hb hq
        rw [hfl, above, List.countP_eq_length_filter]
        unfold minRank at this
        omega
      have hat : at_ (pre ++ b :: post).flatten v = b.length := by
        rw [hfl, at_, List.countP_append, List.countP_append]
        rw [List.countP_eq_zero.2 (fun r hr => by simpa using (hp r hr).ne'),
          List.countP_eq_length.2 (fun r hr => by simpa using hb r hr),
          List.countP_eq_zero.2 (fun r hr => by simpa using (hq r hr).ne)]
        simp
      have hI := ih (pre ++ [b]) (by simpa using h)
      have hlen : (pre ++ [b]).flatten.length = pre.flatten.length + b.length := by simp
      rw [hlen, show pre ++ [b] ++ post = pre ++ b :: post by simp] at hI
      rw [blockDcg, hI, List.flatten_cons, List.map_append, List.sum_append]
      congr 1
      have hc : b.map (fun r => r.rel * ((∑ i ∈ Finset.range (at_ (pre ++ b :: post).flatten r.score),
            discount k (above (pre ++ b :: post).flatten r.score + i + 1)) / (at_ (pre ++ b :: post).flatten r.score : ℝ)))
          = b.map fun r => r.rel * ((∑ i ∈ Finset.range b.length, discount k (pre.flatten.length + i + 1)) / (b.length : ℝ)) := by
        apply List.map_congr_left
        intro r hr
        rw [hb r hr, hab, hat]
      rw [hc, List.sum_map_mul_right, cumD_sub]
      have hd : ∑ i ∈ Finset.range b.length, disc k (pre.flatten.length + 1 + i)
          = ∑ i ∈ Finset.range b.length, discount k (pre.flatten.length + i + 1) := by
        apply Finset.sum_congr rfl
        intro i _
        rw [disc_spec hk]; congr 1; ring
      rw [hd]; ring
  exact key [] bs (by simpa using hI)

example : tiedDcg none [⟨1, 4, 5⟩, ⟨1, 0, 5⟩] = 2 * (1 + 1 / Real.logb 2 3) := by
  have h3 : (1 : ℝ) + 1 + 1 = 3 := by norm_num
  have h2 : (1 : ℝ) + 1 = 2 := by norm_num
  simp [tiedDcg, at_, above, discount, Finset.sum_range_succ, h2]
  norm_num
  ring

/-- **C77.**  With `ignore_ties=True` the result depends neither on how the sort breaks ties nor on the order of
the rows of the frame. -/
theorem ties_order_free (us us' : USort) {k : Option ℤ} (hk : k ≠ some 0) {df df' : List Row}
    (h : df.Perm df') (g : ℕ) : dcgTies us k Row.score df g = dcgTies us' k Row.score df' g := by
  rw [ties_value us hk, ties_value us' hk]
  have hp : (group g df).Perm (group g df') := h.filter _
  unfold tiedDcg
  have ha : ∀ v, above (group g df) v = above (group g df') v := fun v => hp.countP_eq _
  have ht : ∀ v, at_ (group g df) v = at_ (group g df') v := fun v => hp.countP_eq _
  simp only [ha, ht]
  exact (hp.map _).sum_eq

example : ([⟨1, 4, 5⟩, ⟨1, 0, 5⟩] : List Row).Perm [⟨1, 0, 5⟩, ⟨1, 4, 5⟩] := List.Perm.swap _ _ _

/-- **C77.**  Without tied scores inside the group the two modes agree. -/
theorem modes_agree (us : USort) (k : Option ℤ) (df : List Row) (g : ℕ)
    (h : ((group g df).map Row.score).Nodup) :
    ndcgGroup us k true df g = ndcgGroup us k false df g := by
  have : dcgTies us k Row.score df g = dcgIgnore us k Row.score df g := by
    obtain ⟨m, hm, hs, e⟩ := score_wsum us k Row.score df g
    have hnd : (m.map Row.score).Nodup := ((hm.map Row.score).nodup_iff).2 h
    have hst : m.Pairwise fun x y => y.score < x.score := by
      have h2 : m.Pairwise fun x y => x.score ≠ y.score := by rwa [List.Nodup, List.pairwise_map] at hnd
      exact (hs.and h2).imp fun ⟨h1, h2⟩ => lt_of_le_of_ne h1 (Ne.symm h2)
    have hB : IsBlocks (m.map fun r => [r]) := by
      refine ⟨?_, ?_⟩
      · simp only [List.mem_map]
        rintro _ ⟨r, -, rfl⟩
        exact ⟨by simp, r.score, by simp⟩
      · rw [List.pairwise_map]
        exact hst.imp (by simp)
    have hfl : (m.map fun r => [r]).flatten = m := by
      clear hm hs e hnd hst hB
      induction m with
      | nil => rfl
      | cons x m ih => simp [ih]
    have hperm : (inGroup g (sortDesc us Row.score df)).Perm m := by
      refine (inGroup_perm us Row.score df g).trans ?_
      rw [group_eq]; exact hm.symm
    have heq : inGroup g (sortDesc us Row.score df) = m := by
      refine hperm.eq_of_pairwise (le := fun x y => y.score ≤ x.score) ?_ (inGroup_sorted us Row.score df g) hs
      intro a b ha hb h1 h2
      have hmem : a ∈ m := hperm.mem_iff.1 ha
      by_contra hne
      have hsc : a.score = b.score := le_antisymm h2 h1
      exact hne (List.inj_on_of_nodup_map hnd hmem hb hsc)
    have hbd : ∀ n, blockDcg k n (m.map fun r => [r]) = wsum (disc k) (n + 1) (m.map Row.rel) := by
      intro n
      clear hm hs e hnd hst hB hfl hperm heq
      induction m generalizing n with
      | nil => rfl
      | cons x m ih =>
        simp only [List.map_cons, blockDcg, wsum, List.length_singleton]
        rw [ih (n + 1), cumD_succ]
        simp
    rw [e, dcgTies, heq]
    conv_lhs => rw [← hfl]
    rw [tie_eq_blockDcg k _ hB, hbd]
  unfold ndcgGroup
  simp only [if_true, Bool.false_eq_true, if_false, this]

example : ((group 1 [⟨1, 4, 5⟩, ⟨2, 0, 5⟩, ⟨1, 0, 7⟩]).map Row.score).Nodup := by
  simp [group]

/-- **C77, violated without tie averaging.**  With `ignore_ties=False` (the default) the result for tied scores
depends on the order in which the unstable sort leaves them: the same frame has two different scores. -/
theorem sequential_order_matters :
    ndcgGroup stableSort none false [⟨1, 1, 5⟩, ⟨1, 0, 5⟩] 1 = 1
    ∧ ndcgGroup revSort none false [⟨1, 1, 5⟩, ⟨1, 0, 5⟩] 1 < 1 := by
  have hlog : 1 < Real.logb 2 3 := by
    rw [Real.lt_logb_iff_rpow_lt (by norm_num) (by norm_num)]; norm_num
  have h2 : (1 : ℝ) + 1 = 2 := by norm_num
  have h3 : (2 : ℝ) + 1 = 3 := by norm_num
  have e1 : inGroup 1 (sortDesc stableSort Row.score [⟨1, 1, 5⟩, ⟨1, 0, 5⟩]) = [⟨1, 1, 5⟩, ⟨1, 0, 5⟩] := by
    simp [sortDesc, stableSort, inGroup, List.mergeSort, List.MergeSort.Internal.splitInTwo]
  have e2 : inGroup 1 (sortDesc revSort Row.score [⟨1, 1, 5⟩, ⟨1, 0, 5⟩]) = [⟨1, 0, 5⟩, ⟨1, 1, 5⟩] := by
    simp [sortDesc, revSort, inGroup, List.mergeSort, List.MergeSort.Internal.splitInTwo]
  have i1 : ∀ us, dcgIgnore us none Row.rel [⟨1, 1, 5⟩, ⟨1, 0, 5⟩] 1 = 1 := by
    intro us
    obtain ⟨mi, hmi, hsi, ei⟩ := ideal_wsum us none [⟨1, 1, 5⟩, ⟨1, 0, 5⟩] 1
    have : mi = [1, 0] := sorted_unique (hmi.trans (by simp [group])) hsi (by simp)
    rw [ei, this]; simp [wsum, disc, mask, h2]
  constructor
  · unfold ndcgGroup
    simp only [Bool.false_eq_true, if_false, i1]
    rw [dcgIgnore, e1]
    simp [dcgFrom, disc, mask, h2]
  · unfold ndcgGroup
    simp only [Bool.false_eq_true, if_false, i1]
    rw [dcgIgnore, e2]
    simp [dcgFrom, disc, mask, h3]
    exact inv_lt_one_of_one_lt₀ hlog

/-- **C77.**  Without tied scores inside the group the result does not depend on the sort or on the order of the
rows in either mode. -/
theorem sequential_order_free (us us' : USort) {k : Option ℤ} (hk : k ≠ some 0) {df df' : List Row}
    (hp : df.Perm df') (g : ℕ) (h : ((group g df).map Row.score).Nodup) (ties : Bool) :
    ndcgGroup us k ties df g = ndcgGroup us' k ties df' g := by
  have hpg : (group g df).Perm (group g df') := hp.filter _
  have hid : dcgIgnore us k Row.rel df g = dcgIgnore us' k Row.rel df' g := by
    obtain ⟨m, hm, hs, e⟩ := ideal_wsum us k df g
    obtain ⟨m', hm', hs', e'⟩ := ideal_wsum us' k df' g
    rw [e, e', sorted_unique ((hm.trans (hpg.map _)).trans hm'.symm) hs hs']
  have ht : ndcgGroup us k true df g = ndcgGroup us' k true df' g := by
    unfold ndcgGroup
    simp only [if_true, hid, ties_order_free us us' hk hp g]
  cases ties
  · rw [← modes_agree us k df g h, ← modes_agree us' k df' g (((hpg.map Row.score).nodup_iff).1 h), ht]
  · exact ht

example : ([⟨1, 4, 5⟩, ⟨1, 0, 7⟩] : List Row).Perm [⟨1, 0, 7⟩, ⟨1, 4, 5⟩]
    ∧ ((group 1 [⟨1, 4, 5⟩, ⟨1, 0, 7⟩]).map Row.score).Nodup := by
  refine ⟨List.Perm.swap _ _ _, by simp [group]⟩

/-- **C77, violated.**  The group column has to be called `example_id`: every other name, including all those in
the documentation's examples, is an error. -/
theorem group_col_ignored (us : USort) (cols : List String) (groupCol : String) (k : Option ℤ) (ties : Bool)
    (df : List Row) (h : groupCol ≠ "example_id") :
    ∃ msg, calculate us cols groupCol k ties df = .error msg := by
  unfold calculate
  split_ifs <;> exact ⟨_, rfl⟩

example : "query_id" ≠ "example_id" := by decide

/-- **C77.**  With that column name, the result is the mean over the groups with more than one row, between 0 and
1 for relevances that are not negative, and null when there is no such group.  Missing: any other column name. -/
theorem calculate_mean_partial (us : USort) (cols : List String) (hc : "example_id" ∈ cols) (k : Option ℤ)
    (ties : Bool) (df : List Row) (h : ∀ r ∈ df, 0 ≤ r.rel) :
    ((∀ r ∈ df, (group r.grp df).length = 1) → calculate us cols "example_id" k ties df = .ok none)
    ∧ ((∃ r ∈ df, (group r.grp df).length ≠ 1) → ∃ (v : ℝ) (gs : List ℕ), calculate us cols "example_id" k ties df = .ok (some v)
        ∧ gs.Nodup ∧ (∀ g, g ∈ gs ↔ (∃ r ∈ df, r.grp = g) ∧ (group g df).length ≠ 1)
        ∧ v = (gs.map (ndcgGroup us k ties df)).sum / (gs.length : ℝ) ∧ 0 ≤ v ∧ v ≤ 1) := by
  have hmem : ∀ g, g ∈ keptGroups df ↔ (∃ r ∈ df, r.grp = g) ∧ (group g df).length ≠ 1 := by
    intro g
    unfold keptGroups
    rw [List.mem_filter, List.mem_dedup, List.mem_map, group_eq]
    simp
  have hcalc : calculate us cols "example_id" k ties df = .ok (if keptGroups df = [] then none
      else some (((keptGroups df).map (ndcgGroup us k ties df)).sum / ((keptGroups df).length : ℝ))) := by
    unfold calculate
    rw [if_neg (by simpa using hc), if_neg (by simp)]
  constructor
  · intro hall
    have : keptGroups df = [] := by
      rw [List.eq_nil_iff_forall_not_mem]
      intro g hg
      obtain ⟨⟨r, hr, rfl⟩, hne⟩ := (hmem g).1 hg
      exact hne (hall r hr)
    rw [hcalc, if_pos this]
  · rintro ⟨r, hr, hne⟩
    have hk : keptGroups df ≠ [] := List.ne_nil_of_mem ((hmem r.grp).2 ⟨⟨r, hr, rfl⟩, hne⟩)
    have hpos : (0 : ℝ) < (keptGroups df).length := by exact_mod_cast List.length_pos_of_ne_nil hk
    refine ⟨_, keptGroups df, by rw [hcalc, if_neg hk], (List.nodup_dedup _).filter _, hmem, rfl, ?_, ?_⟩
    · apply div_nonneg _ hpos.le
      apply List.sum_nonneg
      simp only [List.mem_map]; rintro _ ⟨g, -, rfl⟩
      exact (ndcg_unit us k ties df g h).1
    · apply div_le_one_of_le₀ _ hpos.le
      have := List.sum_le_card_nsmul ((keptGroups df).map (ndcgGroup us k ties df)) 1 (by
        simp only [List.mem_map]; rintro _ ⟨g, -, rfl⟩
        exact (ndcg_unit us k ties df g h).2)
      simpa using this

example : ∃ r ∈ ([⟨1, 4, 5⟩, ⟨1, 0, 7⟩] : List Row), (group r.grp [⟨1, 4, 5⟩, ⟨1, 0, 7⟩]).length ≠ 1 :=
  ⟨⟨1, 4, 5⟩, by simp, by simp [group]⟩

/-- **C77.**  A cut-off of zero is read as no cut-off. -/
theorem zero_cutoff (us : USort) (ties : Bool) (df : List Row) (g : ℕ) :
    ndcgGroup us (some 0) ties df g = ndcgGroup us none ties df g := by
  have hd : disc (some 0) = disc none := by funext i; simp [disc, mask]
  have h1 : dcgFrom (some 0) = dcgFrom none := by
    funext r l
    rw [dcgFrom_eq, dcgFrom_eq, hd]
  have h2 : cumRows (some 0) = cumRows none := by
    funext r acc l
    induction l generalizing r acc with
    | nil => rfl
    | cons x l ih => simp only [cumRows, hd, ih]
  have h3 : tieTable (some 0) = tieTable none := by
    funext s
    unfold tieTable
    congr 1; funext q
    unfold tieRow
    rw [h2]
  unfold ndcgGroup dcgTies dcgIgnore
  rw [h1, h3]

example (us : USort) : ndcgGroup us (some 0) false [⟨1, 1, 5⟩, ⟨1, 0, 4⟩] 1 = 1 := by
  rw [zero_cutoff]; exact ndcg_perfect us none _ 1 (by simp [group]; norm_num) (example_ideal us)

end Verif.Ndcg
