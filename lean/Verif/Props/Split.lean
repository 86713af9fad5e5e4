import Verif.Model.Split
import Verif.Props.Combos
import Mathlib.Algebra.BigOperators.Group.List.Basic
import Mathlib.Algebra.Order.BigOperators.Group.List
import Mathlib.Tactic.Linarith
import Mathlib.Tactic.FieldSimp
import Mathlib.Data.List.MinMax

/-!
# Splitting and sampling: theorems
-/

namespace Verif.Split
variable {α R : Type}

theorem countP_lt_range (t n : Nat) : (List.range n).countP (fun i => decide (i < t)) = min t n := by
  induction n with
  | zero => simp
  | succ n ih =>
    rw [List.range_succ, List.countP_append, ih]
    by_cases h : n < t
    · simp [List.countP_cons, h]; omega
    · simp [List.countP_cons, h]; omega

theorem keepBelow_length (rows : List α) (ids : List Nat) (thr : Nat) (h : ids.Perm (List.range rows.length)) :
    (keepBelow rows ids thr).length = min thr rows.length := by
  unfold keepBelow
  rw [List.length_map, ← List.countP_eq_length_filter, ← countP_lt_range thr rows.length, ← h.countP_eq]
  have hl : ids.length ≤ rows.length := by rw [h.length_eq, List.length_range]
  conv_rhs => rw [← List.map_snd_zip hl, List.countP_map]
  rfl

theorem keep_perm (rows : List α) (ids : List Nat) (thr : Nat) (h : ids.length = rows.length) :
    (keepBelow rows ids thr ++ keepAbove rows ids thr).Perm rows := by
  unfold keepBelow keepAbove
  rw [← List.map_append]
  have h1 := List.filter_append_perm (fun p : α × Nat => decide (p.2 < thr)) (rows.zip ids)
  have h2 := h1.map Prod.fst
  rwa [List.map_fst_zip (by omega)] at h2

theorem keepBelow_sublist (rows : List α) (ids : List Nat) (thr : Nat) (h : ids.length = rows.length) :
    (keepBelow rows ids thr).Sublist rows := by
  have h1 := (List.filter_sublist (p := fun p : α × Nat => decide (p.2 < thr)) (l := rows.zip ids)).map Prod.fst
  rwa [List.map_fst_zip (by omega)] at h1

theorem keepAbove_sublist (rows : List α) (ids : List Nat) (thr : Nat) (h : ids.length = rows.length) :
    (keepAbove rows ids thr).Sublist rows := by
  have h1 := (List.filter_sublist (p := fun p : α × Nat => !decide (p.2 < thr)) (l := rows.zip ids)).map Prod.fst
  rwa [List.map_fst_zip (by omega)] at h1

/-- With a single ratio the two frames contain every row exactly once, in the original order, and the first has
exactly `trunc (n * ratio)` rows, whatever the rounding and the shuffle; but if that number is `0` or at least `n`
one of the frames is missing and the call fails. -/
theorem split_ratio_partition_partial (trunc : Nat → R → Nat) (r : R) (ids : List Nat) (rows : List α)
    (h : ids.Perm (List.range rows.length)) :
    (0 < trunc rows.length r ∧ trunc rows.length r < rows.length → ∃ train test,
      splitOne trunc r ids rows = some (train, test) ∧ (train ++ test).Perm rows ∧
      train.Sublist rows ∧ test.Sublist rows ∧ train.length = trunc rows.length r) ∧
    (trunc rows.length r = 0 ∨ rows.length ≤ trunc rows.length r → splitOne trunc r ids rows = none) := by
  have hl : ids.length = rows.length := by rw [h.length_eq, List.length_range]
  have h1 := keepBelow_length rows ids (trunc rows.length r) h
  have h2 := keep_perm rows ids (trunc rows.length r) hl
  have h3 := h2.length_eq
  rw [List.length_append] at h3
  constructor
  · rintro ⟨ha, hb⟩
    refine ⟨_, _, ?_, h2, keepBelow_sublist _ _ _ hl, keepAbove_sublist _ _ _ hl, by omega⟩
    unfold splitOne
    rw [if_neg]
    simp only [Bool.or_eq_true, List.isEmpty_iff, ← List.length_eq_zero_iff]
    omega
  · intro hc
    unfold splitOne
    rw [if_pos]
    simp only [Bool.or_eq_true, List.isEmpty_iff, ← List.length_eq_zero_iff]
    omega

/-- In exact arithmetic a ratio strictly between 0 and 1 fails exactly when `n * ratio < 1`. -/
theorem split_ratio_fails_iff (r : ℚ) (h0 : 0 < r) (h1 : r < 1) (ids : List Nat) (rows : List α)
    (h : ids.Perm (List.range rows.length)) :
    splitOne exact r ids rows = none ↔ (rows.length : ℚ) * r < 1 := by
  have hp := split_ratio_partition_partial exact r ids rows h
  have hz : exact rows.length r = 0 ↔ (rows.length : ℚ) * r < 1 := by
    unfold exact; rw [Nat.floor_eq_zero]
  have hlt : rows.length ≤ exact rows.length r → rows.length = 0 := by
    intro hc
    by_contra hn
    have hpos : (0 : ℚ) < rows.length := by
      have : 0 < rows.length := by omega
      exact_mod_cast this
    have := (Nat.le_floor_iff (mul_nonneg hpos.le h0.le)).1 hc
    nlinarith
  rw [← hz]
  constructor
  · intro hn
    by_contra hc
    by_cases hl : exact rows.length r < rows.length
    · obtain ⟨_, _, he, _⟩ := hp.1 ⟨by omega, hl⟩
      rw [hn] at he
      simp at he
    · have := hlt (by omega)
      apply hc
      rw [hz, this]
      simp
  · intro hc
    exact hp.2 (Or.inl hc)

theorem sliceLoop_flatten (trunc : Nat → R → Nat) (s : List α) (rs : List R) (start : Nat) :
    (sliceLoop trunc s start rs).flatten = (s.drop start).take ((rs.map (trunc s.length)).sum) := by
  induction rs generalizing start with
  | nil => simp [sliceLoop]
  | cons v vs ih =>
    rw [sliceLoop, List.flatten_cons, ih, List.map_cons, List.sum_cons, List.take_add, List.drop_drop]

/-- With a list of ratios the frames are consecutive pieces of the shuffled frame: no row is used twice, whatever
the rounding; the rows after the last piece are lost. -/
theorem split_ratios_disjoint_partial (trunc : Nat → R → Nat) (rs : List R) (rows s : List α) (h : s.Perm rows) :
    ∃ lost : List α, ((splitMany trunc rs s).flatten ++ lost).Perm rows ∧
      lost.length = rows.length - (rs.map (trunc rows.length)).sum := by
  refine ⟨s.drop ((rs.map (trunc s.length)).sum), ?_, ?_⟩
  · unfold splitMany
    rw [sliceLoop_flatten, List.drop_zero, List.take_append_drop]
    exact h
  · rw [List.length_drop, h.length_eq]

theorem exact_sum_le (n : Nat) (rs : List ℚ) (h0 : ∀ v ∈ rs, 0 ≤ v) :
    (((rs.map (exact n)).sum : Nat) : ℚ) ≤ n * rs.sum ∧
    (n : ℚ) * rs.sum ≤ ((rs.map (exact n)).sum : Nat) + rs.length ∧
    (rs ≠ [] → (n : ℚ) * rs.sum < ((rs.map (exact n)).sum : Nat) + rs.length) ∧
    ((((rs.map (exact n)).sum : Nat) : ℚ) = n * rs.sum ↔ ∀ v ∈ rs, ∃ m : Nat, (n : ℚ) * v = m) := by
  induction rs with
  | nil => simp
  | cons v vs ih =>
    obtain ⟨a, b, _, d⟩ := ih fun w hw => h0 w (by simp [hw])
    have hv : (0 : ℚ) ≤ n * v := mul_nonneg (by positivity) (h0 v (by simp))
    have e1 : ((exact n v : Nat) : ℚ) ≤ n * v := Nat.floor_le hv
    have e2 : (n : ℚ) * v < exact n v + 1 := Nat.lt_floor_add_one _
    have em : (n : ℚ) * (v + vs.sum) = n * v + n * vs.sum := by rw [mul_add]
    simp only [List.map_cons, List.sum_cons, Nat.cast_add, List.length_cons, Nat.cast_one]
    rw [em]
    refine ⟨by linarith, by linarith, fun _ => by linarith, ?_⟩
    constructor
    · intro he w hw
      have hvv : ((exact n v : Nat) : ℚ) = n * v := by linarith
      have hss : (((vs.map (exact n)).sum : Nat) : ℚ) = n * vs.sum := by linarith
      rcases List.mem_cons.1 hw with rfl | hw
      · exact ⟨_, hvv.symm⟩
      · exact d.1 hss w hw
    · intro he
      obtain ⟨m, hm⟩ := he v (by simp)
      have hvv : ((exact n v : Nat) : ℚ) = n * v := by
        unfold exact
        rw [hm, Nat.floor_natCast]
      rw [hvv, d.2 fun w hw => he w (by simp [hw])]

/-- In exact arithmetic, for ratios that add up to one, fewer rows than there are frames are lost, and no row is
lost exactly when every `n * ratio` is a whole number. -/
theorem split_ratios_lost (rs : List ℚ) (h0 : ∀ v ∈ rs, 0 ≤ v) (h1 : rs.sum = 1) (rows s : List α)
    (h : s.Perm rows) :
    ∃ lost : List α, ((splitMany exact rs s).flatten ++ lost).Perm rows ∧ lost.length < rs.length ∧
      (lost = [] ↔ ∀ v ∈ rs, ∃ m : Nat, (rows.length : ℚ) * v = m) := by
  obtain ⟨lost, hp, hl⟩ := split_ratios_disjoint_partial exact rs rows s h
  obtain ⟨a, _, c, d⟩ := exact_sum_le rows.length rs h0
  rw [h1, mul_one] at a c d
  have hne : rs ≠ [] := by rintro rfl; simp at h1
  have c' := c hne
  have a' : (rs.map (exact rows.length)).sum ≤ rows.length := by exact_mod_cast a
  have c'' : rows.length < (rs.map (exact rows.length)).sum + rs.length := by exact_mod_cast c'
  refine ⟨lost, hp, by omega, ?_⟩
  rw [← d, ← List.length_eq_zero_iff, Nat.cast_inj]
  omega

/-- Three rows split in halves: one row is in neither frame. -/
theorem split_ratios_loses_row : splitMany exact [1 / 2, 1 / 2] ["a", "b", "c"] = [["a"], ["b"]] := by
  have h : exact 3 (1 / 2) = 1 := by unfold exact; rw [Nat.floor_eq_iff] <;> norm_num
  simp only [splitMany, sliceLoop, List.length_cons, List.length_nil, h]
  rfl

/-- `sample` returns that many rows, or all if there are fewer, each at most once and in the original order. -/
theorem sample_size (thr : Nat) (ids : List Nat) (rows : List α) (h : ids.Perm (List.range rows.length)) :
    (sample thr ids rows).length = min thr rows.length ∧ (sample thr ids rows).Sublist rows :=
  ⟨keepBelow_length rows ids thr h, keepBelow_sublist rows ids thr (by rw [h.length_eq, List.length_range])⟩

theorem count_ranked (n t : Nat) (p : Nat → Bool) (rank : Nat → Nat)
    (hr : (((List.range n).filter p).map rank).Perm (List.range ((List.range n).countP p))) :
    ((List.range n).filter fun i => decide (rank i < t)).countP p = min t ((List.range n).countP p) := by
  rw [List.countP_filter, ← countP_lt_range, ← hr.countP_eq, List.countP_map, List.countP_filter]
  congr 1
  funext i
  simp [Bool.and_comm]

/-- `downsample` with one condition keeps every row on which the condition is false and exactly `thr` of the
others, or all of them if there are fewer. -/
theorem downsample_exact (n : Nat) (c : Nat → Bool) (rank : Nat → Nat) (thr : Nat)
    (hr : (((List.range n).filter c).map rank).Perm (List.range ((List.range n).countP c))) :
    (∀ i < n, c i = false → i ∈ downsample n [(c, rank, thr)]) ∧
    (downsample n [(c, rank, thr)]).countP c = min thr ((List.range n).countP c) ∧
    (downsample n [(c, rank, thr)]).Sublist (List.range n) := by
  refine ⟨?_, ?_, List.filter_sublist⟩
  · intro i hi hc
    unfold downsample
    rw [List.mem_filter]
    exact ⟨List.mem_range.2 hi, by simp [downsampleKeep, hc]⟩
  · rw [← count_ranked n thr c rank hr]
    unfold downsample
    rw [List.countP_filter, List.countP_filter]
    apply List.countP_congr
    intro i _
    cases hc : c i <;> simp [downsampleKeep, hc]

/-- Several conditions: a row is kept exactly when each condition that holds for it keeps it. -/
theorem downsample_several (n : Nat) (conds : List ((Nat → Bool) × (Nat → Nat) × Nat)) (i : Nat) :
    i ∈ downsample n conds ↔ i < n ∧ ∀ q ∈ conds, q.1 i = true → q.2.1 i < q.2.2 := by
  unfold downsample downsampleKeep
  rw [List.mem_filter, List.mem_range]
  simp only [List.all_eq_true, Bool.or_eq_true, decide_eq_true_eq, Bool.not_eq_true']
  constructor
  · rintro ⟨h1, h2⟩
    refine ⟨h1, fun q hq hc => ?_⟩
    rcases h2 q hq with h | h
    · exact h
    · rw [hc] at h; simp at h
  · rintro ⟨h1, h2⟩
    refine ⟨h1, fun q hq => ?_⟩
    cases hc : q.1 i
    · right; rfl
    · left; exact h2 q hq hc

/-- `volume_neutral`: every group contributes the same number of rows, the size of the smallest group or
`target_volume` if that is smaller. -/
theorem volume_neutral_equal {γ : Type} [DecidableEq γ] (keys : List γ) (rank : Nat → Nat) (tv : Option Nat)
    (hr : ∀ g ∈ keys, (((List.range keys.length).filter fun i => decide (keys[i]? = some g)).map rank).Perm
      (List.range (keys.count g))) :
    ∀ g ∈ keys, ∃ m, (∀ g' ∈ keys, m ≤ keys.count g') ∧ (∃ g' ∈ keys, keys.count g' = m) ∧
      (volumeNeutral keys rank tv).countP (fun i => decide (keys[i]? = some g)) =
        (match tv with | none => m | some t => min m t) := by
  intro g hg
  have hcount : ∀ g, (List.range keys.length).countP (fun i => decide (keys[i]? = some g)) = keys.count g := by
    intro g
    have hx : keys.map some = (List.range keys.length).map fun i => keys[i]? := by
      apply List.ext_getElem
      · simp
      · intro i h1 h2
        simp at h1
        simp [h1]
    have : keys.count g = (keys.map some).countP (fun o => decide (o = some g)) := by
      rw [List.countP_map, List.count]
      apply List.countP_congr
      intro a _
      simp
    rw [this, hx, List.countP_map]
    rfl
  have hne : (keys.dedup.map fun g => keys.count g) ≠ [] := by
    intro hc
    rw [List.map_eq_nil_iff] at hc
    have := List.mem_dedup.2 hg
    rw [hc] at this
    simp at this
  obtain ⟨m, hm⟩ : ∃ m, (keys.dedup.map fun g => keys.count g).min? = some m := by
    cases hq : (keys.dedup.map fun g => keys.count g).min? with
    | none => exact absurd (List.min?_eq_none_iff.1 hq) hne
    | some m => exact ⟨m, rfl⟩
  have hm' := List.min?_eq_some_iff.1 hm
  have hle : ∀ g' ∈ keys, m ≤ keys.count g' := fun g' hg' =>
    hm'.2 _ (List.mem_map.2 ⟨g', List.mem_dedup.2 hg', rfl⟩)
  refine ⟨m, hle, ?_, ?_⟩
  · obtain ⟨g', hg', he⟩ := List.mem_map.1 hm'.1
    exact ⟨g', List.mem_dedup.1 hg', he⟩
  · have hcr := fun t => count_ranked keys.length t (fun i => decide (keys[i]? = some g)) rank
      (by rw [hcount]; exact hr g hg)
    rw [hcount] at hcr
    unfold volumeNeutral volumeTarget
    rw [hm]
    cases tv with
    | none => simp only []; rw [hcr]; exact Nat.min_eq_left (hle g hg)
    | some t => simp only []; rw [hcr]; have := hle g hg; omega

/-- `random_cols` with distinct columns and `keep` among them: every draw gives the kept columns followed by `k`
different other columns, and every choice of `k` other columns (in column order) can be drawn. -/
theorem random_cols_valid_partial {γ : Type} [DecidableEq γ] (cols : List γ) (hc : cols.Nodup) (k : Nat)
    (keep : List γ) (hk : keep.Nodup) (hs : ∀ c ∈ keep, c ∈ cols) (hn : k + keep.length ≤ cols.length)
    (seed : Option Nat) (r : List γ) :
    (r.Sublist (cols.filter fun c => decide (c ∉ keep)) ∧ r.length = k) ↔
      ∃ draw < drawBound cols (some keep) k,
        randomCols Combos.combos cols k (some keep) seed draw = some (some (keep ++ r)) := by
  have hlen : (cols.filter fun c => decide (c ∉ keep)).length = cols.length - keep.length := by
    have h1 := List.filter_append_perm (fun c => decide (c ∈ keep)) cols
    have h2 := h1.length_eq
    rw [List.length_append] at h2
    have h3 : (cols.filter fun c => decide (c ∈ keep)).Perm keep := by
      apply (List.perm_ext_iff_of_nodup (hc.filter _) hk).2
      intro a
      rw [List.mem_filter]
      constructor
      · rintro ⟨_, h⟩; simpa using h
      · intro h; exact ⟨hs a h, by simpa using h⟩
    have h4 := h3.length_eq
    have h5 : (cols.filter fun c => !decide (c ∈ keep)) = cols.filter fun c => decide (c ∉ keep) := by
      congr 1
      funext c
      simp
    rw [h5] at h2
    omega
  have hbound : drawBound cols (some keep) k =
      (Combos.combos k (cols.filter fun c => decide (c ∉ keep))).length := by
    rw [Combos.combos_length, hlen]
    rfl
  rw [← Combos.mem_combos, hbound]
  have hif : ¬ cols.length < k + keep.length := by omega
  unfold randomCols
  simp only [Option.getD_some, if_neg hif, Option.some.injEq]
  constructor
  · intro h
    obtain ⟨d, hd, he⟩ := List.getElem_of_mem h
    exact ⟨d, hd, by rw [List.getElem?_eq_getElem hd, he]; rfl⟩
  · rintro ⟨d, hd, he⟩
    rw [List.getElem?_eq_getElem hd] at he
    simp only [Option.map_some, Option.some.injEq, List.append_cancel_left_eq] at he
    rw [← he]
    exact List.getElem_mem hd

/-- The seed has no effect: with the same seed two calls can return different columns. -/
theorem random_cols_seed_ignored : ∃ draw draw' : Nat,
    draw < drawBound ["a", "b"] none 1 ∧ draw' < drawBound ["a", "b"] none 1 ∧
    randomCols Combos.combos ["a", "b"] 1 none (some 42) draw ≠
      randomCols Combos.combos ["a", "b"] 1 none (some 42) draw' := ⟨0, 1, by decide⟩

/-- A kept column that is not among the columns makes the pool larger than the draws: enough columns are left but
the call is refused. -/
theorem random_cols_keep_outside :
    randomCols Combos.combos ["a", "b"] 2 (some ["z"]) none 0 = none ∧
    Combos.combos 2 (["a", "b"].filter fun c => decide (c ∉ ["z"])) ≠ [] := by decide

example : splitOne (fun n (r : Nat) => n * r / 10) 5 [2, 0, 3, 1] ["a", "b", "c", "d"] =
    some (["b", "d"], ["a", "c"]) := by decide

example : ∃ train test, splitOne (fun n (r : Nat) => n * r / 10) 5 [2, 0, 3, 1] ["a", "b", "c", "d"] =
    some (train, test) ∧ train.length = 2 :=
  have ⟨t, t', h, _, _, _, h2⟩ := (split_ratio_partition_partial (fun n (r : Nat) => n * r / 10) 5 [2, 0, 3, 1]
    ["a", "b", "c", "d"] (by decide)).1 (by decide)
  ⟨t, t', h, h2⟩

example : splitOne exact (1 / 4) [2, 0, 1] ["a", "b", "c"] = none :=
  (split_ratio_fails_iff (1 / 4) (by norm_num) (by norm_num) _ _ (by decide)).2 (by norm_num)

example : ∃ lost : List Nat, ((splitMany exact [1 / 2, 1 / 4, 1 / 4] [3, 1, 0, 2]).flatten ++ lost).Perm [0, 1, 2, 3] ∧
    lost.length < 3 :=
  have ⟨l, h1, h2, _⟩ := split_ratios_lost [1 / 2, 1 / 4, 1 / 4] (by intro v hv; simp at hv; rcases hv with rfl | rfl <;> norm_num)
    (by norm_num) [0, 1, 2, 3] [3, 1, 0, 2] (by decide)
  ⟨l, h1, h2⟩

example : sample 2 [2, 0, 3, 1] ["a", "b", "c", "d"] = ["b", "d"] := by decide

example : (sample 2 [2, 0, 3, 1] ["a", "b", "c", "d"]).length = 2 := (sample_size 2 _ _ (by decide)).1

example : (downsample 5 [(fun i => decide (i % 2 = 0), fun i => i / 2, 2)]).countP (fun i => decide (i % 2 = 0)) = 2 :=
  (downsample_exact 5 _ (fun i => i / 2) 2 (by decide)).2.1

example : volumeNeutral ["x", "y", "x", "x", "y"] (fun i => i / 2) none = [0, 1, 2, 3] := by decide

example : ∀ g ∈ ["x", "y", "x", "y"], ∃ m, (∀ g' ∈ ["x", "y", "x", "y"], m ≤ ["x", "y", "x", "y"].count g') ∧
    (∃ g' ∈ ["x", "y", "x", "y"], ["x", "y", "x", "y"].count g' = m) ∧
      (volumeNeutral ["x", "y", "x", "y"] (fun i => i / 2) (some 1)).countP
        (fun i => decide (["x", "y", "x", "y"][i]? = some g)) = min m 1 :=
  volume_neutral_equal ["x", "y", "x", "y"] (fun i => i / 2) (some 1) (by decide)

example : ∃ draw < 2, randomCols Combos.combos ["a", "b", "c"] 1 (some ["b"]) none draw = some (some ["b", "c"]) :=
  (random_cols_valid_partial ["a", "b", "c"] (by decide) 1 ["b"] (by decide) (by decide) (by decide) none ["c"]).1
    (by decide)

end Verif.Split
