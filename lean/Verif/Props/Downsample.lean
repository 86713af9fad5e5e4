import Verif.Model.Downsample
import Verif.Props.Split

/-! # C170: `downsample` with nulls, `volume_neutral` with controls -/

namespace Verif.Downsample
open Verif

namespace Spec

/-- The shuffled numbers of the rows with property `p` are a permutation of `0, 1, …`. -/
def Shuffled (n : ℕ) (p : ℕ → Bool) (rank : ℕ → ℕ) : Prop :=
  (((List.range n).filter p).map rank).Perm (List.range ((List.range n).countP p))

/-- The number of rows with property `p`. -/
def size (n : ℕ) (p : ℕ → Bool) : ℕ := (List.range n).countP p

/-- The number of rows asked for out of `m`: the whole part of the product as a double, or the number itself. -/
noncomputable def wanted (a : Amount) (m : ℕ) : ℕ :=
  match a with
  | .float v => ⌊Doubles.rd ((m : ℝ) * v)⌋₊
  | .int v => v.toNat
  | .other => 0

end Spec

theorem limit_eq : limit = Spec.wanted := by
  funext a m
  cases a <;> rfl

/-- **C170.**  One condition: every row where it is false is kept; where it is true, and just so where it is null, the
number of rows kept is the requested one, or all rows if there are fewer. -/
theorem downsample_counts_partial (n : ℕ) (c : ℕ → Option Bool) (rank : ℕ → ℕ) (a : Amount) (ha : amountOk a = true)
    (hr : ∀ v, Spec.Shuffled n (fun i => decide (c i = v)) rank) :
    ∃ kept, downsample n [.pair c rank a] = .ok kept ∧ kept.Sublist (List.range n) ∧
      (∀ i < n, c i = some false → i ∈ kept) ∧
      kept.countP (fun i => decide (c i = some true)) =
        min (Spec.wanted a (Spec.size n fun i => decide (c i = some true))) (Spec.size n fun i => decide (c i = some true)) ∧
      kept.countP (fun i => decide (c i = none)) =
        min (Spec.wanted a (Spec.size n fun i => decide (c i = none))) (Spec.size n fun i => decide (c i = none)) := by
  refine ⟨(List.range n).filter fun i => flag n c rank a i == some true, ?_, List.filter_sublist, ?_, ?_, ?_⟩
  · simp only [downsample, List.all_cons, argOk, ha, List.all_nil, Bool.and_true, if_true]
  · intro i hi hc
    rw [List.mem_filter]
    refine ⟨List.mem_range.2 hi, ?_⟩
    simp only [flag, hc, Option.map_some, Bool.not_false]
    split <;> rfl
  all_goals
    unfold Spec.size
    rw [← Split.count_ranked n _ _ rank (hr _), List.countP_filter, List.countP_filter]
    apply List.countP_congr
    intro i _
    simp only [Bool.and_eq_true, decide_eq_true_eq]
    constructor
    · rintro ⟨h1, h2⟩
      refine ⟨h1, ?_⟩
      by_contra h3
      simp only [flag, h1, groupSize, limit_eq] at h2
      rw [if_neg h3] at h2
      revert h2
      decide
    · rintro ⟨h1, h2⟩
      refine ⟨h1, ?_⟩
      simp only [flag, h1, groupSize, limit_eq]
      rw [if_pos h2]
      rfl

/-- Four rows: true, true, null, null; one row each is kept. -/
example : Spec.Shuffled 4 (fun i => decide ((fun j : ℕ => if j < 2 then some true else (none : Option Bool)) i = some true)) (· % 2) := by
  unfold Spec.Shuffled
  decide

/-- **C170, violated.**  Rows where the condition is null are thinned out although the condition is not true there: with
more such rows than the requested number, one is lost. -/
theorem null_rows_lost (n : ℕ) (c : ℕ → Option Bool) (rank : ℕ → ℕ) (v : ℤ) (hv : 0 < v)
    (hr : ∀ v, Spec.Shuffled n (fun i => decide (c i = v)) rank) (hs : v < Spec.size n fun i => decide (c i = none)) :
    ∃ kept, downsample n [.pair c rank (.int v)] = .ok kept ∧ ∃ i < n, c i = none ∧ i ∉ kept := by
  obtain ⟨kept, h1, h2, -, -, h5⟩ := downsample_counts_partial n c rank (.int v) (by simp [amountOk]; omega) hr
  refine ⟨kept, h1, ?_⟩
  by_contra hne
  push Not at hne
  have hlt : kept.countP (fun i => decide (c i = none)) < Spec.size n fun i => decide (c i = none) := by
    rw [h5]
    have : Spec.wanted (.int v) (Spec.size n fun i => decide (c i = none)) = v.toNat := rfl
    rw [this]
    omega
  have hnd : (List.range n).Nodup := List.nodup_range
  have : (Spec.size n fun i => decide (c i = none)) ≤ kept.countP fun i => decide (c i = none) := by
    unfold Spec.size
    rw [List.countP_eq_length_filter, List.countP_eq_length_filter]
    refine List.Subperm.length_le ((List.Nodup.subperm (hnd.filter _)) ?_)
    intro i hi
    rw [List.mem_filter] at hi ⊢
    exact ⟨hne i (List.mem_range.1 hi.1) (by simpa using hi.2), hi.2⟩
  omega

/-- Two rows with a null condition, one row requested. -/
example : ∃ kept, downsample 2 [.pair (fun _ => none) id (.int 1)] = .ok kept ∧ ∃ i < 2, (none : Option Bool) = none ∧ i ∉ kept := by
  refine null_rows_lost 2 (fun _ => none) id 1 (by norm_num) ?_ (by decide)
  intro v
  cases v with
  | none => unfold Spec.Shuffled; decide
  | some b => cases b <;> (unfold Spec.Shuffled; decide)

/-- **C170.**  Several conditions without nulls: a row is kept exactly when each condition that holds for it keeps it. -/
theorem downsample_all (n : ℕ) (conds : List ((ℕ → Bool) × (ℕ → ℕ) × Amount)) (ha : ∀ q ∈ conds, amountOk q.2.2 = true) :
    ∃ kept, downsample n (conds.map fun q => .pair (fun i => some (q.1 i)) q.2.1 q.2.2) = .ok kept ∧
      ∀ i, i ∈ kept ↔ i < n ∧ ∀ q ∈ conds, q.1 i = true →
        q.2.1 i < Spec.wanted q.2.2 (Spec.size n fun j => q.1 j) := by
  have hall : (conds.map fun q => Cond.pair (fun i => some (q.1 i)) q.2.1 q.2.2).all argOk = true := by
    rw [List.all_map, List.all_eq_true]
    intro q hq
    exact ha q hq
  refine ⟨_, by unfold downsample; rw [if_pos hall], ?_⟩
  intro i
  rw [List.mem_filter, List.mem_range, List.all_map, List.all_eq_true]
  refine and_congr_right fun _ => forall₂_congr fun q _ => ?_
  simp only [Function.comp, flag, groupSize, limit_eq, Spec.size, Option.map_some, Option.some.injEq, beq_iff_eq]
  cases hc : q.1 i
  · simp only [Bool.false_eq_true, false_imp_iff, Bool.not_false, ite_self]
  · simp only [true_imp_iff, Bool.not_true]
    have : ((List.range n).countP fun j => decide (q.1 j = true)) = (List.range n).countP fun j => q.1 j := by simp
    rw [this]
    split
    · simp_all
    · simp_all

/-- Keep one of the rows 0 and 1. -/
example : amountOk (.int 1) = true := by simp [amountOk]

/-- **C170, violated.**  A list of conditions, as both examples in the documentation pass it, is always rejected. -/
theorem doc_list_rejected (n : ℕ) (l : List Cond) (rest : List Cond) : downsample n (.list l :: rest) = .error "ValueError" := by
  simp [downsample, argOk]

example : downsample 3 [.list [.pair (fun _ => some true) id (.int 1)]] = .error "ValueError" := doc_list_rejected _ _ _

/-- **C170.**  What is rejected: lists, ratios that are not strictly between 0 and 1, numbers of rows below 1, and other
amounts; nothing else. -/
theorem downsample_rejects (n : ℕ) (conds : List Cond) :
    downsample n conds = .error "ValueError" ↔
      ∃ q ∈ conds, (∃ l, q = .list l) ∨ (∃ c rank, q = .pair c rank .other) ∨
        (∃ c rank v, q = .pair c rank (.float v) ∧ ¬ (0 < v ∧ v < 1)) ∨ ∃ c rank v, q = .pair c rank (.int v) ∧ v < 1 := by
  have key : ∀ q : Cond, argOk q = false ↔ (∃ l, q = .list l) ∨ (∃ c rank, q = .pair c rank .other) ∨
      (∃ c rank v, q = .pair c rank (.float v) ∧ ¬ (0 < v ∧ v < 1)) ∨ ∃ c rank v, q = .pair c rank (.int v) ∧ v < 1 := by
    intro q
    rcases q with ⟨c, rank, a⟩ | l
    · rcases a with v | v | _
      · simp only [argOk, amountOk, decide_eq_false_iff_not, not_not]
        constructor
        · intro h
          right; right; left
          refine ⟨c, rank, v, rfl, fun hv => ?_⟩
          rcases h with h | h <;> linarith [hv.1, hv.2]
        · rintro (⟨_, h⟩ | ⟨_, _, h⟩ | ⟨_, _, w, h, hw⟩ | ⟨_, _, _, h, _⟩) <;> cases h
          by_contra hc
          push Not at hc
          exact hw ⟨hc.2, hc.1⟩
      · simp only [argOk, amountOk, decide_eq_false_iff_not, not_not]
        constructor
        · intro h
          right; right; right
          exact ⟨c, rank, v, rfl, by omega⟩
        · rintro (⟨_, h⟩ | ⟨_, _, h⟩ | ⟨_, _, w, h, hw⟩ | ⟨_, _, _, h, hw⟩) <;> cases h
          omega
      · simp [argOk, amountOk]
    · simp [argOk]
  unfold downsample
  constructor
  · intro h
    split_ifs at h with hc
    rw [Bool.not_eq_true, List.all_eq_false] at hc
    obtain ⟨q, hq, hb⟩ := hc
    exact ⟨q, hq, (key q).1 (by simpa using hb)⟩
  · rintro ⟨q, hq, hb⟩
    rw [if_neg]
    rw [Bool.not_eq_true, List.all_eq_false]
    exact ⟨q, hq, by rw [(key q).2 hb]; simp⟩

example : downsample 3 [.pair (fun _ => some true) id (.float 1)] = .error "ValueError" :=
  (downsample_rejects 3 _).2 ⟨_, List.mem_singleton.2 rfl, Or.inr (Or.inr (Or.inl ⟨_, _, 1, rfl, by norm_num⟩))⟩

theorem count_mono_sub {n : ℕ} {p q : ℕ → Bool} (h : ∀ i, p i = true → q i = true) :
    ((List.range n).filter q).countP p = (List.range n).countP p := by
  rw [List.countP_filter]
  apply List.countP_congr
  intro i _
  simp only [Bool.and_eq_true]
  exact ⟨fun h => h.1, fun h' => ⟨h', h i h'⟩⟩

/-- **C170.**  With controls: among the rows with the same controls every value of `by` contributes the same number of
rows, that of its rarest value there, or `target_volume` if that is smaller. -/
theorem volume_neutral_controls {V γ : Type} [DecidableEq V] [DecidableEq γ] (n : ℕ) (by_ : ℕ → γ) (cs : List (ℕ → V))
    (hcs : cs ≠ []) (tv : Option ℕ) (rank : ℕ → ℕ) (k : List V) (g : γ)
    (hg : ∃ i < n, cs.map (· i) = k ∧ by_ i = g)
    (hr : Spec.Shuffled n (fun i => decide (cs.map (· i) = k) && decide (by_ i = g)) rank) :
    ∃ m, (∀ i < n, cs.map (· i) = k → m ≤ Spec.size n fun j => decide (cs.map (· j) = k) && decide (by_ j = by_ i)) ∧
      (∃ i < n, cs.map (· i) = k ∧ m = Spec.size n fun j => decide (cs.map (· j) = k) && decide (by_ j = by_ i)) ∧
      (volumeNeutral n by_ (.list (cs.map .inl)) tv rank).countP (fun i => decide (cs.map (· i) = k) && decide (by_ i = g)) =
        (match tv with | none => m | some t => min m t) := by
  have hctrl : ctrl (.list (cs.map .inl) : Control V) = cs := by simp [ctrl, List.filterMap_map]
  let is := (List.range n).filter fun j => decide (cs.map (· j) = k)
  have hcount : ∀ g, (is.map by_).count g = Spec.size n fun j => decide (cs.map (· j) = k) && decide (by_ j = g) := by
    intro g
    unfold Spec.size
    rw [List.count, List.countP_map, List.countP_filter]
    apply List.countP_congr
    intro j _
    simp [Function.comp, and_comm]
  have hmem : ∀ g, g ∈ is.map by_ ↔ ∃ i < n, cs.map (· i) = k ∧ by_ i = g := by
    intro g
    simp [is, and_assoc]
  have hne : ((is.map by_).dedup.map fun g => (is.map by_).count g) ≠ [] := by
    intro hc
    rw [List.map_eq_nil_iff] at hc
    have := List.mem_dedup.2 ((hmem g).2 hg)
    rw [hc] at this
    simp at this
  obtain ⟨m, hm⟩ : ∃ m, ((is.map by_).dedup.map fun g => (is.map by_).count g).min? = some m := by
    cases hq : ((is.map by_).dedup.map fun g => (is.map by_).count g).min? with
    | none => exact absurd (List.min?_eq_none_iff.1 hq) hne
    | some m => exact ⟨m, rfl⟩
  have hm' := List.min?_eq_some_iff.1 hm
  have hle : ∀ g' ∈ is.map by_, m ≤ (is.map by_).count g' := fun g' hg' =>
    hm'.2 _ (List.mem_map.2 ⟨g', List.mem_dedup.2 hg', rfl⟩)
  refine ⟨m, ?_, ?_, ?_⟩
  · intro i hi hk
    rw [← hcount]
    exact hle _ ((hmem _).2 ⟨i, hi, hk, rfl⟩)
  · obtain ⟨g', hg', he⟩ := List.mem_map.1 hm'.1
    obtain ⟨i, hi, hk, hb⟩ := (hmem g').1 (List.mem_dedup.1 hg')
    exact ⟨i, hi, hk, by rw [← he, hcount, hb]⟩
  · have hlt : ∀ t, (∀ i, cs.map (· i) = k → target by_ tv is = some t) →
        (volumeNeutral n by_ (.list (cs.map .inl)) tv rank).countP (fun i => decide (cs.map (· i) = k) && decide (by_ i = g)) =
          min t (Spec.size n fun i => decide (cs.map (· i) = k) && decide (by_ i = g)) := by
      intro t ht
      unfold Spec.size
      rw [← Split.count_ranked n t _ rank hr]
      unfold volumeNeutral
      rw [List.countP_filter, List.countP_filter]
      apply List.countP_congr
      intro i _
      simp only [Bool.and_eq_true, decide_eq_true_eq, hctrl]
      constructor
      · rintro ⟨⟨h1, h2⟩, h3⟩
        refine ⟨⟨h1, h2⟩, ?_⟩
        rw [if_pos (List.length_pos_iff.2 hcs), h1] at h3
        rw [show (List.range n).filter (fun j => decide (cs.map (· j) = k)) = is from rfl, ht i h1] at h3
        simpa using h3
      · rintro ⟨⟨h1, h2⟩, h3⟩
        refine ⟨⟨h1, h2⟩, ?_⟩
        rw [if_pos (List.length_pos_iff.2 hcs), h1]
        rw [show (List.range n).filter (fun j => decide (cs.map (· j) = k)) = is from rfl, ht i h1]
        simpa using h3
    have hmg := hle g ((hmem g).2 hg)
    rw [hcount] at hmg
    cases tv with
    | none =>
      rw [hlt m fun i _ => by unfold target Split.volumeTarget; rw [hm]]
      exact Nat.min_eq_left hmg
    | some t =>
      rw [hlt (min m t) fun i _ => by unfold target Split.volumeTarget; rw [hm]]
      simp only []
      omega

/-- Six rows in two control groups. -/
example : Spec.Shuffled 6 (fun i => decide ([fun j : ℕ => j / 3].map (· i) = [1]) && decide (i % 2 = 0)) (fun _ => 0) := by
  unfold Spec.Shuffled
  decide

/-- **C170.**  A single control may be given as it is or in a list. -/
theorem single_control {V γ : Type} [DecidableEq V] [DecidableEq γ] (n : ℕ) (by_ : ℕ → γ) (c : ℕ → V)
    (tv : Option ℕ) (rank : ℕ → ℕ) :
    volumeNeutral n by_ (.expr c) tv rank = volumeNeutral n by_ (.list ([c].map .inl)) tv rank := rfl

example : volumeNeutral 6 (fun i => decide (i ∈ [0, 1, 3])) (.list ([(· / 3)].map .inl)) none
    (fun i => if i = 1 ∨ i = 5 then 1 else 0) = [0, 2, 3, 4] := by decide +kernel

/-- **C170, violated.**  Controls given by name, alone or in a list, are ignored: the selection is that without controls. -/
theorem control_names_ignored {V γ : Type} [DecidableEq V] [DecidableEq γ] (n : ℕ) (by_ : ℕ → γ) (names : List String)
    (s : String) (tv : Option ℕ) (rank : ℕ → ℕ) :
    volumeNeutral n by_ (.list (names.map .inr) : Control V) tv rank = volumeNeutral n by_ (.none : Control V) tv rank ∧
    volumeNeutral n by_ (.name s : Control V) tv rank = volumeNeutral n by_ (.none : Control V) tv rank := by
  constructor
  · have : ctrl (.list (names.map .inr) : Control V) = [] := by
      simp [ctrl, List.filterMap_map]
    unfold volumeNeutral
    rw [this]
    rfl
  · rfl

/-- The control would matter: with the values a, a, b | a, b, b and the two halves as control, two rows of each half are
kept; with its name, all six. -/
example : volumeNeutral 6 (fun i => decide (i ∈ [0, 1, 3])) (.expr (· / 3)) none (fun i => if i = 1 ∨ i = 5 then 1 else 0) =
      [0, 2, 3, 4] ∧
    volumeNeutral 6 (fun i => decide (i ∈ [0, 1, 3])) (.name "half" : Control ℕ) none (fun i => [0, 1, 0, 2, 1, 2].getD i 0) =
      [0, 1, 2, 3, 4, 5] := by
  constructor <;> decide +kernel

end Verif.Downsample
