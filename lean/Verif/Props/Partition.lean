import Verif.Model.Partition
import Mathlib.Data.List.SplitOn
import Mathlib.Algebra.BigOperators.Group.List.Basic

/-!
# `PartitionHelper`: theorems
-/

namespace Verif.Partition
variable {α : Type}

section dict
variable {κ ν : Type} [DecidableEq κ]

/-- Number of rows in all entries. -/
def total (d : List (κ × List ν)) : Nat := (d.map fun p => p.2.length).sum

theorem dictSet_new (d : List (κ × ν)) (k : κ) (v : ν) (h : k ∉ d.map Prod.fst) :
    dictSet d k v = d ++ [(k, v)] := by
  induction d with
  | nil => rfl
  | cons p d ih =>
    obtain ⟨k', v'⟩ := p
    simp only [List.map_cons, List.mem_cons, not_or] at h
    rw [dictSet, if_neg (Ne.symm h.1), ih h.2]
    rfl

theorem dictSet_old (d : List (κ × List ν)) (k : κ) (v : List ν) (h : k ∈ d.map Prod.fst)
    (hp : ∀ p ∈ d, p.2 ≠ []) :
    (dictSet d k v).map Prod.fst = d.map Prod.fst ∧ total (dictSet d k v) < total d + v.length := by
  induction d with
  | nil => simp at h
  | cons p d ih =>
    obtain ⟨k', v'⟩ := p
    rw [dictSet]
    split
    · rename_i he
      subst he
      have := List.length_pos_iff.2 (hp (k', v') (by simp))
      simp only at this
      simp only [List.map_cons, total, List.sum_cons, true_and]
      omega
    · rename_i he
      simp only [List.map_cons, List.mem_cons] at h
      have := ih (h.resolve_left fun hc => he hc.symm) fun p hq => hp p (by simp [hq])
      simp only [List.map_cons, this.1, true_and]
      have h2 := this.2
      simp only [total, List.map_cons, List.sum_cons] at h2 ⊢
      omega

theorem dictSet_nonempty (d : List (κ × List ν)) (k : κ) (v : List ν) (hv : v ≠ []) (hp : ∀ p ∈ d, p.2 ≠ []) :
    ∀ p ∈ dictSet d k v, p.2 ≠ [] := by
  induction d with
  | nil => intro p hq; simp [dictSet] at hq; subst hq; exact hv
  | cons q d ih =>
    obtain ⟨k', v'⟩ := q
    intro p hq
    rw [dictSet] at hq
    split at hq
    · rcases List.mem_cons.1 hq with rfl | hq
      · exact hv
      · exact hp p (by simp [hq])
    · rcases List.mem_cons.1 hq with rfl | hq
      · exact hp _ (by simp)
      · exact ih (fun p hq => hp p (by simp [hq])) p hq

theorem fold_distinct (l d : List (κ × ν)) (h : ((d ++ l).map Prod.fst).Nodup) :
    l.foldl (fun d p => dictSet d p.1 p.2) d = d ++ l := by
  induction l generalizing d with
  | nil => simp
  | cons p l ih =>
    rw [List.foldl_cons, dictSet_new]
    · rw [ih, List.append_assoc]
      · rfl
      · rwa [List.append_assoc]
    · rw [List.map_append, List.nodup_append] at h
      intro hc
      exact h.2.2 _ hc p.1 (by simp) rfl

theorem fold_total (l d : List (κ × List ν)) (hd : ∀ p ∈ d, p.2 ≠ []) (hl : ∀ p ∈ l, p.2 ≠ [])
    (hn : (d.map Prod.fst).Nodup) :
    total (l.foldl (fun d p => dictSet d p.1 p.2) d) ≤ total d + total l ∧
    (¬ ((d ++ l).map Prod.fst).Nodup → total (l.foldl (fun d p => dictSet d p.1 p.2) d) < total d + total l) := by
  induction l generalizing d with
  | nil => simp [total, hn]
  | cons p l ih =>
    rw [List.foldl_cons]
    have hne := dictSet_nonempty d p.1 p.2 (hl p (by simp)) hd
    have ht : total (p :: l) = p.2.length + total l := by simp [total]
    by_cases hc : p.1 ∈ d.map Prod.fst
    · have ho := dictSet_old d p.1 p.2 hc hd
      have := (ih (dictSet d p.1 p.2) hne (fun q hq => hl q (by simp [hq])) (by rw [ho.1]; exact hn)).1
      have h2 := ho.2
      constructor
      · omega
      · intro _; omega
    · rw [dictSet_new d _ _ hc] at hne ⊢
      have hn' : ((d ++ [(p.1, p.2)]).map Prod.fst).Nodup := by
        rw [List.map_append, List.nodup_append]
        refine ⟨hn, by simp, ?_⟩
        intro a ha b hb
        simp at hb
        subst hb
        rintro rfl
        exact hc ha
      have := ih (d ++ [(p.1, p.2)]) hne (fun q hq => hl q (by simp [hq])) hn'
      have hs : total (d ++ [(p.1, p.2)]) = total d + p.2.length := by simp [total]
      constructor
      · omega
      · intro h
        have := this.2 (by rwa [List.append_assoc])
        omega

end dict

theorem groups_perm {γ : Type} [DecidableEq γ] (ks : List γ) (hk : ks.Nodup) (rows : List (γ × α))
    (h : ∀ r ∈ rows, r.1 ∈ ks) : ((ks.map fun k => rows.filter fun r => decide (r.1 = k)).flatten).Perm rows := by
  induction rows with
  | nil => simp
  | cons r rows ih =>
    have ih' := ih fun q hq => h q (by simp [hq])
    have hr := h r (by simp)
    refine List.Perm.trans ?_ (ih'.cons r)
    clear ih ih' h
    induction ks with
    | nil => simp at hr
    | cons k ks ih =>
      rw [List.nodup_cons] at hk
      simp only [List.map_cons, List.flatten_cons]
      by_cases hc : r.1 = k
      · rw [List.filter_cons_of_pos (by simpa using hc), List.cons_append]
        have : ks.map (fun k => (r :: rows).filter fun r => decide (r.1 = k)) =
            ks.map fun k => rows.filter fun r => decide (r.1 = k) := by
          apply List.map_congr_left
          intro k' hk'
          rw [List.filter_cons_of_neg]
          simp only [decide_eq_true_eq]
          rintro rfl
          exact hk.1 (hc ▸ hk')
        rw [this]
      · rw [List.filter_cons_of_neg (by simpa using hc)]
        have := ih hk.2 ((List.mem_cons.1 hr).resolve_left hc)
        exact (this.append_left _).trans List.perm_middle

theorem partitionBy_perm (rows : List (List Cell × α)) : ((partitionBy rows).map Prod.snd).flatten.Perm rows := by
  unfold partitionBy
  rw [List.map_map]
  refine groups_perm ((rows.map Prod.fst).reverse.dedup.reverse) ?_ rows ?_
  · rw [List.nodup_reverse]; exact List.nodup_dedup _
  · intro r hr
    rw [List.mem_reverse, List.mem_dedup, List.mem_reverse]
    exact List.mem_map.2 ⟨r, hr, rfl⟩

theorem mem_partitionBy (rows : List (List Cell × α)) (p) : p ∈ partitionBy rows ↔
    p.1 ∈ rows.map Prod.fst ∧ p.2 = rows.filter fun r => decide (r.1 = p.1) := by
  unfold partitionBy
  simp only [List.mem_map, List.mem_reverse, List.mem_dedup]
  constructor
  · rintro ⟨k, ⟨r, hr, rfl⟩, rfl⟩
    exact ⟨⟨r, hr, rfl⟩, rfl⟩
  · rintro ⟨⟨r, hr, h⟩, h2⟩
    exact ⟨p.1, ⟨r, hr, h⟩, by rw [← h2]⟩

theorem partitionBy_keys_nodup (rows : List (List Cell × α)) : ((partitionBy rows).map Prod.fst).Nodup := by
  unfold partitionBy
  rw [List.map_map]
  have : (Prod.fst ∘ fun k => (k, rows.filter fun r => decide (r.1 = k))) = id := rfl
  rw [this, List.map_id, List.nodup_reverse]
  exact List.nodup_dedup _

/-- The names are distinct. -/
theorem names_nodup_iff (sep : List Char) (rows : List (List Cell × α)) :
    (((partitionBy rows).map fun p => (name sep p.1, p.2)).map Prod.fst).Nodup ↔
      ∀ k ∈ rows.map Prod.fst, ∀ k' ∈ rows.map Prod.fst, name sep k = name sep k' → k = k' := by
  have h : (((partitionBy rows).map fun p => (name sep p.1, p.2)).map Prod.fst) =
      ((partitionBy rows).map Prod.fst).map (name sep) := by simp [List.map_map, Function.comp_def]
  have hm : ∀ k, k ∈ (partitionBy rows).map Prod.fst ↔ k ∈ rows.map Prod.fst := by
    intro k
    constructor
    · intro hk
      obtain ⟨p, hp, rfl⟩ := List.mem_map.1 hk
      exact ((mem_partitionBy rows p).1 hp).1
    · intro hk
      exact List.mem_map.2 ⟨(k, rows.filter fun r => decide (r.1 = k)), (mem_partitionBy rows _).2 ⟨hk, rfl⟩, rfl⟩
  rw [h]
  constructor
  · intro hn k hk k' hk' he
    exact List.inj_on_of_nodup_map hn ((hm k).2 hk) ((hm k').2 hk') he
  · intro hi
    exact (partitionBy_keys_nodup rows).map_on fun k hk k' hk' he => hi k ((hm k).1 hk) k' ((hm k').1 hk') he

/-- If different keys have different names, the parts contain every row exactly once, and the part of a name
consists of the rows of that key in the original order. -/
theorem partition_complete_partial (sep : List Char) (rows : List (List Cell × α))
    (h : ∀ k ∈ rows.map Prod.fst, ∀ k' ∈ rows.map Prod.fst, name sep k = name sep k' → k = k') :
    ((parts sep rows).map Prod.snd).flatten.Perm rows ∧
    ∀ k ∈ rows.map Prod.fst, get (parts sep rows) (name sep k) = some (rows.filter fun r => decide (r.1 = k)) := by
  have hp : parts sep rows = (partitionBy rows).map fun p => (name sep p.1, p.2) := by
    unfold parts
    rw [fold_distinct]
    · rfl
    · exact (names_nodup_iff sep rows).2 h
  rw [hp]
  constructor
  · rw [List.map_map]
    exact partitionBy_perm rows
  · intro k hk
    unfold get
    have : ((partitionBy rows).map fun p => (name sep p.1, p.2)).find? (fun p => decide (p.1 = name sep k)) =
        some (name sep k, rows.filter fun r => decide (r.1 = k)) := by
      cases hf : ((partitionBy rows).map fun p => (name sep p.1, p.2)).find? (fun p => decide (p.1 = name sep k)) with
      | none =>
        rw [List.find?_eq_none] at hf
        exact absurd (by simp) (hf (name sep k, rows.filter fun r => decide (r.1 = k))
          (List.mem_map.2 ⟨(k, _), (mem_partitionBy rows _).2 ⟨hk, rfl⟩, rfl⟩))
      | some q =>
        have h1 := List.find?_some hf
        obtain ⟨p, hpm, rfl⟩ := List.mem_map.1 (List.mem_of_find?_eq_some hf)
        simp only [decide_eq_true_eq] at h1
        obtain ⟨h2, h3⟩ := (mem_partitionBy rows p).1 hpm
        have := h p.1 h2 k hk h1
        rw [h3, this]
    rw [this]
    rfl

/-- Rows are lost exactly when two different keys that occur have the same name. -/
theorem partition_lossless_iff (sep : List Char) (rows : List (List Cell × α)) :
    ((parts sep rows).map Prod.snd).flatten.length = rows.length ↔
      ∀ k ∈ rows.map Prod.fst, ∀ k' ∈ rows.map Prod.fst, name sep k = name sep k' → k = k' := by
  constructor
  · intro h
    rw [← names_nodup_iff]
    by_contra hc
    have hne : ∀ p ∈ (partitionBy rows).map (fun p => (name sep p.1, p.2)), p.2 ≠ [] := by
      intro p hp
      obtain ⟨q, hq, rfl⟩ := List.mem_map.1 hp
      obtain ⟨h1, h2⟩ := (mem_partitionBy rows q).1 hq
      obtain ⟨r, hr, he⟩ := List.mem_map.1 h1
      simp only [h2]
      intro hn
      have : r ∈ rows.filter fun r => decide (r.1 = q.1) := List.mem_filter.2 ⟨hr, by simpa using he⟩
      rw [hn] at this
      simp at this
    have ht := (fold_total ((partitionBy rows).map fun p => (name sep p.1, p.2)) [] (by simp) hne (by simp)).2 hc
    have h1 : total ((partitionBy rows).map fun p => (name sep p.1, p.2)) = rows.length := by
      rw [← (partitionBy_perm rows).length_eq, List.length_flatten, total, List.map_map, List.map_map]
      rfl
    have h2 : total (parts sep rows) = rows.length := by
      rw [← h, List.length_flatten, total, List.map_map]
      rfl
    rw [h1] at ht
    unfold parts at h2
    simp only [total, List.map_nil, List.sum_nil] at ht h2
    omega
  · intro h
    exact (partition_complete_partial sep rows h).1.length_eq

/-- Sufficient: a separator of one character that occurs in no key, no null, and no mixing of strings and booleans
in a column. -/
theorem partition_separator_free (c : Char) (rows : List (List Cell × α)) (m : Nat) (hm : 0 < m)
    (hl : ∀ k ∈ rows.map Prod.fst, k.length = m)
    (hs : ∀ k ∈ rows.map Prod.fst, ∀ x ∈ k, ∃ s, x = .str s ∧ c ∉ s) :
    ((parts [c] rows).map Prod.snd).flatten.Perm rows := by
  apply (partition_complete_partial [c] rows ?_).1
  have hsp : ∀ k ∈ rows.map Prod.fst, List.splitOn c (name [c] k) = k.map pyStr := by
    intro k hk
    unfold name
    apply List.splitOn_intercalate
    · intro l hl'
      obtain ⟨x, hx, rfl⟩ := List.mem_map.1 hl'
      obtain ⟨s, rfl, hc⟩ := hs k hk x hx
      exact hc
    · intro hc
      have := hl k hk
      rw [List.map_eq_nil_iff] at hc
      rw [hc] at this
      simp at this
      omega
  intro k hk k' hk' he
  have h1 : k.map pyStr = k'.map pyStr := by rw [← hsp k hk, ← hsp k' hk', he]
  have aux : ∀ k k' : List Cell, (∀ x ∈ k, ∃ s, x = .str s ∧ c ∉ s) → (∀ x ∈ k', ∃ s, x = .str s ∧ c ∉ s) →
      k.map pyStr = k'.map pyStr → k = k' := by
    intro k
    induction k with
    | nil => intro k' _ _ h; simpa using h.symm
    | cons x k ih =>
      intro k' h1 h2 h
      cases k' with
      | nil => simp at h
      | cons y k' =>
        simp only [List.map_cons, List.cons.injEq] at h
        obtain ⟨s, rfl, _⟩ := h1 x (by simp)
        obtain ⟨t, rfl, _⟩ := h2 y (by simp)
        have h3 : s = t := h.1
        rw [h3, ih k' (fun x hx => h1 x (by simp [hx])) (fun x hx => h2 x (by simp [hx])) h.2]
  exact aux k k' (hs k hk) (hs k' hk') h1

/-- Keys containing the separator collide and rows disappear. -/
theorem partition_loses_rows_separator :
    ((parts ['|'] [([.str ['a', '|', 'b'], .str ['c']], 1), ([.str ['a'], .str ['b', '|', 'c']], 2)]).map
      Prod.snd).flatten.map Prod.snd = [2] := by decide

/-- Even with one column: a null key and the string "None" collide. -/
theorem partition_loses_rows_null (sep : List Char) :
    ((parts sep [([.null], 1), ([.str ['N', 'o', 'n', 'e']], 2)]).map Prod.snd).flatten.map Prod.snd = [2] := by
  have h : partitionBy [([Cell.null], 1), ([.str ['N', 'o', 'n', 'e']], 2)] =
      [([.null], [([.null], 1)]), ([.str ['N', 'o', 'n', 'e']], [([.str ['N', 'o', 'n', 'e']], 2)])] := by decide
  have hn : ∀ x, name sep [x] = pyStr x := fun x => by simp [name]
  unfold parts
  rw [h]
  simp [hn, pyStr, dictSet]

example : parts ['|'] [([.str ['a'], .bool true], 1), ([.str ['b'], .bool true], 2), ([.str ['a'], .bool true], 3)] =
    [(['a', '|', 'T', 'r', 'u', 'e'], [([.str ['a'], .bool true], 1), ([.str ['a'], .bool true], 3)]),
     (['b', '|', 'T', 'r', 'u', 'e'], [([.str ['b'], .bool true], 2)])] := by decide

example : ((parts ['|'] [([.str ['a'], .str ['x']], 1), ([.str ['b'], .str ['y']], 2), ([.str ['a'], .str ['x']], 3)]).map
    Prod.snd).flatten.Perm [([.str ['a'], .str ['x']], 1), ([.str ['b'], .str ['y']], 2), ([.str ['a'], .str ['x']], 3)] :=
  partition_separator_free '|' _ 2 (by decide) (by decide) (by
    intro k hk x hx
    simp at hk
    rcases hk with rfl | rfl | rfl <;> simp at hx <;> rcases hx with rfl | rfl <;> exact ⟨_, rfl, by decide⟩)

end Verif.Partition
