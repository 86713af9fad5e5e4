import Verif.Model.Parallel
import Mathlib.Data.List.Basic
import Mathlib.Data.List.Range
import Mathlib.Data.List.Perm.Basic

namespace Verif

theorem flatMap_chunks {α : Type} (rows : List α) (c : Nat) : ∀ m,
    (List.range m).flatMap (fun p => (rows.drop (p * c)).take c) = rows.take (m * c) := by
  intro m
  induction m with
  | zero => simp
  | succ m ih =>
    rw [List.range_succ, List.flatMap_append, ih]
    simp only [List.flatMap_cons, List.flatMap_nil, List.append_nil]
    rw [Nat.succ_mul, List.take_add]

/-- The slices of the workers concatenate to the whole input. -/
theorem splitOffsets_cover {α : Type} (rows : List α) (n : Nat) (hn : 0 < n) :
    (splitOffsets rows.length n).flatMap (fun ol => (rows.drop ol.1).take ol.2) = rows := by
  unfold splitOffsets
  split
  · simp
  · obtain ⟨m, rfl⟩ : ∃ m, n = m + 1 := ⟨n - 1, by omega⟩
    simp only [List.flatMap_map, Nat.add_sub_cancel]
    rw [List.range_succ, List.flatMap_append]
    have h1 : (List.range m).flatMap (fun p => (rows.drop (p * (rows.length / (m + 1)))).take
        (if p = m then rows.length - p * (rows.length / (m + 1)) else rows.length / (m + 1))) =
        (List.range m).flatMap (fun p => (rows.drop (p * (rows.length / (m + 1)))).take
          (rows.length / (m + 1))) := by
      apply List.flatMap_congr
      intro p hp
      have : p ≠ m := by have := List.mem_range.1 hp; omega
      simp [this]
    rw [h1, flatMap_chunks]
    simp only [List.flatMap_cons, List.flatMap_nil, List.append_nil, if_true]
    rw [List.take_of_length_le (l := List.drop _ rows) (by simp), List.take_append_drop]

theorem runTasks_foldl_length {α : Type} (tasks : List (Unit → α)) (order : List Nat) :
    ∀ slots : List (Option α),
    (order.foldl (taskStep tasks) slots).length = slots.length := by
  induction order with
  | nil => intro slots; rfl
  | cons i order ih =>
    intro slots
    rw [List.foldl_cons, ih]
    unfold taskStep
    cases tasks[i]? <;> simp

theorem runTasks_foldl_get {α : Type} (tasks : List (Unit → α)) (order : List Nat) :
    ∀ (slots : List (Option α)) (j : Nat) (hj : j < tasks.length) (_ : slots.length = tasks.length),
    (order.foldl (taskStep tasks) slots)[j]? =
      if j ∈ order then some (some (tasks[j] ())) else slots[j]? := by
  induction order with
  | nil => intro slots j hj hl; simp
  | cons i order ih =>
    intro slots j hj hl
    rw [List.foldl_cons, ih _ j hj (by unfold taskStep; cases tasks[i]? <;> simp [hl])]
    by_cases hjo : j ∈ order
    · simp [hjo]
    · simp only [hjo, if_false, List.mem_cons, or_false]
      unfold taskStep
      by_cases hji : j = i
      · subst hji
        simp [hj, hl]
      · simp only [hji, if_false]
        cases hti : tasks[i]? with
        | none => rfl
        | some t => simp only; rw [List.getElem?_set_ne (Ne.symm hji)]

/-- Every slot holds its own task's result once all tasks have finished, in whatever order. -/
theorem runTasks_complete {α : Type} (tasks : List (Unit → α)) (order : List Nat)
    (h : ∀ i < tasks.length, i ∈ order) :
    runTasks tasks order = tasks.map (fun t => some (t ())) := by
  apply List.ext_getElem?
  intro j
  unfold runTasks
  by_cases hj : j < tasks.length
  · rw [runTasks_foldl_get tasks order _ j hj (by simp), if_pos (h j hj)]
    simp [hj]
  · rw [List.getElem?_eq_none (by rw [runTasks_foldl_length]; simpa using hj),
      List.getElem?_eq_none (by simpa using hj)]

theorem mapM_id_map_some {α : Type} (l : List α) : (l.map some).mapM id = some l := by
  induction l with
  | nil => rfl
  | cons a l ih => simp [List.mapM_cons, ih]

theorem splitOffsets_length (len n : Nat) : (splitOffsets len n).length = n := by
  unfold splitOffsets; split <;> simp_all

/-- The parallel map is the sequential map. -/
theorem parMap_eq {α β : Type} (f : α → β) (rows : List α) (n : Nat) (hn : 0 < n) (order : List Nat)
    (h : ∀ i < n, i ∈ order) : parMap f rows n order = some (rows.map f) := by
  unfold parMap
  simp only
  rw [runTasks_complete _ _ (by simpa [splitOffsets_length] using h)]
  simp only [List.map_map]
  have : ((splitOffsets rows.length n).map
      ((fun t : Unit → List β => some (t ())) ∘ fun ol => fun _ => ((rows.drop ol.1).take ol.2).map f)) =
      ((splitOffsets rows.length n).map fun ol => ((rows.drop ol.1).take ol.2).map f).map some := by
    simp [Function.comp_def]
  rw [this, mapM_id_map_some]
  simp only [Option.map_some, Option.some.injEq]
  rw [← List.flatMap_def]
  conv_rhs => rw [← splitOffsets_cover rows n hn]
  rw [List.map_flatMap]

/-! ## Row-major assembly -/

theorem performWrites_length {α : Type} (ws : List (Write α)) : ∀ buf : List (Option α),
    (performWrites buf ws).length = buf.length := by
  induction ws with
  | nil => intro buf; rfl
  | cons w ws ih => intro buf; simp only [performWrites, List.foldl_cons] at ih ⊢; rw [ih]; simp

/-- If the buffer position `p` is written, and every write to it carries the value `v`, it ends up as `v`. -/
theorem performWrites_get {α : Type} (ws : List (Write α)) (v : α) (p : Nat) :
    ∀ buf : List (Option α), p < buf.length → (∀ w ∈ ws, w.pos = p → w.val = v) →
    ((∃ w ∈ ws, w.pos = p) ∨ buf[p]? = some (some v)) →
    (performWrites buf ws)[p]? = some (some v) := by
  induction ws with
  | nil =>
    intro buf hp _ h
    rcases h with ⟨w, hw, _⟩ | h
    · simp at hw
    · exact h
  | cons w ws ih =>
    intro buf hp hall h
    simp only [performWrites, List.foldl_cons] at ih ⊢
    apply ih _ (by simpa using hp) (fun w' hw' => hall w' (by simp [hw']))
    by_cases hw : w.pos = p
    · right
      subst hw
      rw [List.getElem?_set_self hp, hall w (by simp) rfl]
    · rcases h with ⟨w', hw', hw'p⟩ | h
      · rcases List.mem_cons.1 hw' with rfl | hw'
        · exact absurd hw'p hw
        · exact .inl ⟨w', hw', hw'p⟩
      · right
        rw [List.getElem?_set_ne hw]
        exact h

/-- The writes of a column: row `r` of the column goes to position `col + r * m`. -/
theorem mem_columnWrites {α : Type} (m col : Nat) (cs : List (List α)) : ∀ (off : Nat) (w : Write α),
    w ∈ columnWrites m col off cs ↔ ∃ r, cs.flatten[r]? = some w.val ∧ w.pos = col + (off + r) * m := by
  induction cs with
  | nil => intro off w; simp [columnWrites]
  | cons c cs ih =>
    intro off w
    simp only [columnWrites, List.mem_append, ih, List.flatten_cons]
    constructor
    · rintro (h | ⟨r, h1, h2⟩)
      · obtain ⟨⟨v, r⟩, hvr, rfl⟩ := List.mem_map.1 h
        have hg := List.mem_zipIdx' hvr
        refine ⟨r, ?_, ?_⟩
        · rw [List.getElem?_append_left hg.1]
          simp [hg.2, hg.1]
        · simp only [Nat.add_mul]; omega
      · refine ⟨c.length + r, ?_, ?_⟩
        · rw [List.getElem?_append_right (by omega)]
          simpa using h1
        · rw [h2]; simp only [Nat.add_mul]; omega
    · rintro ⟨r, h1, h2⟩
      by_cases hr : r < c.length
      · left
        rw [List.getElem?_append_left hr] at h1
        refine List.mem_map.2 ⟨(w.val, r), ?_, ?_⟩
        · rw [List.mem_zipIdx_iff_getElem?]; exact h1
        · cases w
          simp only [Write.mk.injEq, and_true] at h2 ⊢
          rw [h2]; simp only [Nat.add_mul]; omega
      · right
        rw [List.getElem?_append_right (by omega)] at h1
        refine ⟨r - c.length, h1, ?_⟩
        rw [h2]
        have : off + r = off + c.length + (r - c.length) := by omega
        rw [this]

end Verif
