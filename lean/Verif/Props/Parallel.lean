import Verif.Lemmas.Parallel
import Verif.Model.KnnExpr
import Mathlib.Tactic.Ring

/-!
# Properties C10, C11: parallel execution does not change results
-/
set_option linter.unusedSectionVars false

namespace Verif

/-- **C10.** A row-parallel expression returns the sequential result, for every number of workers and every
order (and repetition) in which the workers finish. -/
theorem parallel_eq_sequential {α β : Type} (f : α → β) (rows : List α) (n : Nat) (hn : 0 < n)
    (order : List Nat) (h : ∀ i < n, i ∈ order) : parMap f rows n order = some (rows.map f) :=
  parMap_eq f rows n hn order h

/-- **C10**, the slices handed to the workers: consecutive, disjoint and covering, for every length and
worker count (including more workers than rows). -/
theorem split_offsets_partition (len n : Nat) (hn : 0 < n) (i : Nat) (hi : i < len) :
    ∃! w : Nat, ∃ o l : Nat, (splitOffsets len n)[w]? = some (o, l) ∧ o ≤ i ∧ i < o + l := by
  unfold splitOffsets
  split
  · refine ⟨0, ⟨0, len, by simp, by omega, by omega⟩, ?_⟩
    rintro w ⟨o, l, h, -, -⟩
    by_contra hw
    rw [List.getElem?_eq_none (by simp; omega)] at h
    cases h
  · rename_i hn1
    set c := len / n with hc
    have hcn : c * n ≤ len := Nat.div_mul_le_self len n
    have hget : ∀ w : Nat, w < n → ((List.range n).map fun p =>
        (p * c, if p = n - 1 then len - p * c else c))[w]? =
        some (w * c, if w = n - 1 then len - w * c else c) := by
      intro w hw; simp [hw]
    have hbound : (n - 1) * c ≤ len := le_trans (Nat.mul_le_mul_right c (Nat.sub_le n 1)) (by rwa [Nat.mul_comm])
    by_cases hlast : (n - 1) * c ≤ i
    · refine ⟨n - 1, ⟨_, _, hget _ (by omega), hlast, by simp; omega⟩, ?_⟩
      rintro w ⟨o, l, h, h1, h2⟩
      by_cases hw : w < n
      · rw [hget w hw] at h
        simp only [Option.some.injEq, Prod.mk.injEq] at h
        by_contra hne
        rw [if_neg hne] at h
        have : (w + 1) * c ≤ (n - 1) * c := Nat.mul_le_mul_right c (by omega)
        rw [Nat.succ_mul] at this
        omega
      · rw [List.getElem?_eq_none (by simp; omega)] at h; cases h
    · push Not at hlast
      have hc0 : 0 < c := by
        rcases Nat.eq_zero_or_pos c with h0 | h0
        · rw [h0] at hlast; omega
        · exact h0
      have hq : i / c < n - 1 := Nat.div_lt_of_lt_mul (by rwa [Nat.mul_comm])
      refine ⟨i / c, ⟨_, _, hget _ (by omega), Nat.div_mul_le_self i c, ?_⟩, ?_⟩
      · rw [if_neg (by omega), ← Nat.succ_mul, Nat.succ_eq_add_one]
        have := Nat.div_add_mod i c
        have := Nat.mod_lt i hc0
        have e : (i / c + 1) * c = c * (i / c) + c := by ring
        omega
      · rintro w ⟨o, l, h, h1, h2⟩
        by_cases hw : w < n
        · rw [hget w hw] at h
          simp only [Option.some.injEq, Prod.mk.injEq] at h
          obtain ⟨rfl, rfl⟩ := h
          have hwl : w ≠ n - 1 := by
            rintro rfl; omega
          rw [if_neg hwl] at h2
          symm
          apply Nat.div_eq_of_lt_le h1
          rw [Nat.succ_mul]; omega
        · rw [List.getElem?_eq_none (by simp; omega)] at h; cases h

example : splitOffsets 10 4 = [(0, 2), (2, 2), (4, 2), (6, 4)] := by decide
example : splitOffsets 2 4 = [(0, 0), (0, 0), (0, 0), (0, 2)] := by decide
example : parMap (· + 1) [1, 2, 3, 4, 5] 3 [2, 0, 1] = some [2, 3, 4, 5, 6] := by decide

/-- **C10** for the knn expression: same output as the sequential branch. -/
theorem knn_expr_parallel {K : Type} [LinearOrder K] [Zero K] [Add K] [Sub K] [Mul K] [FloatOps K]
    (us : USort) (cosine hav : List K → List K → K) (ncols : Nat) (ids : List Nat)
    (keep : List (Option Bool)) (evalMask : Option (List (Option Bool)))
    (rows : List (List (Option K))) (k : Nat) (bound epsilon : K) (metric : String)
    (n : Nat) (hn : 0 < n) (order : List Nat) (h : ∀ i < n, i ∈ order) :
    KDT.knnPtwiseWDistPar us cosine hav ncols ids keep evalMask rows k bound epsilon metric n order =
      match KDT.knnPtwiseWDist us cosine hav ncols ids keep evalMask rows k bound epsilon metric with
      | .ok col => .ok (some col)
      | .err e => .err e
      | .panic => .panic := by
  unfold KDT.knnPtwiseWDistPar KDT.knnPtwiseWDist
  cases KDT.Dist.ofString cosine hav metric ncols with
  | error e => rfl
  | ok d =>
    dsimp only
    cases KDT.fromLeaves us d .midpoint (KDT.filteredLeaves ids keep rows) with
    | none => rfl
    | some ct => simp only [parMap_eq _ _ n hn order h]

/-! ### C11 -/

/-- **C11.** If the columns have equal length, then whatever the interleaving `ws` of the column writers'
writes (any sequence containing exactly their writes), every cell of the buffer is written, all writes are
inside it, no two writers touch the same cell, and the value at `(row, col)` is the column's value. -/
theorem row_major_any_interleaving {α : Type} (cols : List (List (List α))) (height : Nat)
    (writers : List (List (Write α))) (h : rowMajorWriters cols = .ok (height, writers))
    (ws : List (Write α)) (hws : ws.Perm writers.flatten) :
    (∀ w ∈ ws, w.pos < height * cols.length) ∧
    (∀ (a b : Nat) (wa wb : Write α), wa ∈ writers[a]?.getD [] → wb ∈ writers[b]?.getD [] → a ≠ b →
      wa.pos ≠ wb.pos) ∧
    (performWrites (List.replicate (height * cols.length) none) ws).length = height * cols.length ∧
    ∀ (r j : Nat) (c : List (List α)), r < height → cols[j]? = some c →
      ∃ v, c.flatten[r]? = some v ∧
        (performWrites (List.replicate (height * cols.length) none) ws)[r * cols.length + j]? =
          some (some v) := by
  cases cols with
  | nil => simp [rowMajorWriters] at h
  | cons c0 cs =>
    simp only [rowMajorWriters] at h
    split at h
    swap
    · cases h
    rename_i hall
    simp only [Except.ok.injEq, Prod.mk.injEq] at h
    obtain ⟨rfl, rfl⟩ := h
    set cols := c0 :: cs with hcols
    set m := cols.length with hm
    have hlen : ∀ (j : Nat) (c : List (List α)), cols[j]? = some c → c.flatten.length = c0.flatten.length := by
      intro j c hc
      have hmem : c ∈ cols := List.mem_of_getElem? hc
      rcases List.mem_cons.1 hmem with rfl | hc'
      · rfl
      · have := List.all_eq_true.1 hall c hc'
        simpa using this
    have hwr : ∀ j : Nat, (cols.zipIdx.map fun (c, j) => columnWrites m j 0 c)[j]? =
        (cols[j]?).map fun c => columnWrites m j 0 c := by
      intro j; simp [List.getElem?_map, List.getElem?_zipIdx, Function.comp_def]
    have hmemw : ∀ w, w ∈ (cols.zipIdx.map fun (c, j) => columnWrites m j 0 c).flatten ↔
        ∃ (j : Nat) (c : List (List α)) (r : Nat), cols[j]? = some c ∧ c.flatten[r]? = some w.val ∧ w.pos = j + r * m := by
      intro w
      rw [List.mem_flatten]
      constructor
      · rintro ⟨l, hl, hw⟩
        obtain ⟨j, hj⟩ := List.mem_iff_getElem?.1 hl
        rw [hwr] at hj
        obtain ⟨c, hc, rfl⟩ := Option.map_eq_some_iff.1 hj
        obtain ⟨r, h1, h2⟩ := (mem_columnWrites m j c 0 w).1 hw
        exact ⟨j, c, r, hc, h1, by rw [h2, Nat.zero_add]⟩
      · rintro ⟨j, c, r, hc, h1, h2⟩
        refine ⟨columnWrites m j 0 c, List.mem_iff_getElem?.2 ⟨j, by rw [hwr, hc]; rfl⟩, ?_⟩
        exact (mem_columnWrites m j c 0 w).2 ⟨r, h1, by rw [h2, Nat.zero_add]⟩
    have hjm : ∀ (j : Nat) (c : List (List α)), cols[j]? = some c → j < m := fun j c hc => by
      have := (List.getElem?_eq_some_iff.1 hc).1; exact this
    have hrh : ∀ (j : Nat) (c : List (List α)) (r : Nat) (v : α), cols[j]? = some c → c.flatten[r]? = some v → r < c0.flatten.length := by
      intro j c r v hc hv
      have := (List.getElem?_eq_some_iff.1 hv).1
      rwa [hlen j c hc] at this
    have hinj : ∀ j j' r r' : Nat, j < m → j' < m → j + r * m = j' + r' * m → j = j' ∧ r = r' := by
      intro j j' r r' h1 h2 he
      have hmod : j = j' := by
        have := congrArg (· % m) he
        simpa [Nat.add_mul_mod_self_right, Nat.mod_eq_of_lt h1, Nat.mod_eq_of_lt h2] using this
      subst hmod
      refine ⟨rfl, ?_⟩
      have : r * m = r' * m := by omega
      exact Nat.eq_of_mul_eq_mul_right (by omega) this
    refine ⟨?_, ?_, ?_, ?_⟩
    · intro w hw
      obtain ⟨j, c, r, hc, h1, h2⟩ := (hmemw w).1 (hws.mem_iff.1 hw)
      have hj := hjm j c hc
      have hr := hrh j c r _ hc h1
      rw [h2]
      calc j + r * m < m + r * m := by omega
        _ = (r + 1) * m := by rw [Nat.succ_mul, Nat.add_comm]
        _ ≤ c0.flatten.length * m := Nat.mul_le_mul_right m hr
    · intro a b wa wb ha hb hab heq
      rw [hwr] at ha hb
      cases hca : cols[a]? with
      | none => rw [hca] at ha; simp at ha
      | some ca =>
        cases hcb : cols[b]? with
        | none => rw [hcb] at hb; simp at hb
        | some cb =>
          rw [hca] at ha
          rw [hcb] at hb
          obtain ⟨r, _, p1⟩ := (mem_columnWrites m a ca 0 wa).1 ha
          obtain ⟨r', _, p2⟩ := (mem_columnWrites m b cb 0 wb).1 hb
          rw [Nat.zero_add] at p1 p2
          exact hab (hinj a b r r' (hjm a ca hca) (hjm b cb hcb) (by rw [← p1, ← p2, heq])).1
    · rw [performWrites_length]; simp
    · intro r j c hr hc
      have hr' : r < c.flatten.length := by rw [hlen j c hc]; exact hr
      refine ⟨c.flatten[r], by simp [hr'], ?_⟩
      have hj := hjm j c hc
      apply performWrites_get ws
      · rw [List.length_replicate]
        calc r * m + j < r * m + m := by omega
          _ = (r + 1) * m := by rw [Nat.succ_mul]
          _ ≤ c0.flatten.length * m := Nat.mul_le_mul_right m hr
      · intro w hw hp
        obtain ⟨j', c', r', hc', h1, h2⟩ := (hmemw w).1 (hws.mem_iff.1 hw)
        obtain ⟨rfl, rfl⟩ := hinj j' j r' r (hjm j' c' hc') hj (by rw [← h2, hp, Nat.add_comm])
        rw [hc] at hc'
        cases hc'
        rw [List.getElem?_eq_getElem hr'] at h1
        exact (Option.some.inj h1).symm
      · left
        refine ⟨⟨j + r * m, c.flatten[r]⟩, hws.mem_iff.2 ?_, Nat.add_comm _ _⟩
        exact (hmemw _).2 ⟨j, c, r, hc, by simp [hr'], rfl⟩

/-- **C11**, the error branches: no column, or columns of different lengths, are rejected before any write. -/
theorem row_major_rejects {α : Type} (cols : List (List (List α))) :
    (∃ e, rowMajorWriters cols = .error e) ↔
      (cols = [] ∨ ∃ a ∈ cols, ∃ b ∈ cols, a.flatten.length ≠ b.flatten.length) := by
  cases cols with
  | nil => simp [rowMajorWriters]
  | cons c0 cs =>
    simp only [rowMajorWriters]
    split
    · rename_i hall
      have hall' : ∀ c ∈ c0 :: cs, c.flatten.length = c0.flatten.length := by
        intro c hc
        rcases List.mem_cons.1 hc with rfl | hc
        · rfl
        · simpa using List.all_eq_true.1 hall c hc
      constructor
      · rintro ⟨e, he⟩; cases he
      · rintro (h | ⟨a, ha, b, hb, hab⟩)
        · cases h
        · exact absurd ((hall' a ha).trans (hall' b hb).symm) hab
    · rename_i hall
      constructor
      · rintro -
        right
        simp only [List.all_eq_true, beq_iff_eq] at hall
        push Not at hall
        obtain ⟨c, hc, hne⟩ := hall
        exact ⟨c, by simp [hc], c0, by simp, hne⟩
      · rintro -; exact ⟨_, rfl⟩

/-- Two columns of three rows, the second in two chunks; a reversed interleaving gives the same matrix. -/
example : ∃ writers, rowMajorWriters [[[1, 2, 3]], [[4], [5, 6]]] = .ok (3, writers) ∧
    performWrites (List.replicate 6 none) writers.flatten.reverse =
      [some 1, some 4, some 2, some 5, some 3, some 6] := ⟨_, rfl, by decide⟩

end Verif
