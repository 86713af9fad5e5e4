import Verif.Model.FrameNames
import Verif.Props.SplitDbl

/-!
# Column names in splits and validation reports: theorems
-/

namespace Verif.FrameNames
variable {V : Type}

namespace Spec

/-- The cells of some rows in some columns. -/
def cells (names : List String) (rows : List (String → V)) : List (List V) := rows.map fun r => names.map r

/-- The columns a split gives back. -/
def returned (names : List String) : List String := names.filter (· ≠ "__tt")

/-- A row breaks a rule. -/
def Breaks (rules : List (Rule V)) (r : String → V) : Prop := ∃ q ∈ rules, q.test r = some false

/-- The right reasons: with `all` the names, in alphabetical order, of the rules that are not true; otherwise the name of the
first rule that is false. -/
def Reasons (all : Bool) (rules : List (Rule V)) (r : String → V) (why : List String) : Prop :=
  if all then why.Pairwise (· ≤ ·) ∧ why.Perm ((rules.filter fun q => decide (q.test r ≠ some true)).map Rule.name)
  else ∃ before q after, rules = before ++ q :: after ∧ (∀ p ∈ before, p.test r ≠ some false) ∧ q.test r = some false ∧
    why = [q.name]

/-- Names under which the report can be made: they exist, no two are equal, none is the column of reasons. -/
def NamesOk (have_ kept rules : List String) : Prop :=
  (∀ c ∈ kept, c ∈ have_) ∧ (kept ++ rules).Nodup ∧ "__reason__" ∉ kept

end Spec

theorem cells_update (names : List String) (n : String) (v : V) (r : String → V) (h : n ∉ names) :
    names.map (Function.update r n v) = names.map r := by
  apply List.map_congr_left
  intro c hc
  exact Function.update_of_ne (fun e : c = n => h (e ▸ hc)) _ _

theorem index_cells (num : ℕ → V) (names : List String) (n : String) (h : n ∉ names) (f g : Frame V)
    (hg : withRowIndex num n f = .ok g) : Spec.cells names g.rows = Spec.cells names f.rows := by
  unfold withRowIndex at hg
  split_ifs at hg
  cases hg
  simp only [Spec.cells, List.map_map]
  rw [show ((fun r : String → V => names.map r) ∘ fun p : (String → V) × ℕ => Function.update p.1 n (num p.2)) =
    (fun r : String → V => names.map r) ∘ Prod.fst from funext fun p => cells_update names n _ _ h]
  rw [← List.map_map, List.zipIdx_map_fst]

theorem column_cells (names : List String) (n : String) (vs : List V) (h : n ∉ names) (f : Frame V)
    (hl : vs.length = f.rows.length) :
    Spec.cells names (withColumn n vs f).rows = Spec.cells names f.rows := by
  simp only [Spec.cells, withColumn, List.map_map]
  rw [show ((fun r : String → V => names.map r) ∘ fun p : (String → V) × V => Function.update p.1 n p.2) =
    (fun r : String → V => names.map r) ∘ Prod.fst from funext fun p => cells_update names n _ _ h]
  rw [← List.map_map, List.map_fst_zip (by omega)]

theorem temp_names (names : List String) (h : "__id" ∉ names) (rows : List (String → V)) (vs : List V) (rs : List (String → V)) :
    (dropTemp (withColumn "__tt" vs ⟨"__id" :: names, rows⟩).names rs).names = Spec.returned names := by
  have key : names.filter (fun n => n != "__id" && n != "__tt") = names.filter (· ≠ "__tt") := by
    apply List.filter_congr
    intro c hc
    have hne : (c == "__id") = false := by simpa using fun e : c = "__id" => h (e ▸ hc)
    simp only [bne, hne]
    rw [Bool.eq_iff_iff]
    simp
  unfold dropTemp withColumn Spec.returned
  dsimp only
  split_ifs with hm
  · rw [List.filter_cons_of_neg (by decide), key]
  · rw [List.cons_append, List.filter_cons_of_neg (by decide), List.filter_append, key]
    simp

theorem index_ok (num : ℕ → V) (n : String) (f : Frame V) (h : n ∉ f.names) :
    withRowIndex num n f = .ok { names := n :: f.names, rows := f.rows.zipIdx.map fun p => Function.update p.1 n (num p.2) } := by
  unfold withRowIndex; rw [if_neg h]

theorem returned_free (names : List String) (h : "__id" ∉ names) : "__id" ∉ Spec.returned names ∧ "__tt" ∉ Spec.returned names := by
  constructor
  · exact fun hc => h (List.mem_of_mem_filter hc)
  · simp [Spec.returned]

/-- **A split by one ratio on a frame without a column `__id`.**  Either a part is empty and the call fails, or both
parts have the columns of the frame but `__tt`, in the same order, and their rows together are the rows of the frame in these
columns. -/
theorem split_one_partial (num : ℕ → V) (bool : Bool → V) (r : ℝ) (h0 : 0 < r) (h1 : r < 1) (ids : List ℕ) (f : Frame V)
    (hids : ids.Perm (List.range f.rows.length)) (hid : "__id" ∉ f.names) :
    (0 < SplitDbl.truncRows f.rows.length r ∧ SplitDbl.truncRows f.rows.length r < f.rows.length → ∃ train test,
      splitOne num bool r ids f = .ok [train, test] ∧ train.names = Spec.returned f.names ∧ test.names = Spec.returned f.names ∧
      (train.table.2 ++ test.table.2).Perm (Spec.cells (Spec.returned f.names) f.rows) ∧
      train.table.2.Sublist (Spec.cells (Spec.returned f.names) f.rows) ∧
      test.table.2.Sublist (Spec.cells (Spec.returned f.names) f.rows) ∧
      train.rows.length = SplitDbl.truncRows f.rows.length r) ∧
    (SplitDbl.truncRows f.rows.length r = 0 ∨ f.rows.length ≤ SplitDbl.truncRows f.rows.length r →
      splitOne num bool r ids f = .error "KeyError") := by
  have hl : ids.length = f.rows.length := by rw [hids.length_eq, List.length_range]
  obtain ⟨g, hg⟩ : ∃ g, g = (⟨"__id" :: f.names, f.rows.zipIdx.map fun p => Function.update p.1 "__id" (num p.2)⟩ : Frame V) := ⟨_, rfl⟩
  have hgo : withRowIndex num "__id" f = .ok g := by rw [hg]; exact index_ok num "__id" f hid
  have hgl : g.rows.length = f.rows.length := by rw [hg]; simp
  obtain ⟨t, ht⟩ : ∃ t, t = withColumn "__tt" (ids.map fun i => bool (decide (i < SplitDbl.truncRows g.rows.length r))) g := ⟨_, rfl⟩
  have htl : t.rows.length = f.rows.length := by rw [ht]; simp [withColumn, hgl, hl]
  have htn : ∀ rs : List (String → V), (dropTemp t.names rs).names = Spec.returned f.names := by
    intro rs; rw [ht, hg]; exact temp_names f.names hid _ _ rs
  obtain ⟨hf1, hf2⟩ := returned_free f.names hid
  have htc : Spec.cells (Spec.returned f.names) t.rows = Spec.cells (Spec.returned f.names) f.rows := by
    rw [ht, column_cells _ _ _ hf2 _ (by simp [hgl, hl]), index_cells num _ _ hf1 f g hgo]
  have hrun : splitOne num bool r ids f = match Split.splitOne SplitDbl.truncRows r ids t.rows with
      | none => .error "KeyError"
      | some (train, test) => .ok [dropTemp t.names train, dropTemp t.names test] := by
    unfold splitOne
    rw [if_neg (by push Not; exact ⟨h0, h1⟩), hgo, ht]
    rfl
  have hp := Split.split_ratio_partition_partial SplitDbl.truncRows r ids t.rows (by rw [htl]; exact hids)
  rw [htl] at hp
  constructor
  · intro hb
    obtain ⟨train, test, e, hperm, hs1, hs2, hlen⟩ := hp.1 hb
    refine ⟨dropTemp t.names train, dropTemp t.names test, by rw [hrun, e], htn _, htn _, ?_, ?_, ?_, hlen⟩
    · unfold Frame.table
      dsimp only
      rw [htn, htn, ← htc]
      have := hperm.map fun r : String → V => (Spec.returned f.names).map r
      rw [List.map_append] at this
      exact this
    · unfold Frame.table
      dsimp only
      rw [htn, ← htc]
      exact hs1.map _
    · unfold Frame.table
      dsimp only
      rw [htn, ← htc]
      exact hs2.map _
  · intro hb
    rw [hrun, hp.2 hb]

example : (0 : ℝ) < 1 / 2 ∧ (1 / 2 : ℝ) < 1 ∧ [2, 0, 3, 1].Perm (List.range 4) ∧ "__id" ∉ ["x", "__tt"] :=
  ⟨by norm_num, by norm_num, by decide, by decide⟩

/-- **A split by several ratios on a frame without a column `__id`.**  All parts have the columns of the frame but
`__tt`, and their rows together with the rows lost to rounding are the rows of the frame in these columns. -/
theorem split_list_partial (num : ℕ → V) (bool : Bool → V) (sum : List ℝ → ℝ) (rs : List ℝ) (hrs : rs.length ≠ 1)
    (hsum : sum rs = 1) (ids : List ℕ) (s : List (String → V) → List (String → V)) (hs : ∀ l, (s l).Perm l) (f : Frame V)
    (hl : ids.length = f.rows.length) (hid : "__id" ∉ f.names) :
    ∃ parts, splitList num bool sum rs ids s f = .ok parts ∧ parts.length = rs.length ∧
      (∀ p ∈ parts, p.names = Spec.returned f.names) ∧
      ∃ lost, ((parts.map fun p => p.table.2).flatten ++ lost).Perm (Spec.cells (Spec.returned f.names) f.rows) ∧
        lost.length = f.rows.length - (rs.map (SplitDbl.truncRows f.rows.length)).sum := by
  obtain ⟨g, hg⟩ : ∃ g, g = (⟨"__id" :: f.names, f.rows.zipIdx.map fun p => Function.update p.1 "__id" (num p.2)⟩ : Frame V) := ⟨_, rfl⟩
  have hgo : withRowIndex num "__id" f = .ok g := by rw [hg]; exact index_ok num "__id" f hid
  have hgl : g.rows.length = f.rows.length := by rw [hg]; simp
  obtain ⟨t, ht⟩ : ∃ t, t = withColumn "__tt" (ids.map num) g := ⟨_, rfl⟩
  have htl : t.rows.length = f.rows.length := by rw [ht]; simp [withColumn, hgl, hl]
  have htn : ∀ rs : List (String → V), (dropTemp t.names rs).names = Spec.returned f.names := by
    intro rs; rw [ht, hg]; exact temp_names f.names hid _ _ rs
  obtain ⟨hf1, hf2⟩ := returned_free f.names hid
  have htc : Spec.cells (Spec.returned f.names) t.rows = Spec.cells (Spec.returned f.names) f.rows := by
    rw [ht, column_cells _ _ _ hf2 _ (by simp [hgl, hl]), index_cells num _ _ hf1 f g hgo]
  have hrun : splitList num bool sum rs ids s f =
      .ok ((Split.splitMany SplitDbl.truncRows rs (s t.rows)).map (dropTemp t.names)) := by
    unfold splitList
    split
    · simp at hrs
    · rw [if_neg (by simpa using hsum), hgo, ht]; rfl
  have hlen : ∀ (a : ℕ) (l : List ℝ) (x : List (String → V)), (Split.sliceLoop SplitDbl.truncRows x a l).length = l.length := by
    intro a l x
    induction l generalizing a with
    | nil => rfl
    | cons v vs ih => simp [Split.sliceLoop, ih]
  obtain ⟨lost, hp, hlost⟩ := Split.split_ratios_disjoint_partial SplitDbl.truncRows rs t.rows (s t.rows) (hs _)
  refine ⟨_, hrun, by rw [List.length_map]; exact hlen _ _ _, ?_, Spec.cells (Spec.returned f.names) lost, ?_, ?_⟩
  · intro p hp
    obtain ⟨x, -, rfl⟩ := List.mem_map.1 hp
    exact htn x
  · have := hp.map fun r : String → V => (Spec.returned f.names).map r
    rw [List.map_append, List.map_flatten] at this
    rw [← htc, List.map_map]
    have e : ((fun p : Frame V => p.table.2) ∘ dropTemp t.names) = List.map fun r : String → V => (Spec.returned f.names).map r := by
      funext x
      simp only [Function.comp, Frame.table]
      rw [htn]
      rfl
    rw [e]
    exact this
  · rw [Spec.cells, List.length_map, hlost, htl]

example : [(1 / 2 : ℝ), 1 / 2].length ≠ 1 ∧ (fun rs : List ℝ => rs.sum) [1 / 2, 1 / 2] = 1 ∧
    (∀ l : List (String → ℤ), l.reverse.Perm l) ∧ "__id" ∉ ["x", "y"] :=
  ⟨by decide, by norm_num, fun l => List.reverse_perm l, by decide⟩

/-- **If the frame has neither `__id` nor `__tt`, no column is missing.** -/
theorem split_keeps_columns (names : List String) (h : "__tt" ∉ names) : Spec.returned names = names := by
  unfold Spec.returned
  rw [List.filter_eq_self]
  intro c hc
  simpa using fun e : c = "__tt" => h (e ▸ hc)

example : Spec.returned ["a", "b"] = ["a", "b"] := split_keeps_columns _ (by decide)

example : Spec.returned ["a", "__tt", "b"] = ["a", "b"] := by decide

/-- **A column `__tt` of the user is gone without an error**: no part of any split has it. -/
theorem split_loses_column (num : ℕ → V) (bool : Bool → V) (sum : List ℝ → ℝ) (rs : List ℝ) (ids : List ℕ)
    (s : List (String → V) → List (String → V)) (f : Frame V) (parts : List (Frame V))
    (h : splitList num bool sum rs ids s f = .ok parts) : ∀ p ∈ parts, "__tt" ∉ p.names ∧ "__id" ∉ p.names := by
  have hd : ∀ (names : List String) (rows : List (String → V)), "__tt" ∉ (dropTemp names rows).names ∧
      "__id" ∉ (dropTemp names rows).names := by
    intro names rows; simp [dropTemp]
  unfold splitList at h
  split at h
  · unfold splitOne at h
    split_ifs at h
    cases hg : withRowIndex num "__id" f with
    | error e => rw [hg] at h; cases h
    | ok g =>
      rw [hg] at h
      simp only [bind, Except.bind] at h
      split at h
      · cases h
      · cases h
        intro p hp
        rcases List.mem_cons.1 hp with rfl | hp
        · exact hd _ _
        · rcases List.mem_cons.1 hp with rfl | hp
          · exact hd _ _
          · cases hp
  · split_ifs at h
    cases hg : withRowIndex num "__id" f with
    | error e => rw [hg] at h; cases h
    | ok g =>
      rw [hg] at h
      simp only [bind, Except.bind] at h
      cases h
      intro p hp
      obtain ⟨x, -, rfl⟩ := List.mem_map.1 hp
      exact hd _ _

example : splitList (fun n => (n : ℤ)) (fun _ => 0) (fun _ => 1) [] [] id ⟨["__tt"], []⟩ = .ok [] := by
  unfold splitList
  simp [withRowIndex, Split.splitMany, Split.sliceLoop, bind, Except.bind]

/-- **A frame with a column `__id` cannot be split.** -/
theorem split_id_taken (num : ℕ → V) (bool : Bool → V) (sum : List ℝ → ℝ) (rs : List ℝ) (ids : List ℕ)
    (s : List (String → V) → List (String → V)) (f : Frame V) (h : "__id" ∈ f.names) :
    ∃ e, splitList num bool sum rs ids s f = .error e := by
  have hg : withRowIndex num "__id" f = .error "DuplicateError" := by unfold withRowIndex; rw [if_pos h]
  unfold splitList
  split
  · unfold splitOne
    split_ifs
    · exact ⟨_, rfl⟩
    · rw [hg]; exact ⟨_, rfl⟩
  · split_ifs
    · exact ⟨_, rfl⟩
    · rw [hg]; exact ⟨_, rfl⟩

example : "__id" ∈ (⟨["x", "__id"], [fun _ => 1, fun _ => 2]⟩ : Frame ℤ).names := by decide

/-- Four rows with a column "x" and a column "__tt" of the user, cut in half: both parts have lost "__tt". -/
theorem split_loses_witness :
    ∃ train test, splitOne (fun n => (n : ℤ)) (fun b => if b then 1 else 0) (1 / 2) [2, 0, 3, 1]
      ⟨["x", "__tt"], [fun _ => 5, fun _ => 6, fun _ => 7, fun _ => 8]⟩ = .ok [train, test] ∧
      train.names = ["x"] ∧ test.names = ["x"] := by
  have e : SplitDbl.truncRows 4 (1 / 2) = 2 := by
    unfold SplitDbl.truncRows
    have h := SplitDbl.rd_exact 2 0 (by norm_num) (by norm_num)
    norm_num at h ⊢
    rw [h]; norm_num
  obtain ⟨h, -⟩ := split_one_partial (fun n => (n : ℤ)) (fun b => if b then 1 else 0) (1 / 2) (by norm_num) (by norm_num)
    [2, 0, 3, 1] ⟨["x", "__tt"], [fun _ => 5, fun _ => 6, fun _ => 7, fun _ => 8]⟩ (by decide) (by decide)
  obtain ⟨train, test, h1, h2, h3, -⟩ := h (by
    show 0 < SplitDbl.truncRows 4 (1 / 2) ∧ SplitDbl.truncRows 4 (1 / 2) < 4
    rw [e]; decide)
  exact ⟨train, test, h1, h2.trans (by decide), h3.trans (by decide)⟩

theorem violated_iff (rules : List (Rule V)) (r : String → V) : violated rules r = true ↔ Spec.Breaks rules r := by
  simp [violated, Spec.Breaks]

theorem reasons_right (all : Bool) (rules : List (Rule V)) (r : String → V) (h : Spec.Breaks rules r) :
    Spec.Reasons all rules r (reasonsOf all rules r) := by
  unfold Spec.Reasons reasonsOf
  cases all
  · simp only [Bool.false_eq_true, if_false]
    cases hf : rules.find? fun q => q.test r == some false with
    | none =>
      obtain ⟨q, hq, e⟩ := h
      have := List.find?_eq_none.1 hf q hq
      simp [e] at this
    | some q =>
      obtain ⟨hq, as, bs, e, hb⟩ := List.find?_eq_some_iff_append.1 hf
      refine ⟨as, q, bs, e, ?_, by simpa using hq, rfl⟩
      intro p hp
      simpa using hb p hp
  · simp only [if_true]
    constructor
    · exact List.pairwise_insertionSort _ _
    · refine (List.perm_insertionSort _ _).trans (List.Perm.of_eq ?_)
      congr 1
      apply List.filter_congr
      intro q _
      rw [Bool.eq_iff_iff]
      simp

theorem check_ok (have_ cols added : List String) :
    checkSelect have_ cols added = .ok () ↔ (∀ c ∈ cols, c ∈ have_) ∧ (cols ++ added).Nodup := by
  unfold checkSelect
  split_ifs with h1 h2 <;> simp_all

theorem names_ok (have_ kept rules : List String) :
    Spec.NamesOk have_ kept rules ↔ rules.Nodup ∧ checkSelect have_ kept rules = .ok () ∧
      checkSelect (kept ++ rules) kept ["__reason__"] = .ok () := by
  rw [check_ok, check_ok]
  unfold Spec.NamesOk
  constructor
  · rintro ⟨a, b, c⟩
    refine ⟨(List.nodup_append.1 b).2.1, ⟨a, b⟩, fun x hx => List.mem_append_left _ hx, ?_⟩
    rw [List.nodup_append]
    refine ⟨(List.nodup_append.1 b).1, by simp, ?_⟩
    intro x hx y hy e
    rw [List.mem_singleton] at hy
    exact c (hy ▸ e ▸ hx)
  · rintro ⟨-, ⟨a, b⟩, -, d⟩
    refine ⟨a, b, fun hc => ?_⟩
    exact (List.nodup_append.1 d).2.2 _ hc _ (List.mem_singleton.2 rfl) rfl

/-- The report made of the rows that break a rule. -/
def made (all : Bool) (rules : List (Rule V)) (g : Frame V) (kept : List String) : Report V :=
  ⟨kept ++ ["__reason__"], (g.rows.filter (violated rules)).map fun r => ⟨kept.map r, reasonsOf all rules r⟩⟩

/-- The end of `rowValidation` on a frame that has its identifier. -/
theorem finish (all : Bool) (rules : List (Rule V)) (g : Frame V) (kept : List String) (run : Except String (Report V))
    (hrun : run = if ¬ (rules.map Rule.name).Nodup then .error "ValueError" else do
      checkSelect g.names kept (rules.map Rule.name)
      checkSelect (kept ++ rules.map Rule.name) kept ["__reason__"]
      .ok (made all rules g kept)) :
    (Spec.NamesOk g.names kept (rules.map Rule.name) → run = .ok (made all rules g kept)) ∧
    (¬ Spec.NamesOk g.names kept (rules.map Rule.name) → ∃ e, run = .error e) := by
  rw [names_ok]
  constructor
  · rintro ⟨a, b, c⟩
    rw [hrun, if_neg (by simpa using a), b, c]; rfl
  · intro h
    rw [hrun]
    by_cases hn : (rules.map Rule.name).Nodup
    · rw [if_neg (by simpa using hn)]
      cases h1 : checkSelect g.names kept (rules.map Rule.name) with
      | error e => exact ⟨e, rfl⟩
      | ok u =>
        cases h2 : checkSelect (kept ++ rules.map Rule.name) kept ["__reason__"] with
        | error e => exact ⟨e, rfl⟩
        | ok v => exact absurd ⟨hn, h1, h2⟩ h
    · rw [if_pos hn]; exact ⟨_, rfl⟩

open Classical in
/-- **The report with an identifier of the user.**  It is made exactly if the kept columns exist, no name is used
twice among the kept columns and the rules, and no kept column is called `__reason__`.  Its columns are the identifier, the kept
columns and `__reason__`; its rows are, in order, the rows that break a rule, with their cells and the right reasons. -/
theorem report_with_id (num : ℕ → V) (rules : List (Rule V)) (c : String) (keep : Option (List String)) (all : Bool) (f : Frame V) :
    (Spec.NamesOk f.names (c :: keep.getD []) (rules.map Rule.name) →
      ∃ rep, rowValidation num rules (some c) keep all f = .ok rep ∧ rep.names = c :: keep.getD [] ++ ["__reason__"] ∧
        List.Forall₂ (fun r l => l.cells = (c :: keep.getD []).map r ∧ Spec.Reasons all rules r l.reasons)
          (f.rows.filter fun r => decide (Spec.Breaks rules r)) rep.lines) ∧
    (¬ Spec.NamesOk f.names (c :: keep.getD []) (rules.map Rule.name) →
      ∃ e, rowValidation num rules (some c) keep all f = .error e) := by
  obtain ⟨h1, h2⟩ := finish all rules f (c :: keep.getD []) (rowValidation num rules (some c) keep all f) rfl
  refine ⟨fun h => ⟨_, h1 h, rfl, ?_⟩, h2⟩
  dsimp only [made]
  rw [show (f.rows.filter fun r => decide (Spec.Breaks rules r)) = f.rows.filter (violated rules) from
    List.filter_congr fun r _ => by rw [Bool.eq_iff_iff, violated_iff]; simp]
  rw [List.forall₂_map_right_iff, List.forall₂_same]
  intro r hr
  exact ⟨rfl, reasons_right all rules r ((violated_iff rules r).1 (List.mem_filter.1 hr).2)⟩

example : Spec.NamesOk ["id", "age", "name"] ("id" :: (some ["name"]).getD []) ["too old"] := ⟨by decide, by decide, by decide⟩

example : ¬ Spec.NamesOk ["id", "age"] ("id" :: (some ["id"]).getD []) ["too old"] := fun h => absurd h.2.1 (by decide)

example : rowValidation (fun n => (n : ℤ)) [⟨fun r => some (decide (r "age" < 100)), "too old"⟩] (some "id") none false
    ⟨["id", "age"], [fun c => if c = "id" then 7 else 120, fun c => if c = "id" then 8 else 20]⟩ =
      .ok ⟨["id", "__reason__"], [⟨[7], ["too old"]⟩]⟩ := by rfl

open Classical in
/-- **The report with row numbers.**  The same with the row number, counted from 0 in the given frame, as first column
`__index__`; the kept columns show the cells of the user. -/
theorem report_with_index (num : ℕ → V) (rules : List (Rule V)) (keep : Option (List String)) (all : Bool) (f : Frame V)
    (hi : "__index__" ∉ f.names) :
    (Spec.NamesOk ("__index__" :: f.names) ("__index__" :: keep.getD []) (rules.map Rule.name) →
      ∃ rep, rowValidation num rules none keep all f = .ok rep ∧ rep.names = "__index__" :: keep.getD [] ++ ["__reason__"] ∧
        List.Forall₂ (fun p l => l.cells = num p.2 :: (keep.getD []).map p.1 ∧
            Spec.Reasons all rules (Function.update p.1 "__index__" (num p.2)) l.reasons)
          (f.rows.zipIdx.filter fun p => decide (Spec.Breaks rules (Function.update p.1 "__index__" (num p.2)))) rep.lines) ∧
    (¬ Spec.NamesOk ("__index__" :: f.names) ("__index__" :: keep.getD []) (rules.map Rule.name) →
      ∃ e, rowValidation num rules none keep all f = .error e) := by
  obtain ⟨h1, h2⟩ := finish all rules
    ⟨"__index__" :: f.names, f.rows.zipIdx.map fun p => Function.update p.1 "__index__" (num p.2)⟩
    ("__index__" :: keep.getD []) (rowValidation num rules none keep all f) (by
      unfold rowValidation
      rw [index_ok num "__index__" f hi]
      rfl)
  refine ⟨fun h => ⟨_, h1 h, rfl, ?_⟩, h2⟩
  dsimp only [made]
  rw [List.filter_map, List.map_map, show (f.rows.zipIdx.filter fun p => decide (Spec.Breaks rules (Function.update p.1 "__index__"
    (num p.2)))) = f.rows.zipIdx.filter (violated rules ∘ fun p => Function.update p.1 "__index__" (num p.2)) from
    List.filter_congr fun r _ => by rw [Bool.eq_iff_iff, Function.comp, violated_iff]; simp]
  rw [List.forall₂_map_right_iff, List.forall₂_same]
  intro p hp
  have hk : "__index__" ∉ keep.getD [] := fun hc =>
    (List.nodup_cons.1 (List.nodup_append.1 h.2.1).1).1 hc
  refine ⟨?_, reasons_right all rules _ ((violated_iff rules _).1 (List.mem_filter.1 hp).2)⟩
  simp only [Function.comp, List.map_cons, Function.update_self]
  rw [cells_update _ _ _ _ hk]

example : "__index__" ∉ ["id", "age"] ∧ Spec.NamesOk ("__index__" :: ["id", "age"]) ("__index__" :: (some ["age"]).getD []) ["too old"] :=
  ⟨by decide, by decide, by decide, by decide⟩

/-- **A frame that already has a column `__index__` gets no report unless an identifier is given.** -/
theorem report_index_taken (num : ℕ → V) (rules : List (Rule V)) (keep : Option (List String)) (all : Bool) (f : Frame V)
    (hi : "__index__" ∈ f.names) : rowValidation num rules none keep all f = .error "DuplicateError" := by
  unfold rowValidation withRowIndex
  rw [if_pos hi]; rfl

example : "__index__" ∈ (⟨["__index__", "age"], [fun _ => 1]⟩ : Frame ℤ).names := by decide

/-- **Whether the report can be made depends on the wording of an explanation**: with the identifier "id" it is made for a rule
called "too old" and fails for the same rule called "id". -/
theorem report_rule_name (num : ℕ → V) (test : (String → V) → Option Bool) (rows : List (String → V)) :
    (∃ rep, rowValidation num [⟨test, "too old"⟩] (some "id") none false ⟨["id", "age"], rows⟩ = .ok rep) ∧
    ∃ e, rowValidation num [⟨test, "id"⟩] (some "id") none false ⟨["id", "age"], rows⟩ = .error e := by
  constructor
  · obtain ⟨rep, h, -⟩ := (report_with_id num [⟨test, "too old"⟩] "id" none false ⟨["id", "age"], rows⟩).1
      ⟨by simp, by simp, by simp⟩
    exact ⟨rep, h⟩
  · exact (report_with_id num [⟨test, "id"⟩] "id" none false ⟨["id", "age"], rows⟩).2 (fun h => by
      have := h.2.1
      simp at this)

end Verif.FrameNames
