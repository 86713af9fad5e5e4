import Verif.Model.Pipeline
import Mathlib.Tactic

/-!
# Blueprints and pipelines: theorems
-/

namespace Verif.Pipeline

set_option linter.unusedSectionVars false

variable {V D : Type}

namespace Spec

/-- A proper frame: column names differ, rows hold nothing outside the schema. -/
def WF (f : Frame V D) : Prop := f.names.Nodup ∧ ∀ r ∈ f.rows, ∀ n, n ∉ f.names → r n = none

/-- Fit and apply one step after the other. -/
def fitTransform : List (BStep V D) → Frame V D → Option (Frame V D)
  | [], f => some f
  | .fit s :: rest, f => match s.fit f with
    | none => none
    | some es => match withColumns es f with
      | none => none
      | some f' => fitTransform rest f'
  | .step s :: rest, f => match s.apply f with
    | none => none
    | some f' => fitTransform rest f'

/-- SQL statements return proper frames. -/
def SqlOk : Step V D → Prop
  | .sql run => ∀ f g, run f = some g → WF g
  | _ => True

/-- An expression that is computed row by row. -/
def RowEx (e : Ex V D) : Prop := ∃ g : (String → Option V) → Option V, ∀ rows, e.eval rows = rows.map g

/-- A step that is computed row by row. -/
def RowStep : Step V D → Prop
  | .select es => ∀ s, ∀ e ∈ es s, RowEx e
  | .withColumns es => ∀ s, ∀ e ∈ es s, RowEx e
  | .sql _ => False
  | .filter _ p => ∃ g : (String → Option V) → Bool, ∀ rows, p rows = rows.map g

end Spec

open Spec

/-- Two columns and three rows used in the examples. -/
def Spec.exRow (l : List (String × ℤ)) : String → Option ℤ := fun n => l.lookup n

def Spec.exFrame : Frame ℤ Bool :=
  ⟨[("a", true), ("b", false)], [Spec.exRow [("a", 1), ("b", 7)], Spec.exRow [("a", 5)], Spec.exRow [("a", 3), ("b", 9)]]⟩

theorem Spec.exFrame_wf : WF exFrame := by
  refine ⟨by decide, ?_⟩
  intro r hr n hn
  have ha : (n == "a") = false := by
    by_contra h
    exact hn (by simp only [Bool.not_eq_false, beq_iff_eq] at h; subst h; decide)
  have hb : (n == "b") = false := by
    by_contra h
    exact hn (by simp only [Bool.not_eq_false, beq_iff_eq] at h; subst h; decide)
  simp only [exFrame, List.mem_cons, List.not_mem_nil, or_false] at hr
  rcases hr with rfl | rfl | rfl <;> simp [exRow, List.lookup, ha, hb]

/-- Learns the largest value of each column and subtracts it. -/
def Spec.exFit (f : Frame ℤ Bool) (cs : List String) : Option (List (Ex ℤ Bool)) :=
  some (cs.map fun c => Ex.row c [c] (fun _ => true) fun r =>
    (r c).map fun v => v - ((f.col c).map fun o => o.getD 0).foldl max 0)

def Spec.exCases : Cases := ⟨fun s => if s = "a" then "lo" else s, fun s => s⟩

/-! ## Frames -/

theorem find_colAs [Inhabited D] (g : String → String) (l : List String) (n : String) :
    (l.map fun c => (Ex.colAs c (g c) : Ex V D)).find? (fun e => e.name == n) =
      (l.find? fun c => g c == n).map fun c => Ex.colAs c (g c) := by
  induction l with
  | nil => rfl
  | cons a t ih =>
    simp only [List.map_cons, List.find?_cons]
    have : (Ex.colAs a (g a) : Ex V D).name = g a := rfl
    rw [this]
    cases h : (g a == n)
    · exact ih
    · rfl

theorem find_self (l : List String) (n : String) : (l.find? fun c => c == n) = if n ∈ l then some n else none := by
  induction l with
  | nil => simp
  | cons a t ih =>
    by_cases h : a = n
    · subst h; simp
    · have h' : (a == n) = false := by simpa using h
      rw [List.find?_cons, h', ih]
      simp [Ne.symm h]

theorem lookup_nodup (s : List (String × D)) (h : (s.map Prod.fst).Nodup) (c : String × D) (hc : c ∈ s) :
    s.lookup c.1 = some c.2 := by
  induction s with
  | nil => cases hc
  | cons a t ih =>
    rw [List.map_cons, List.nodup_cons] at h
    rw [List.lookup_cons]
    rcases List.mem_cons.1 hc with rfl | hc'
    · simp
    · have : c.1 ≠ a.1 := by
        intro he
        exact h.1 (he ▸ List.mem_map.2 ⟨c, hc', rfl⟩)
      have : (c.1 == a.1) = false := by simpa using this
      rw [this]
      exact ih h.2 hc'

theorem getElem?_join_map (rows : List (String → Option V)) (g : (String → Option V) → Option V) (i : ℕ)
    (hi : i < rows.length) : ((rows.map g)[i]?).join = g rows[i] := by
  rw [List.getElem?_map, List.getElem?_eq_getElem hi]
  rfl

theorem runs_names [Inhabited D] (f : Frame V D) (cs : List String) (g : String → String) (hn : (cs.map g).Nodup)
    (hs : ∀ c ∈ cs, c ∈ f.names) : runs (cs.map fun c => (Ex.colAs c (g c) : Ex V D)) f = true := by
  unfold runs
  simp only [Bool.and_eq_true, List.all_eq_true, decide_eq_true_eq, beq_iff_eq]
  refine ⟨⟨?_, ?_⟩, ?_⟩
  · intro e he c hc
    obtain ⟨d, hd, rfl⟩ := List.mem_map.1 he
    simp only [Ex.colAs, Ex.row, List.mem_singleton] at hc
    subst hc
    exact hs c hd
  · rw [List.map_map]
    exact hn
  · intro e he
    obtain ⟨d, hd, rfl⟩ := List.mem_map.1 he
    simp [Ex.colAs, Ex.row]

/-- Selecting all columns of a proper frame by name changes nothing. -/
theorem selectNames_self [Inhabited D] (f : Frame V D) (h : WF f) : selectNames f.names f = some f := by
  have hrun : runs (f.names.map fun c => (Ex.colAs c c : Ex V D)) f = true :=
    runs_names f f.names id (by simpa using h.1) fun _ hc => hc
  unfold selectNames select
  rw [if_pos hrun]
  congr 1
  obtain ⟨schema, rows⟩ := f
  congr 1
  · simp only [Frame.names, List.map_map]
    conv_rhs => rw [← List.map_id schema]
    apply List.map_congr_left
    intro c hc
    have := lookup_nodup schema h.1 c hc
    simp [Ex.colAs, Ex.row, this]
  · apply List.ext_getElem
    · simp
    · intro i h1 h2
      rw [List.getElem_mapIdx]
      funext n
      unfold cell
      rw [find_colAs (fun c => c), find_self]
      by_cases hn : n ∈ Frame.names (⟨schema, rows⟩ : Frame V D)
      · rw [if_pos hn]
        simp only [Option.map_some, Option.getD_some]
        exact getElem?_join_map rows (fun r => r n) i h2
      · rw [if_neg hn]
        exact (h.2 _ (List.getElem_mem h2) n hn).symm

theorem find_names (es : List (Ex V D)) (n : String) (h : n ∉ es.map (·.name)) :
    es.find? (fun e => e.name == n) = none := by
  rw [List.find?_eq_none]
  intro e he
  simp only [beq_iff_eq]
  intro hc
  exact h (List.mem_map.2 ⟨e, he, hc⟩)

theorem cell_none (es : List (Ex V D)) (rows : List (String → Option V)) (i : ℕ) (n : String)
    (h : n ∉ es.map (·.name)) : cell es rows i n = none := by
  unfold cell
  rw [find_names es n h]
  rfl

theorem runs_nodup {es : List (Ex V D)} {f : Frame V D} (h : runs es f = true) : (es.map (·.name)).Nodup := by
  unfold runs at h
  simp only [Bool.and_eq_true, decide_eq_true_eq] at h
  exact h.1.2

theorem withColumns_names {es : List (Ex V D)} {f g : Frame V D} (h : withColumns es f = some g) :
    g.names = f.names ++ (es.map (·.name)).filter fun n => decide (n ∉ f.names) := by
  unfold withColumns at h
  split at h
  · cases h
    simp only [Frame.names, List.map_append, List.map_map, List.filter_map]
    rfl
  · cases h

theorem select_names {es : List (Ex V D)} {f g : Frame V D} (h : select es f = some g) :
    g.names = es.map (·.name) := by
  unfold select at h
  split at h
  · cases h
    simp [Frame.names, List.map_map, Function.comp_def]
  · cases h

theorem wf_withColumns {es : List (Ex V D)} {f g : Frame V D} (hf : WF f) (h : withColumns es f = some g) : WF g := by
  have hnames := withColumns_names h
  unfold withColumns at h
  split at h
  case isTrue hr =>
    cases h
    refine ⟨?_, ?_⟩
    · rw [hnames, List.nodup_append]
      refine ⟨hf.1, (runs_nodup hr).filter _, ?_⟩
      intro a ha b hb hab
      subst hab
      simp only [List.mem_filter, decide_eq_true_eq] at hb
      exact hb.2 ha
    · intro r hr' n hn
      rw [hnames, List.mem_append, not_or, List.mem_filter] at hn
      obtain ⟨i, hi, rfl⟩ := List.mem_mapIdx.1 hr'
      have hn2 : n ∉ es.map (·.name) := fun hc => hn.2 ⟨hc, by simpa using hn.1⟩
      simp only [cell_none es f.rows i n hn2, Option.getD_none]
      exact hf.2 _ (List.getElem_mem hi) n hn.1
  case isFalse => cases h

theorem wf_select {es : List (Ex V D)} {f g : Frame V D} (h : select es f = some g) : WF g := by
  have hnames := select_names h
  unfold select at h
  split at h
  case isTrue hr =>
    cases h
    refine ⟨hnames ▸ runs_nodup hr, ?_⟩
    intro r hr' n hn
    rw [hnames] at hn
    obtain ⟨i, hi, rfl⟩ := List.mem_mapIdx.1 hr'
    simp only [cell_none es f.rows i n hn, Option.getD_none]
  case isFalse => cases h

theorem wf_apply (s : Step V D) (hs : SqlOk s) {f g : Frame V D} (hf : WF f) (h : s.apply f = some g) : WF g := by
  cases s with
  | select es => exact wf_select h
  | withColumns es => exact wf_withColumns hf h
  | sql run => exact hs f g h
  | filter needs p =>
    simp only [Step.apply] at h
    split at h
    · cases h
      refine ⟨hf.1, ?_⟩
      intro r hr n hn
      obtain ⟨rp, hrp, rfl⟩ := List.mem_map.1 hr
      exact hf.2 _ (List.of_mem_zip (List.mem_of_mem_filter hrp)).1 n hn
    · cases h

theorem wf_case [Inhabited D] (cs : Cases) (lower upper : Bool) {f g : Frame V D} (hf : WF f)
    (h : caseStep cs lower upper f = some g) : WF g := by
  unfold caseStep renameAll at h
  split at h
  · exact wf_select h
  · split at h
    · exact wf_select h
    · cases h; exact hf

theorem applyAll_append (a b : List (Step V D)) (f : Frame V D) :
    applyAll (a ++ b) f = (applyAll a f).bind (applyAll b) := by
  induction a generalizing f with
  | nil => rfl
  | cons s t ih =>
    simp only [List.cons_append, applyAll]
    cases s.apply f with
    | none => rfl
    | some f' => exact ih f'

theorem loop_spec (steps : List (BStep V D)) (ts : List (Step V D)) (f : Frame V D) :
    (materializeLoop steps ts f).map Prod.snd = fitTransform steps f ∧
    ∀ r, materializeLoop steps ts f = some r → ∃ rest, r.1 = ts ++ rest ∧ applyAll rest f = some r.2 := by
  induction steps generalizing ts f with
  | nil =>
    refine ⟨rfl, ?_⟩
    intro r h
    simp only [materializeLoop, Option.some.injEq] at h
    subst h
    exact ⟨[], by simp, rfl⟩
  | cons b rest ih =>
    cases b with
    | fit s =>
      simp only [materializeLoop, fitTransform]
      cases hfit : s.fit f with
      | none => simp
      | some es =>
        simp only [Option.bind_some]
        cases hw : withColumns es f with
        | none => simp
        | some f' =>
          simp only [Option.bind_some]
          obtain ⟨h1, h2⟩ := ih (ts ++ [.withColumns fun _ => es]) f'
          refine ⟨h1, ?_⟩
          intro r hr
          obtain ⟨l, hl, ha⟩ := h2 r hr
          refine ⟨.withColumns (fun _ => es) :: l, by rw [hl]; simp, ?_⟩
          simp only [applyAll, Step.apply, hw, Option.bind_some]
          exact ha
    | step s =>
      simp only [materializeLoop, fitTransform]
      cases hs : s.apply f with
      | none => simp
      | some f' =>
        simp only [Option.bind_some]
        obtain ⟨h1, h2⟩ := ih (ts ++ [s]) f'
        refine ⟨h1, ?_⟩
        intro r hr
        obtain ⟨l, hl, ha⟩ := h2 r hr
        refine ⟨s :: l, by rw [hl]; simp, ?_⟩
        simp only [applyAll, hs, Option.bind_some]
        exact ha

theorem wf_fitTransform (steps : List (BStep V D)) (hsql : ∀ s, BStep.step s ∈ steps → SqlOk s) {f g : Frame V D}
    (hf : WF f) (h : fitTransform steps f = some g) : WF g := by
  induction steps generalizing f with
  | nil => simp only [fitTransform, Option.some.injEq] at h; subst h; exact hf
  | cons b rest ih =>
    have hrest : ∀ s, BStep.step s ∈ rest → SqlOk s := fun s hs => hsql s (List.mem_cons_of_mem _ hs)
    cases b with
    | fit s =>
      simp only [fitTransform] at h
      cases hfit : s.fit f with
      | none => rw [hfit] at h; cases h
      | some es =>
        rw [hfit] at h
        simp only at h
        cases hw : withColumns es f with
        | none => rw [hw] at h; cases h
        | some f' => rw [hw] at h; exact ih hrest (wf_withColumns hf hw) h
    | step s =>
      simp only [fitTransform] at h
      cases hs : s.apply f with
      | none => rw [hs] at h; cases h
      | some f' => rw [hs] at h; exact ih hrest (wf_apply s (hsql s (List.mem_cons_self)) hf hs) h

/-! ## Fit, then transform the training data -/

/-- Materializing a blueprint and transforming the frame it was made with gives exactly the frame obtained by
fitting and applying the steps one after the other, and fails exactly if one of them fails. -/
theorem transform_training [Inhabited D] (cs : Cases) (df : Frame V D) (name : String) (target : Option String)
    (excl : Option (List String)) (lower upper : Bool) (b : Blueprint V D) (hdf : WF df)
    (hb : Blueprint.init cs df name target excl lower upper = some b) (steps : List (BStep V D))
    (hsql : ∀ s, BStep.step s ∈ steps → SqlOk s) :
    (({ b with steps := steps } : Blueprint V D).materialize.bind fun p => p.transform cs df) =
      fitTransform steps b.df := by
  unfold Blueprint.init at hb
  cases hc : caseStep cs lower upper df with
  | none => rw [hc] at hb; cases hb
  | some f =>
    rw [hc] at hb
    simp only [Option.map_some, Option.some.injEq] at hb
    subst hb
    have hf := wf_case cs lower upper hdf hc
    obtain ⟨h1, h2⟩ := loop_spec steps [] f
    unfold Blueprint.materialize
    simp only
    cases hm : materializeLoop steps [] f with
    | none =>
      rw [hm] at h1
      rw [← h1]
      rfl
    | some r =>
      rw [hm] at h1
      obtain ⟨l, hl, ha⟩ := h2 r hm
      rw [List.nil_append] at hl
      rw [← h1]
      have hr : WF r.2 := wf_fitTransform steps hsql hf (by rw [← h1]; rfl)
      simp only [Option.map_some, Option.bind_some, Pipe.transform, Pipe.checkIn, Bool.not_false, Bool.true_or, if_true]
      rw [hc]
      simp only [Option.bind_some]
      rw [hl, ha]
      exact selectNames_self r.2 hr

example : (Blueprint.init exCases exFrame "p" (some "b") none false false).map (fun b =>
    (({ b with steps := [.fit { func := exFit, cols := some (Sel.names ["a", "b"]), exclude := ["b"] },
      .step (.filter ["b"] fun rows => rows.map fun r => (r "b").isSome)] } : Blueprint ℤ Bool).materialize.bind fun p =>
        p.transform exCases exFrame).map fun g => (g.names, g.col "a", g.col "b")) =
    some (some (["a", "b"], [some (-4), some (-2)], [some 7, some 9])) := by decide +kernel

/-! ## Row by row -/

/-- A row as it leaves `with_columns`. -/
def rowWith (es : List (Ex V D)) (g : Ex V D → (String → Option V) → Option V) (d : (String → Option V) → String → Option V)
    (r : String → Option V) : String → Option V :=
  fun n => ((es.find? fun e => e.name == n).map fun e => g e r).getD (d r n)

theorem mapIdx_rows (es : List (Ex V D)) (g : Ex V D → (String → Option V) → Option V)
    (hg : ∀ e ∈ es, ∀ rows, e.eval rows = rows.map (g e)) (d : (String → Option V) → String → Option V)
    (rows : List (String → Option V)) :
    (rows.mapIdx fun i r => fun n => (cell es rows i n).getD (d r n)) = rows.map (rowWith es g d) := by
  apply List.ext_getElem
  · simp
  · intro i h1 h2
    rw [List.getElem_mapIdx, List.getElem_map]
    have hi : i < rows.length := by simpa using h1
    funext n
    unfold cell rowWith
    cases hf : es.find? fun e => e.name == n with
    | none => rfl
    | some e =>
      simp only [Option.map_some, Option.getD_some]
      rw [hg e (List.mem_of_find?_eq_some hf)]
      exact getElem?_join_map rows (g e) i hi

theorem runs_rows (es : List (Ex V D)) (h : ∀ e ∈ es, RowEx e) (s : List (String × D))
    (a b : List (String → Option V)) : runs es ⟨s, a⟩ = runs es ⟨s, b⟩ := by
  unfold runs
  congr 1
  have : ∀ rows : List (String → Option V), (es.all fun e => (e.eval rows).length == rows.length) = true := by
    intro rows
    simp only [List.all_eq_true, beq_iff_eq]
    intro e he
    obtain ⟨g, hg⟩ := h e he
    rw [hg, List.length_map]
  show (es.all fun e => (e.eval a).length == a.length) = (es.all fun e => (e.eval b).length == b.length)
  rw [this, this]

/-- What one step does to a schema: fails for all rows, or treats the rows one by one. -/
def RowWise (run : Frame V D → Option (Frame V D)) : Prop :=
  ∀ s : List (String × D), (∀ rows, run ⟨s, rows⟩ = none) ∨
    ∃ s', ∃ g : (String → Option V) → Option (String → Option V), ∀ rows, run ⟨s, rows⟩ = some ⟨s', rows.filterMap g⟩

theorem rowWise_some : RowWise (some : Frame V D → Option (Frame V D)) := fun s =>
  .inr ⟨s, some, fun rows => by rw [List.filterMap_some]⟩

theorem rowWise_bind (a b : Frame V D → Option (Frame V D)) (ha : RowWise a) (hb : RowWise b) :
    RowWise fun f => (a f).bind b := by
  intro s
  rcases ha s with h | ⟨s', g, h⟩
  · left; intro rows; simp only [h, Option.bind_none]
  · rcases hb s' with h' | ⟨s'', g', h'⟩
    · left; intro rows; simp only [h, Option.bind_some, h']
    · right
      refine ⟨s'', fun r => (g r).bind g', fun rows => ?_⟩
      simp only [h, Option.bind_some, h', List.filterMap_filterMap]

theorem rowWise_exprs (es : List (String × D) → List (Ex V D)) (h : ∀ s, ∀ e ∈ es s, RowEx e) :
    RowWise (fun f => withColumns (es f.schema) f) ∧ RowWise (fun f => select (es f.schema) f) := by
  classical
  have key : ∀ s, ∃ g : Ex V D → (String → Option V) → Option V,
      ∀ e ∈ es s, ∀ rows, e.eval rows = rows.map (g e) := by
    intro s
    have key' : ∀ e : Ex V D, ∃ g : (String → Option V) → Option V, e ∈ es s → ∀ rows, e.eval rows = rows.map g := by
      intro e
      by_cases he : e ∈ es s
      · obtain ⟨g, hg⟩ := h s e he
        exact ⟨g, fun _ => hg⟩
      · exact ⟨fun _ => none, fun hc => absurd hc he⟩
    choose g hg using key'
    exact ⟨g, fun e he => hg e he⟩
  constructor
  · intro s
    obtain ⟨g, hg⟩ := key s
    by_cases hr : runs (es s) ⟨s, []⟩ = true
    · right
      refine ⟨(s.map fun c => (c.1, (((es s).find? fun e => e.name == c.1).map fun e => e.dtype s).getD c.2)) ++
        ((es s).filter fun e => decide (e.name ∉ s.map Prod.fst)).map fun e => (e.name, e.dtype s),
        fun r => some (rowWith (es s) g (fun r n => r n) r), fun rows => ?_⟩
      show withColumns (es s) ⟨s, rows⟩ = _
      unfold withColumns
      rw [if_pos (by rw [runs_rows (es s) (h s) s rows []]; exact hr)]
      rw [List.filterMap_eq_map']
      congr 2
      exact mapIdx_rows (es s) g hg (fun r n => r n) rows
    · left
      intro rows
      show withColumns (es s) ⟨s, rows⟩ = _
      unfold withColumns
      rw [if_neg (by rw [runs_rows (es s) (h s) s rows []]; exact hr)]
  · intro s
    obtain ⟨g, hg⟩ := key s
    by_cases hr : runs (es s) ⟨s, []⟩ = true
    · right
      refine ⟨(es s).map fun e => (e.name, e.dtype s), fun r => some (rowWith (es s) g (fun _ _ => none) r), fun rows => ?_⟩
      show select (es s) ⟨s, rows⟩ = _
      unfold select
      rw [if_pos (by rw [runs_rows (es s) (h s) s rows []]; exact hr)]
      rw [List.filterMap_eq_map']
      congr 2
      exact mapIdx_rows (es s) g hg (fun _ _ => none) rows
    · left
      intro rows
      show select (es s) ⟨s, rows⟩ = _
      unfold select
      rw [if_neg (by rw [runs_rows (es s) (h s) s rows []]; exact hr)]

theorem rowWise_step (s : Step V D) (h : RowStep s) : RowWise s.apply := by
  cases s with
  | select es => exact (rowWise_exprs es h).2
  | withColumns es => exact (rowWise_exprs es h).1
  | sql run => exact absurd h id
  | filter needs p =>
    obtain ⟨g, hg⟩ := h
    intro s
    by_cases hn : (needs.all fun c => decide (c ∈ s.map Prod.fst)) = true
    · right
      refine ⟨s, fun r => if g r then some r else none, fun rows => ?_⟩
      simp only [Step.apply]
      rw [if_pos (show (needs.all fun c => decide (c ∈ Frame.names (⟨s, rows⟩ : Frame V D))) = true from hn), hg]
      congr 2
      induction rows with
      | nil => rfl
      | cons r t ih =>
        cases hr : g r <;> simp [hr] at ih ⊢ <;> exact ih
    · left
      intro rows
      simp only [Step.apply]
      rw [if_neg (show ¬(needs.all fun c => decide (c ∈ Frame.names (⟨s, rows⟩ : Frame V D))) = true from hn)]

theorem rowWise_all (ts : List (Step V D)) (h : ∀ s ∈ ts, RowStep s) : RowWise (applyAll ts) := by
  induction ts with
  | nil => exact rowWise_some
  | cons s t ih =>
    exact rowWise_bind _ _ (rowWise_step s (h s (by simp))) (ih fun x hx => h x (by simp [hx]))

theorem colAs_row [Inhabited D] (c v : String) : RowEx (Ex.colAs c v : Ex V D) := ⟨fun r => r c, fun _ => rfl⟩

theorem rowWise_transform [Inhabited D] (cs : Cases) (p : Pipe (Step V D)) (h : ∀ s ∈ p.transforms, RowStep s) :
    RowWise (p.transform cs) := by
  have hcase : RowWise (caseStep cs p.lowercase p.uppercase : Frame V D → Option (Frame V D)) := by
    have hren : ∀ g : String → String, RowWise (renameAll g : Frame V D → Option (Frame V D)) := fun g =>
      (rowWise_exprs (fun s => (s.map Prod.fst).map fun c => Ex.colAs c (g c)) (by
        intro s e he
        obtain ⟨c, _, rfl⟩ := List.mem_map.1 he
        exact colAs_row c _)).2
    unfold caseStep
    split
    · exact hren _
    · split
      · exact hren _
      · exact rowWise_some
  have hout : RowWise (fun g : Frame V D => if p.ensureOut then selectNames p.featOut g else some g) := by
    split
    · exact (rowWise_exprs (fun _ => p.featOut.map fun c => Ex.colAs c c) (by
        intro s e he
        obtain ⟨c, _, rfl⟩ := List.mem_map.1 he
        exact colAs_row c c)).2
    · exact rowWise_some
  have hall := rowWise_bind _ _ (rowWise_bind _ _ hcase (rowWise_all p.transforms h)) hout
  intro s
  by_cases hin : p.checkIn ⟨s, []⟩ = true
  · have heq : ∀ rows, p.transform cs ⟨s, rows⟩ =
        ((caseStep cs p.lowercase p.uppercase (⟨s, rows⟩ : Frame V D)).bind fun g => applyAll p.transforms g).bind
          fun g => if p.ensureOut then selectNames p.featOut g else some g := by
      intro rows
      unfold Pipe.transform
      rw [if_pos (show p.checkIn ⟨s, rows⟩ = true from hin)]
    rcases hall s with h' | ⟨s', g, h'⟩
    · left; intro rows; rw [heq]; exact h' rows
    · right; exact ⟨s', g, fun rows => by rw [heq]; exact h' rows⟩
  · left
    intro rows
    unfold Pipe.transform
    rw [if_neg (show ¬p.checkIn ⟨s, rows⟩ = true from hin)]

/-- A pipeline of row-wise steps treats every row on its own: for a given schema it either rejects every frame,
or there are an output schema and a function of one row such that the output rows are the results of that
function, row after row.  Nothing is learned from the frame that is transformed. -/
theorem transform_rowwise [Inhabited D] (cs : Cases) (p : Pipe (Step V D)) (h : ∀ s ∈ p.transforms, RowStep s)
    (s : List (String × D)) :
    (∀ rows, p.transform cs ⟨s, rows⟩ = none) ∨
    ∃ s', ∃ g : (String → Option V) → Option (String → Option V),
      ∀ rows, p.transform cs ⟨s, rows⟩ = some ⟨s', rows.filterMap g⟩ := rowWise_transform cs p h s

/-- Transforming in batches gives the same rows as transforming all at once. -/
theorem transform_batches [Inhabited D] (cs : Cases) (p : Pipe (Step V D)) (h : ∀ s ∈ p.transforms, RowStep s)
    (s : List (String × D)) (a b : List (String → Option V)) (f : Frame V D)
    (hf : p.transform cs ⟨s, a ++ b⟩ = some f) :
    ∃ fa fb, p.transform cs ⟨s, a⟩ = some fa ∧ p.transform cs ⟨s, b⟩ = some fb ∧ fa.schema = f.schema ∧
      fb.schema = f.schema ∧ f.rows = fa.rows ++ fb.rows := by
  rcases transform_rowwise cs p h s with h' | ⟨s', g, h'⟩
  · rw [h'] at hf; cases hf
  · rw [h'] at hf
    cases hf
    exact ⟨_, _, h' a, h' b, rfl, rfl, List.filterMap_append⟩

/-- A step learned from one frame is a fixed function of the row when applied to another. -/
example : ∃ es, exFit exFrame ["a"] = some es ∧ RowStep (.withColumns fun _ => es) ∧
    ((applyAll [.withColumns fun _ => es] ⟨exFrame.schema, [exRow [("a", 100)], exRow [("a", 5)]]⟩).map fun g => g.col "a") =
      some [some 95, some 0] := by
  refine ⟨_, rfl, ?_, by decide +kernel⟩
  intro s e he
  obtain ⟨c, _, rfl⟩ := List.mem_map.1 he
  exact ⟨_, fun _ => rfl⟩

/-! ## Excluded columns -/

/-- A fitted transform on selected columns does not change an excluded column of any frame it is applied to, if it
writes only columns it was given. -/
theorem excluded_kept (func : Frame V D → List String → Option (List (Ex V D))) (sel : Sel D) (excl : List String)
    (hfunc : ∀ f cs es, func f cs = some es → ∀ e ∈ es, e.name ∈ cs) (t : String) (ht : t ∈ excl)
    (f g g' : Frame V D) (es : List (Ex V D))
    (hfit : FitStep.fit { func := func, cols := some sel, exclude := excl } f = some es)
    (hg : withColumns es g = some g') :
    g'.col t = g.col t ∧ (t ∈ g'.names ↔ t ∈ g.names) ∧ g'.schema.lookup t = g.schema.lookup t := by
  have hnot : t ∉ es.map (·.name) := by
    simp only [FitStep.fit] at hfit
    cases hs : sel f.schema with
    | none => rw [hs] at hfit; cases hfit
    | some cs =>
      rw [hs] at hfit
      simp only [Option.bind_some] at hfit
      intro hc
      obtain ⟨e, he, hee⟩ := List.mem_map.1 hc
      have := hfunc _ _ _ hfit e he
      rw [List.mem_filter] at this
      have h2 := this.2
      simp only [decide_eq_true_eq] at h2
      exact h2 (hee ▸ ht)
  have hnames := withColumns_names hg
  unfold withColumns at hg
  split at hg
  case isFalse => cases hg
  case isTrue hr =>
    cases hg
    refine ⟨?_, ?_, ?_⟩
    · unfold Frame.col
      apply List.ext_getElem
      · simp
      · intro i h1 h2
        rw [List.getElem_map, List.getElem_map, List.getElem_mapIdx, cell_none es g.rows i t hnot]
        rfl
    · rw [hnames, List.mem_append, List.mem_filter]
      constructor
      · rintro (h | h)
        · exact h
        · exact absurd h.1 hnot
      · exact fun h => .inl h
    · clear hnames hfit
      have h1 : ∀ (l : List (String × D)) (r : List (String × D)), (∀ x ∈ r, x.1 ≠ t) →
          ((l.map fun c => (c.1, ((es.find? fun e => e.name == c.1).map fun e => e.dtype g.schema).getD c.2)) ++ r).lookup t =
            l.lookup t := by
        intro l r hr
        induction l with
        | nil =>
          simp only [List.map_nil, List.nil_append, List.lookup_nil]
          induction r with
          | nil => rfl
          | cons x r ih =>
            rw [List.lookup_cons]
            have : (t == x.1) = false := by
              have := hr x (by simp)
              simpa using Ne.symm this
            rw [this]
            exact ih fun y hy => hr y (by simp [hy])
        | cons c l ih =>
          rw [List.map_cons, List.cons_append, List.lookup_cons, List.lookup_cons]
          by_cases hc : t = c.1
          · subst hc
            simp [find_names es c.1 hnot]
          · have : (t == c.1) = false := by simpa using hc
            simp only [this]
            exact ih
      apply h1
      intro x hx
      obtain ⟨e, he, rfl⟩ := List.mem_map.1 hx
      intro hc
      exact hnot (List.mem_map.2 ⟨e, List.mem_of_mem_filter he, hc⟩)

example : (∀ f cs es, exFit f cs = some es → ∀ e ∈ es, e.name ∈ cs) ∧
    (FitStep.fit { func := exFit, cols := some (Sel.names ["a", "b"]), exclude := ["b"] } exFrame).map
      (fun es => (withColumns es exFrame).map fun g => (g.col "a", g.col "b")) =
    some (some ([some (-4), some 0, some (-2)], [some 7, none, some 9])) := by
  refine ⟨?_, by decide +kernel⟩
  intro f cs es h e he
  simp only [exFit, Option.some.injEq] at h
  subst h
  obtain ⟨c, hc, rfl⟩ := List.mem_map.1 he
  exact hc

theorem kept_withColumns {es : List (Ex V D)} {g g' : Frame V D} (hg : withColumns es g = some g') (t : String)
    (hnot : t ∉ es.map (·.name)) : g'.col t = g.col t ∧ (t ∈ g.names → t ∈ g'.names) := by
  have hnames := withColumns_names hg
  unfold withColumns at hg
  split at hg
  case isFalse => cases hg
  case isTrue hr =>
    cases hg
    refine ⟨?_, ?_⟩
    · unfold Frame.col
      apply List.ext_getElem
      · simp
      · intro i h1 h2
        rw [List.getElem_map, List.getElem_map, List.getElem_mapIdx, cell_none es g.rows i t hnot]
        rfl
    · intro h
      rw [hnames, List.mem_append]
      exact .inl h

theorem selectNames_col [Inhabited D] {cs : List String} {g x : Frame V D} (h : selectNames cs g = some x) (c : String)
    (hc : c ∈ cs) : x.col c = g.col c ∧ c ∈ x.names := by
  have hn : x.names = cs := by
    have := select_names h
    rw [this, List.map_map]
    simp [Function.comp_def, Ex.colAs, Ex.row]
  refine ⟨?_, hn ▸ hc⟩
  unfold selectNames select at h
  split at h
  case isFalse => cases h
  case isTrue hr =>
    cases h
    unfold Frame.col
    apply List.ext_getElem
    · simp
    · intro i h1 h2
      rw [List.getElem_map, List.getElem_map, List.getElem_mapIdx]
      have hi : i < g.rows.length := by simpa using h2
      unfold cell
      have hf : (cs.map fun c => (Ex.colAs c c : Ex V D)).find? (fun e => e.name == c) = some (Ex.colAs c c) := by
        have := find_colAs (V := V) (D := D) id cs c
        simp only [id] at this
        rw [this, find_self, if_pos hc]
        rfl
      rw [hf]
      simp only [Option.map_some, Option.getD_some, Ex.colAs, Ex.row]
      exact getElem?_join_map g.rows (fun r => r c) i hi

/-- The target and the excluded columns go through a pipeline of fitted transforms unchanged, on every frame. -/
theorem target_kept [Inhabited D] (cs : Cases) (df : Frame V D) (name t : String) (excl : Option (List String))
    (b : Blueprint V D) (hb : Blueprint.init cs df name (some t) excl false false = some b)
    (fits : List ((Frame V D → List String → Option (List (Ex V D))) × Sel D))
    (hfits : ∀ q ∈ fits, ∀ f cs es, q.1 f cs = some es → ∀ e ∈ es, e.name ∈ cs)
    (p : Pipe (Step V D)) (hp : (fits.foldl (fun b q => b.addFit q.1 q.2) b).materialize = some p)
    (x : String) (hx : x = t ∨ x ∈ excl.getD []) (hxdf : x ∈ df.names) (f g : Frame V D)
    (hg : p.transform cs f = some g) : g.col x = f.col x ∧ x ∈ g.names := by
  simp only [Blueprint.init, caseStep, Bool.false_eq_true, if_false, Option.map_some, Option.some.injEq] at hb
  have hexcl : x ∈ b.exclude := by
    rw [← hb]
    cases excl with
    | none => simpa using hx
    | some l =>
      simp only [Option.getD_some] at hx
      simp only [List.mem_dedup, List.mem_append, Option.toList_some, List.mem_singleton]
      exact hx
  have hfold : ∀ (fits : List ((Frame V D → List String → Option (List (Ex V D))) × Sel D)) (b : Blueprint V D),
      fits.foldl (fun b q => b.addFit q.1 q.2) b =
        { b with steps := b.steps ++ fits.map fun q => .fit { func := q.1, cols := some q.2, exclude := b.exclude } } := by
    intro fits
    induction fits with
    | nil => intro b; simp
    | cons q rest ih =>
      intro b
      rw [List.foldl_cons, ih]
      simp [Blueprint.addFit, Blueprint.add]
  have hloop : ∀ (fits : List ((Frame V D → List String → Option (List (Ex V D))) × Sel D))
      (_ : ∀ q ∈ fits, ∀ f cs es, q.1 f cs = some es → ∀ e ∈ es, e.name ∈ cs) (ts : List (Step V D)) (f : Frame V D)
      (r : List (Step V D) × Frame V D),
      materializeLoop (fits.map fun q => .fit { func := q.1, cols := some q.2, exclude := b.exclude }) ts f = some r →
      ∃ ess : List (List (Ex V D)), r.1 = ts ++ ess.map (fun es => Step.withColumns fun _ => es) ∧
        (∀ es ∈ ess, x ∉ es.map (·.name)) ∧ (x ∈ f.names → x ∈ r.2.names) := by
    intro fits
    induction fits with
    | nil =>
      intro _ ts f r hr
      simp only [List.map_nil, materializeLoop, Option.some.injEq] at hr
      subst hr
      exact ⟨[], by simp, by simp, id⟩
    | cons q rest ih =>
      intro hq ts f r hr
      simp only [List.map_cons, materializeLoop] at hr
      cases hfit : FitStep.fit { func := q.1, cols := some q.2, exclude := b.exclude } f with
      | none => rw [hfit] at hr; cases hr
      | some es =>
        rw [hfit] at hr
        simp only [Option.bind_some] at hr
        cases hw : withColumns es f with
        | none => rw [hw] at hr; cases hr
        | some f' =>
          rw [hw] at hr
          simp only [Option.bind_some] at hr
          obtain ⟨ess, h1, h2, h3⟩ := ih (fun q' h' => hq q' (List.mem_cons_of_mem _ h')) _ _ _ hr
          have hnot : x ∉ es.map (·.name) := by
            simp only [FitStep.fit] at hfit
            cases hs : q.2 f.schema with
            | none => rw [hs] at hfit; cases hfit
            | some cs =>
              rw [hs] at hfit
              simp only [Option.bind_some] at hfit
              intro hc
              obtain ⟨e, he, hee⟩ := List.mem_map.1 hc
              have := hq q List.mem_cons_self _ _ _ hfit e he
              rw [List.mem_filter] at this
              have h2 := this.2
              simp only [decide_eq_true_eq] at h2
              exact h2 (hee ▸ hexcl)
          refine ⟨es :: ess, by rw [h1]; simp, ?_, ?_⟩
          · intro es' h'
            rcases List.mem_cons.1 h' with rfl | h'
            · exact hnot
            · exact h2 es' h'
          · exact fun h => h3 ((kept_withColumns hw x hnot).2 h)
  have happly : ∀ (ess : List (List (Ex V D))) (_ : ∀ es ∈ ess, x ∉ es.map (·.name)) (f g : Frame V D),
      applyAll (ess.map fun es => Step.withColumns fun _ => es) f = some g → g.col x = f.col x := by
    intro ess
    induction ess with
    | nil => intro _ f g h; simp only [List.map_nil, applyAll, Option.some.injEq] at h; rw [h]
    | cons es rest ih =>
      intro hn f g h
      simp only [List.map_cons, applyAll, Step.apply] at h
      cases hw : withColumns es f with
      | none => rw [hw] at h; cases h
      | some f' =>
        rw [hw] at h
        rw [ih (fun e he => hn e (List.mem_cons_of_mem _ he)) f' g h, (kept_withColumns hw x (hn es List.mem_cons_self)).1]
  rw [hfold, Blueprint.materialize] at hp
  simp only at hp
  have hsteps : b.steps = [] := by rw [← hb]
  have hdf : b.df = df := by rw [← hb]
  have hlow : b.lowercase = false ∧ b.uppercase = false := by rw [← hb]; exact ⟨rfl, rfl⟩
  rw [hsteps, List.nil_append, hdf] at hp
  cases hm : materializeLoop (fits.map fun q => BStep.fit { func := q.1, cols := some q.2, exclude := b.exclude }) [] df with
  | none => rw [hm] at hp; cases hp
  | some r =>
    rw [hm] at hp
    simp only [Option.map_some, Option.some.injEq] at hp
    obtain ⟨ess, h1, h2, h3⟩ := hloop fits hfits _ _ _ hm
    subst hp
    simp only [Pipe.transform, Pipe.checkIn, caseStep, hlow, Bool.not_false, Bool.true_or, if_true, Bool.false_eq_true,
      if_false, Option.bind_some] at hg
    cases ha : applyAll r.1 f with
    | none => rw [ha] at hg; cases hg
    | some h =>
      rw [ha] at hg
      simp only [Option.bind_some] at hg
      obtain ⟨s1, s2⟩ := selectNames_col hg x (h3 hxdf)
      refine ⟨?_, s2⟩
      rw [s1]
      rw [h1, List.nil_append] at ha
      exact happly ess h2 f h ha

example : (Blueprint.init exCases exFrame "p" (some "b") (some ["a"]) false false).map (fun b => (b.exclude,
    ((([(exFit, Sel.names ["a", "b"])] : List _).foldl (fun b q => b.addFit q.1 q.2) b).materialize.bind fun p =>
      p.transform exCases exFrame).map fun g => (g.col "a", g.col "b"))) =
    some (["b", "a"], some ([some 1, some 5, some 3], [some 7, none, some 9])) := by decide +kernel

/-- The conversions over all columns of a type are not restricted by the exclusions: every row of a column of that
type is converted, the target included. -/
theorem convert_changes_target (b : Blueprint V D) (p : D → Bool) (d : D) (g : V → Option V) (f f' : Frame V D)
    (t : String × D) (hf : WF f) (ht : t ∈ f.schema) (hp : p t.2 = true) (s : Step V D)
    (hs : (b.convert p d g).steps = b.steps ++ [.step s]) (h : s.apply f = some f') :
    f'.col t.1 = (f.col t.1).map fun v => v.bind g := by
  have : BStep.step s = BStep.step (.withColumns fun s => (s.filter fun c => p c.2).map fun c =>
      Ex.row c.1 [c.1] (fun _ => d) fun r => (r c.1).bind g) := by
    unfold Blueprint.convert Blueprint.add at hs
    simp only [List.append_cancel_left_eq, List.cons.injEq, and_true] at hs
    exact hs.symm
  cases this
  simp only [Step.apply] at h
  unfold withColumns at h
  split at h
  case isFalse => cases h
  case isTrue hr =>
    cases h
    unfold Frame.col
    apply List.ext_getElem
    · simp
    · intro i h1 h2
      have hi : i < f.rows.length := by simpa using h1
      rw [List.getElem_map, List.getElem_mapIdx, List.getElem_map, List.getElem_map]
      unfold cell
      have hfind : ((f.schema.filter fun c => p c.2).map fun c =>
          (Ex.row c.1 [c.1] (fun _ => d) fun r => (r c.1).bind g : Ex V D)).find? (fun e => e.name == t.1) =
          some (Ex.row t.1 [t.1] (fun _ => d) fun r => (r t.1).bind g) := by
        have hnd : (f.schema.map Prod.fst).Nodup := hf.1
        clear h1 h2 hi hr hs hf
        revert ht hnd
        generalize f.schema = sch
        intro ht hnd
        induction sch with
        | nil => cases ht
        | cons c l ih =>
          rw [List.map_cons, List.nodup_cons] at hnd
          rcases List.mem_cons.1 ht with rfl | ht'
          · simp [hp, Ex.row]
          · have hne : c.1 ≠ t.1 := fun hc => hnd.1 (hc ▸ List.mem_map.2 ⟨t, ht', rfl⟩)
            rw [List.filter_cons]
            by_cases hpc : p c.2 = true
            · rw [if_pos hpc, List.map_cons, List.find?_cons]
              have : ((Ex.row c.1 [c.1] (fun _ => d) fun r => (r c.1).bind g : Ex V D).name == t.1) = false := by
                simpa [Ex.row] using hne
              rw [this]
              exact ih ht' hnd.2
            · rw [if_neg hpc]
              exact ih ht' hnd.2
      rw [hfind]
      simp only [Option.map_some, Option.getD_some, Ex.row]
      exact getElem?_join_map f.rows (fun r => (r t.1).bind g) i hi

example : (Blueprint.init exCases exFrame "p" (some "b") none false false).map (fun b =>
    (b.exclude, ((b.convert (fun d => !d) true fun v => some (v * 10)).materialize.bind fun p => p.transform exCases exFrame).map
      fun g => (g.col "a", g.col "b"))) =
    some (["b"], some ([some 1, some 5, some 3], [some 70, none, some 90])) := by decide +kernel

/-- One-hot encoding with a selector drops every selected column afterwards, the excluded target among them. -/
theorem one_hot_drops_target [Inhabited D] (b : Blueprint V D)
    (func : Frame V D → List String → Option (List (Ex V D))) (sel : Sel D) (t : String) :
    ∃ s, (b.oneHotEncode func sel true).steps = b.steps ++ [.fit { func, cols := some sel, exclude := b.exclude }, .step s] ∧
      ∀ f f' cs, sel f.schema = some cs → t ∈ cs → s.apply f = some f' → t ∉ f'.names := by
  refine ⟨.select fun s => Pipeline.exclude ((sel s).getD []) s, by
    simp [Blueprint.oneHotEncode, Blueprint.addFit, Blueprint.drop, Blueprint.add], ?_⟩
  intro f f' cs hsel ht h
  have := select_names h
  rw [this]
  simp only [hsel, Pipeline.exclude, Option.getD_some, List.map_map, List.mem_map, List.mem_filter, decide_eq_true_eq,
    Function.comp_apply]
  rintro ⟨c, ⟨_, h2⟩, rfl⟩
  exact h2 ht

example : (Blueprint.init exCases exFrame "p" (some "b") none false false).map (fun b =>
    (b.exclude, ((b.oneHotEncode (fun _ _ => some []) (Sel.byType fun d => !d) true).materialize.bind fun p =>
      p.transform exCases exFrame).map fun g => g.names)) =
    some (["b"], some ["a"]) := by decide +kernel

/-! ## Renaming -/

/-- The two steps appended by `rename`. -/
theorem rename_steps [Inhabited D] (b : Blueprint V D) (m : List (String × String)) :
    (b.rename m).steps = b.steps ++ [.step (.withColumns fun _ => m.map fun kv => Ex.colAs kv.1 kv.2),
      .step (.select fun s => Pipeline.exclude (m.map Prod.fst) s)] := by
  simp [Blueprint.rename, Blueprint.drop, Blueprint.add]

theorem fitTransform_two (s1 s2 : Step V D) (f : Frame V D) :
    fitTransform [.step s1, .step s2] f = (s1.apply f).bind s2.apply := by
  simp only [fitTransform]
  cases s1.apply f with
  | none => rfl
  | some g =>
    simp only [Option.bind_some]
    cases s2.apply g <;> rfl

/-- If the new names are new and different, renaming keeps every column: the renamed ones under their new names,
after the others. -/
theorem rename_partial [Inhabited D] (b : Blueprint V D) (m : List (String × String)) (f : Frame V D) (hf : WF f)
    (hk : ∀ kv ∈ m, kv.1 ∈ f.names) (hv : (m.map Prod.snd).Nodup) (hn : ∀ kv ∈ m, kv.2 ∉ f.names) :
    ∃ s1 s2 f', (b.rename m).steps = b.steps ++ [.step s1, .step s2] ∧ fitTransform [.step s1, .step s2] f = some f' ∧
      f'.names = (f.names.filter fun c => decide (c ∉ m.map Prod.fst)) ++ m.map Prod.snd ∧
      (∀ kv ∈ m, f'.col kv.2 = f.col kv.1) ∧
      ∀ c ∈ f.names, c ∉ m.map Prod.fst → f'.col c = f.col c := by
  classical
  refine ⟨.withColumns fun _ => m.map fun kv => Ex.colAs kv.1 kv.2,
    .select fun s => Pipeline.exclude (m.map Prod.fst) s, ?_⟩
  have hr1 : runs (m.map fun kv => (Ex.colAs kv.1 kv.2 : Ex V D)) f = true := by
    unfold runs
    simp only [Bool.and_eq_true, List.all_eq_true, decide_eq_true_eq, beq_iff_eq]
    refine ⟨⟨?_, ?_⟩, ?_⟩
    · intro e he c hc
      obtain ⟨kv, hkv, rfl⟩ := List.mem_map.1 he
      simp only [Ex.colAs, Ex.row, List.mem_singleton] at hc
      subst hc
      exact hk kv hkv
    · rw [List.map_map]
      exact hv
    · intro e he
      obtain ⟨kv, hkv, rfl⟩ := List.mem_map.1 he
      simp [Ex.colAs, Ex.row]
  obtain ⟨g, hg⟩ : ∃ g, withColumns (m.map fun kv => (Ex.colAs kv.1 kv.2 : Ex V D)) f = some g := by
    unfold withColumns; rw [if_pos hr1]; exact ⟨_, rfl⟩
  have hgn : g.names = f.names ++ m.map Prod.snd := by
    rw [withColumns_names hg]
    congr 1
    rw [List.map_map, List.filter_eq_self.2]
    · rfl
    · intro a ha
      obtain ⟨kv, hkv, rfl⟩ := List.mem_map.1 ha
      exact decide_eq_true (hn kv hkv)
  have hgw := wf_withColumns hf hg
  have hcol : ∀ n, g.col n = match m.find? (fun kv => kv.2 == n) with
      | some kv => f.col kv.1
      | none => f.col n := by
    intro n
    have hfind : (m.map fun kv => (Ex.colAs kv.1 kv.2 : Ex V D)).find? (fun e => e.name == n) =
        (m.find? fun kv => kv.2 == n).map fun kv => Ex.colAs kv.1 kv.2 := by
      rw [List.find?_map]; rfl
    unfold withColumns at hg
    rw [if_pos hr1] at hg
    cases hg
    unfold Frame.col
    apply List.ext_getElem
    · cases m.find? (fun kv => kv.2 == n) <;> simp
    · intro i h1 h2
      have hi : i < f.rows.length := by simpa using h1
      rw [List.getElem_map, List.getElem_mapIdx]
      unfold cell
      rw [hfind]
      revert h2
      cases m.find? (fun kv => kv.2 == n) with
      | none => intro h2; simp
      | some kv =>
        intro h2
        simp only [Option.map_some, Option.getD_some, Ex.colAs, Ex.row, List.getElem_map]
        exact getElem?_join_map f.rows (fun r => r kv.1) i hi
  have hr2 : runs (Pipeline.exclude (V := V) (m.map Prod.fst) g.schema) g = true := by
    have := runs_names g (g.names.filter fun c => decide (c ∉ m.map Prod.fst)) id
      (by rw [List.map_id]; exact hgw.1.filter _) fun c hc => List.mem_of_mem_filter hc
    exact this
  obtain ⟨f', hf'⟩ : ∃ f', select (Pipeline.exclude (m.map Prod.fst) g.schema) g = some f' := by
    unfold select; rw [if_pos hr2]; exact ⟨_, rfl⟩
  have hcol' : ∀ n, n ∈ g.names → n ∉ m.map Prod.fst → f'.col n = g.col n := by
    intro n hn1 hn2
    unfold select at hf'
    rw [if_pos hr2] at hf'
    cases hf'
    unfold Frame.col
    apply List.ext_getElem
    · simp
    · intro i h1 h2
      have hi : i < g.rows.length := by simpa using h1
      rw [List.getElem_map, List.getElem_mapIdx, List.getElem_map]
      unfold cell Pipeline.exclude
      rw [find_colAs (fun c => c), find_self,
        if_pos (show n ∈ (g.schema.map Prod.fst).filter fun c => decide (c ∉ m.map Prod.fst) from
          List.mem_filter.2 ⟨hn1, decide_eq_true hn2⟩)]
      simp only [Option.map_some, Option.getD_some, Ex.colAs, Ex.row]
      exact getElem?_join_map g.rows (fun r => r n) i hi
  have hdisj : ∀ kv ∈ m, kv.2 ∉ m.map Prod.fst := by
    intro kv hkv hc
    obtain ⟨kw, hkw, he⟩ := List.mem_map.1 hc
    exact hn kv hkv (he ▸ hk kw hkw)
  refine ⟨f', rename_steps b m, ?_, ?_, ?_, ?_⟩
  · rw [fitTransform_two]
    show (withColumns _ f).bind _ = _
    rw [hg]
    exact hf'
  · rw [select_names hf']
    show ((g.names.filter fun c => decide (c ∉ m.map Prod.fst)).map fun c => (Ex.colAs c c : Ex V D)).map (·.name) = _
    rw [List.map_map, show ((fun e : Ex V D => e.name) ∘ fun c => (Ex.colAs c c : Ex V D)) = id from rfl, List.map_id, hgn,
      List.filter_append]
    congr 1
    rw [List.filter_eq_self]
    intro a ha
    obtain ⟨kv, hkv, rfl⟩ := List.mem_map.1 ha
    simpa using hdisj kv hkv
  · intro kv hkv
    rw [hcol' kv.2 (by rw [hgn]; exact List.mem_append.2 (.inr (List.mem_map.2 ⟨kv, hkv, rfl⟩))) (hdisj kv hkv), hcol]
    have : m.find? (fun x => x.2 == kv.2) = some kv := by
      clear hcol hcol' hr1 hg hgn hr2 hf' hdisj hk hn
      induction m with
      | nil => cases hkv
      | cons a t ih =>
        rw [List.map_cons, List.nodup_cons] at hv
        rcases List.mem_cons.1 hkv with rfl | hkv'
        · simp
        · have : (a.2 == kv.2) = false := by
            have : a.2 ≠ kv.2 := fun hc => hv.1 (hc ▸ List.mem_map.2 ⟨kv, hkv', rfl⟩)
            simpa using this
          rw [List.find?_cons, this]
          exact ih hv.2 hkv'
    rw [this]
  · intro c hc hck
    rw [hcol' c (by rw [hgn]; exact List.mem_append.2 (.inl hc)) hck, hcol]
    have : m.find? (fun x => x.2 == c) = none := by
      rw [List.find?_eq_none]
      intro x hx
      simp only [beq_iff_eq]
      intro he
      exact hn x hx (he ▸ hc)
    rw [this]

example : (∀ kv ∈ [("a", "c")], kv.1 ∈ exFrame.names) ∧ ([("a", "c")].map Prod.snd).Nodup ∧
    (∀ kv ∈ [("a", "c")], kv.2 ∉ exFrame.names) ∧
    ((Blueprint.init exCases exFrame "p" none none false false).map fun b =>
      ((b.rename [("a", "c")]).materialize.bind fun p => p.transform exCases exFrame).map fun g =>
        (g.names, g.col "c", g.col "b")) =
    some (some (["b", "c"], [some 1, some 5, some 3], [some 7, none, some 9])) := by decide +kernel

/-- Renaming to a name that is itself renamed loses the column: after `rename` no key of the mapping is a column
name, so that swapping two names removes both columns, and renaming a column to itself removes it. -/
theorem rename_loses [Inhabited D] (b : Blueprint V D) (m : List (String × String)) (f f' : Frame V D) (s1 s2 : Step V D)
    (hs : (b.rename m).steps = b.steps ++ [.step s1, .step s2])
    (h : fitTransform [.step s1, .step s2] f = some f') : ∀ k ∈ m.map Prod.fst, k ∉ f'.names := by
  rw [rename_steps, List.append_cancel_left_eq] at hs
  simp only [List.cons.injEq, BStep.step.injEq, and_true] at hs
  obtain ⟨rfl, rfl⟩ := hs
  rw [fitTransform_two] at h
  cases h1 : Step.apply (.withColumns fun _ => m.map fun kv => (Ex.colAs kv.1 kv.2 : Ex V D)) f with
  | none => rw [h1] at h; cases h
  | some g =>
    rw [h1] at h
    have h2 : select (Pipeline.exclude (m.map Prod.fst) g.schema) g = some f' := h
    intro k hk
    rw [select_names h2]
    simp only [Pipeline.exclude, List.map_map, List.mem_map, List.mem_filter, decide_eq_true_eq, Function.comp_apply]
    rintro ⟨c, ⟨_, h3⟩, rfl⟩
    exact h3 (List.mem_map.1 hk)

/-- Swapping two columns leaves none, renaming a column to itself loses it, a chain loses one of the two. -/
example : ((Blueprint.init exCases exFrame "p" none none false false).map fun b =>
    [[("a", "b"), ("b", "a")], [("a", "a")], [("a", "b"), ("b", "c")]].map fun m =>
      ((b.rename m).materialize.bind fun p => p.transform exCases exFrame).map fun g => (g.names, g.col "c")) =
    some [some ([], [none, none, none]), some (["b"], [none, none, none]), some (["c"], [some 7, none, some 9])] := by
  decide +kernel

/-! ## Checks of the columns -/

/-- With `ensure_features_in`, a frame passes exactly if it has the same set of columns as the fitted frame. -/
theorem ensure_in_iff (p : Pipe (Step V D)) (hp : p.ensureIn = true) (f : Frame V D) :
    p.checkIn f = true ↔ ∀ c, c ∈ f.names ↔ c ∈ p.featIn := by
  unfold Pipe.checkIn
  simp only [hp, Bool.not_true, Bool.false_or, Bool.and_eq_true, List.all_eq_true, decide_eq_true_eq]
  constructor
  · rintro ⟨h1, h2⟩ c; exact ⟨h1 c, h2 c⟩
  · intro h; exact ⟨fun c hc => (h c).1 hc, fun c hc => (h c).2 hc⟩

example : ((⟨"p", none, ["b", "a"], [], [], true, false, false, false⟩ : Pipe (Step ℤ Bool)).checkIn exFrame,
    (⟨"p", none, ["b", "a", "c"], [], [], true, false, false, false⟩ : Pipe (Step ℤ Bool)).checkIn exFrame) =
    (true, false) := by decide +kernel

/-- Without renaming, the training frame passes. -/
theorem ensure_in_training_partial [Inhabited D] (cs : Cases) (df : Frame V D) (name : String) (target : Option String)
    (excl : Option (List String)) (b : Blueprint V D) (hb : Blueprint.init cs df name target excl false false = some b)
    (p : Pipe (Step V D)) (hp : b.materialize = some p) :
    ({ p with ensureIn := true } : Pipe (Step V D)).checkIn df = true := by
  simp only [Blueprint.init, caseStep, Bool.false_eq_true, if_false, Option.map_some, Option.some.injEq] at hb
  subst hb
  simp only [Blueprint.materialize, materializeLoop, Option.map_some, Option.some.injEq] at hp
  subst hp
  rw [ensure_in_iff _ rfl]
  intro c; rfl

example : ((Blueprint.init exCases exFrame "p" none none false false).bind fun b => b.materialize.map fun p =>
    ({ p with ensureIn := true } : Pipe (Step ℤ Bool)).checkIn exFrame) = some true := by decide +kernel

/-- With `lowercase=True` (or `uppercase=True`) the check compares the incoming names with the renamed ones: a
frame with a column whose name is not one of the renamed names is rejected, the training frame included. -/
theorem ensure_in_lowercase [Inhabited D] (cs : Cases) (df : Frame V D) (name : String) (target : Option String)
    (excl : Option (List String)) (b : Blueprint V D) (hb : Blueprint.init cs df name target excl true false = some b)
    (c : String) (hc : c ∈ df.names) (hl : c ∉ df.names.map cs.lower) (steps : List (BStep V D))
    (p : Pipe (Step V D)) (hp : ({ b with steps := steps } : Blueprint V D).materialize = some p) :
    Pipe.transform cs { p with ensureIn := true } df = none := by
  unfold Blueprint.init at hb
  cases hcs : caseStep cs true false df with
  | none => rw [hcs] at hb; cases hb
  | some f =>
    rw [hcs] at hb
    simp only [Option.map_some, Option.some.injEq] at hb
    subst hb
    have hfn : f.names = df.names.map cs.lower := by
      have : select (df.names.map fun c => Ex.colAs c (cs.lower c)) df = some f := by
        simpa [caseStep, renameAll] using hcs
      rw [select_names this, List.map_map]
      rfl
    unfold Blueprint.materialize at hp
    simp only at hp
    cases hm : materializeLoop steps [] f with
    | none => rw [hm] at hp; cases hp
    | some r =>
      rw [hm] at hp
      simp only [Option.map_some, Option.some.injEq] at hp
      subst hp
      unfold Pipe.transform
      rw [if_neg]
      rw [ensure_in_iff _ rfl]
      intro h
      have := (h c).1 hc
      rw [hfn] at this
      exact hl this

/-- The column "a" is renamed to "lo"; the same pipeline without the check accepts the frame. -/
example : "a" ∈ exFrame.names ∧ "a" ∉ exFrame.names.map exCases.lower ∧
    ((Blueprint.init exCases exFrame "p" none none true false).bind fun b => b.materialize.map fun p =>
      ((Pipe.transform exCases { p with ensureIn := true } exFrame).isSome,
        (p.transform exCases exFrame).map fun g => (g.names, g.col "lo"))) =
    some (false, some (["lo", "b"], [some 1, some 5, some 3])) := by decide +kernel

/-- `separate=True` splits the output of `transform` into the target column and all others. -/
theorem transform_separate [Inhabited D] (cs : Cases) (p : Pipe (Step V D)) (f g : Frame V D) (t : String)
    (ht : p.target = some t) (hg : p.transform cs f = some g) (hw : WF g) (htg : t ∈ g.names) :
    ∃ x y, p.transformSep cs f = some (x, y) ∧ x.names = g.names.filter (fun c => decide (c ≠ t)) ∧ y.names = [t] ∧
      y.col t = g.col t ∧ ∀ c ∈ x.names, x.col c = g.col c := by
  have hcol : ∀ (cs : List String) (hcs : cs.Nodup) (hsub : ∀ c ∈ cs, c ∈ g.names),
      ∃ x, selectNames cs g = some x ∧ x.names = cs ∧ ∀ c ∈ cs, x.col c = g.col c := by
    intro cs hcs hsub
    have hr : runs (cs.map fun c => (Ex.colAs c c : Ex V D)) g = true := runs_names g cs id (by rwa [List.map_id]) hsub
    have he : ∃ x, selectNames cs g = some x := by
      unfold selectNames select; rw [if_pos hr]; exact ⟨_, rfl⟩
    obtain ⟨x, hx⟩ := he
    refine ⟨x, hx, ?_, ?_⟩
    · rw [select_names hx, List.map_map]
      exact List.map_id _
    · intro c hc
      unfold selectNames select at hx
      rw [if_pos hr] at hx
      cases hx
      unfold Frame.col
      apply List.ext_getElem
      · simp
      · intro i h1 h2
        have hi : i < g.rows.length := by simpa using h1
        rw [List.getElem_map, List.getElem_mapIdx, List.getElem_map]
        unfold cell
        rw [find_colAs (fun c => c), find_self, if_pos hc]
        simp only [Option.map_some, Option.getD_some, Ex.colAs, Ex.row]
        exact getElem?_join_map g.rows (fun r => r c) i hi
  obtain ⟨x, hx1, hx2, hx3⟩ := hcol (g.names.filter fun c => decide (c ∉ [t])) (hw.1.filter _)
    fun c hc => List.mem_of_mem_filter hc
  obtain ⟨y, hy1, hy2, hy3⟩ := hcol [t] (by simp) (by simpa using htg)
  refine ⟨x, y, ?_, ?_, hy2, hy3 t (by simp), ?_⟩
  · unfold Pipe.transformSep
    rw [hg, ht]
    simp only [Option.bind_some]
    have : select (exclude [t] g.schema) g = some x := hx1
    rw [this]
    simp only [Option.bind_some]
    rw [hy1]
    rfl
  · rw [hx2]
    simp
  · intro c hc
    rw [hx2] at hc
    exact hx3 c hc

example : WF exFrame ∧ "b" ∈ exFrame.names ∧
    ((Blueprint.init exCases exFrame "p" (some "b") none false false).bind fun b => b.materialize.bind fun p =>
      (p.transformSep exCases exFrame).map fun xy => (xy.1.names, xy.2.names, xy.1.col "a", xy.2.col "b")) =
    some (["a"], ["b"], [some 1, some 5, some 3], [some 7, none, some 9]) := by
  exact ⟨exFrame_wf, by decide, by decide +kernel⟩

/-! ## Serialisation -/

section json
variable {E J : Type}

/-- The steps that blueprints append: expressions for `select` and `with_columns`, one statement for SQL, one
condition for `filter`. -/
def Spec.Built (s : PStep E) : Prop :=
  match s.ctx with
  | .select => ∀ i ∈ s.exprs, ∃ e, i = .expr e
  | .withColumns => ∀ i ∈ s.exprs, ∃ e, i = .expr e
  | .sql => ∃ t, s.exprs = [.text t]
  | .filter => ∃ e, s.exprs = [.expr e]

theorem enc_exprs (c : Codec E J) (l : List (Item E)) (h : ∀ i ∈ l, ∃ e, i = .expr e) :
    ∃ es : List E, l = es.map .expr ∧ l.mapM (encItem c) = some (es.map c.enc) ∧
      (es.map c.enc).mapM c.dec = some es := by
  induction l with
  | nil => exact ⟨[], rfl, rfl, rfl⟩
  | cons i t ih =>
    obtain ⟨e, rfl⟩ := h i (by simp)
    obtain ⟨es, h1, h2, h3⟩ := ih fun j hj => h j (by simp [hj])
    refine ⟨e :: es, by simp [h1], ?_, ?_⟩
    · simp [List.mapM_cons, encItem, h2]
    · simp only [List.map_cons, List.mapM_cons, c.roundTrip, h3]
      rfl

theorem init_exprs (es : List E) (ctx : Ctx) : PStep.init (.list (es.map Item.expr)) ctx = some ⟨ctx, es.map .expr⟩ := by
  unfold PStep.init
  simp only
  rw [if_neg]
  simp [Item.isExpr]

/-- Writing a step to JSON and reading it gives the step. -/
theorem step_round_trip (c : Codec E J) (s : PStep E) (h : Spec.Built s) :
    (s.toJson c).bind (PStep.fromJson c) = some s := by
  obtain ⟨ctx, exprs⟩ := s
  cases ctx with
  | select =>
    obtain ⟨es, h1, h2, h3⟩ := enc_exprs c exprs h
    simp only [PStep.toJson, h2, Option.map_some, Option.bind_some, PStep.fromJson, h3, init_exprs]
    rw [h1]
  | withColumns =>
    obtain ⟨es, h1, h2, h3⟩ := enc_exprs c exprs h
    simp only [PStep.toJson, h2, Option.map_some, Option.bind_some, PStep.fromJson, h3, init_exprs]
    rw [h1]
  | sql =>
    obtain ⟨t, rfl⟩ := (h : ∃ t, exprs = [.text t])
    rfl
  | filter =>
    obtain ⟨e, rfl⟩ := (h : ∃ e, exprs = [.expr e])
    simp only [PStep.toJson, encItem, Option.map_some, Option.bind_some, PStep.fromJson, c.roundTrip]
    exact init_exprs [e] .filter

/-- Saving a pipeline as a dictionary and loading it gives the same pipeline, with all its settings. -/
theorem json_round_trip (c : Codec E J) (p : Pipe (PStep E)) (h : ∀ s ∈ p.transforms, Spec.Built s) :
    (p.toDict c).bind (Pipe.fromDict c) = some p := by
  have key : ∀ l : List (PStep E), (∀ s ∈ l, Spec.Built s) →
      ∃ js, l.mapM (PStep.toJson c) = some js ∧ js.mapM (PStep.fromJson c) = some l := by
    intro l hl
    induction l with
    | nil => exact ⟨[], rfl, rfl⟩
    | cons s t ih =>
      obtain ⟨js, h1, h2⟩ := ih fun x hx => hl x (by simp [hx])
      have hs := step_round_trip c s (hl s (by simp))
      cases hj : s.toJson c with
      | none => rw [hj] at hs; cases hs
      | some j =>
        rw [hj] at hs
        refine ⟨j :: js, by simp [List.mapM_cons, hj, h1], ?_⟩
        simp only [List.mapM_cons]
        rw [show PStep.fromJson c j = some s from hs, h2]
        rfl
  obtain ⟨js, h1, h2⟩ := key p.transforms h
  unfold Pipe.toDict
  rw [h1]
  simp only [Option.map_some, Option.bind_some, Pipe.fromDict, h2, Option.getD_some]

example : ∀ s ∈ [(⟨.select, [.expr 3, .expr 4]⟩ : PStep ℕ), ⟨.sql, [.text "select *"]⟩, ⟨.filter, [.expr 7]⟩],
    Spec.Built s ∧ (s.toJson (⟨fun e => e + 1, fun j => some (j - 1), fun _ => by simp⟩ : Codec ℕ ℕ)).isSome = true := by
  intro s hs
  simp only [List.mem_cons, List.not_mem_nil, or_false] at hs
  rcases hs with rfl | rfl | rfl
  · refine ⟨?_, by decide⟩
    intro i hi
    simp only [List.mem_cons, List.not_mem_nil, or_false] at hi
    rcases hi with rfl | rfl <;> exact ⟨_, rfl⟩
  · exact ⟨⟨_, rfl⟩, by decide⟩
  · exact ⟨⟨_, rfl⟩, by decide⟩

/-- `Blueprint.select` is documented to take anything understood as columns; a column name and a list of column
names are rejected.  Neither does `append_expr` take a list. -/
theorem select_names_rejected (s : String) (hs : s ≠ "") (cs : List String) (hcs : cs ≠ []) (l : List (Item E))
    (b : Bool) :
    bpSelect (.one (.text s) : Action E) = none ∧ bpSelect (.list (cs.map .text) : Action E) = none ∧
    appendExpr [(.list l : Action E)] b = none := by
  refine ⟨?_, ?_, ?_⟩
  · have : s.toList ≠ [] := by
      intro h
      exact hs (by rw [← String.toList_inj]; simpa using h)
    obtain ⟨a, t, ht⟩ := List.exists_cons_of_ne_nil this
    unfold bpSelect PStep.init
    simp [ht]
  · obtain ⟨a, t, rfl⟩ := List.exists_cons_of_ne_nil hcs
    simp [bpSelect, PStep.init, Item.isExpr]
  · simp [appendExpr, PStep.init, Item.isExpr]

example : bpSelect (.one (.expr 3) : Action ℕ) = some ⟨.select, [.expr 3]⟩ ∧
    bpSelect (.one (.text "a") : Action ℕ) = none ∧ bpSelect (.list [.text "a", .text "b"] : Action ℕ) = none ∧
    appendExpr [(.one (.expr 1) : Action ℕ), .one (.expr 2)] false = some ⟨.withColumns, [.expr 1, .expr 2]⟩ ∧
    appendExpr [(.list [.expr 1, .expr 2] : Action ℕ)] true = none := by
  refine ⟨rfl, (select_names_rejected "a" (by decide) ["a"] (by simp) [] true).1,
    (select_names_rejected "a" (by decide) ["a", "b"] (by simp) [] true).2.1, rfl, rfl⟩

end json

/-- `append_expr` of expressions gives the step that runs exactly those expressions, in order, with `select` when
asked and `with_columns` otherwise. -/
theorem append_expr_step (es : List E) (b : Bool) :
    appendExpr (es.map fun e => (.one (.expr e) : Action E)) b =
      some ⟨if b = true then .select else .withColumns, es.map .expr⟩ := by
  unfold appendExpr
  rw [List.map_map]
  exact init_exprs es _

example : appendExpr [(.one (.expr 1) : Action ℕ)] true = some ⟨.select, [.expr 1]⟩ := append_expr_step [1] true

end Verif.Pipeline
