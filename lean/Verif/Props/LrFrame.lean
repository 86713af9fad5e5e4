import Verif.Model.LrFrame
import Verif.Props.NullPolicy
import Mathlib.Algebra.Order.Ring.Rat
import Mathlib.Tactic.NormNum
import Mathlib.Algebra.BigOperators.Fin

/-!
# `LR` and `ElasticNet` on frames and matrices with missing values: theorems
-/
set_option linter.unusedSectionVars false

namespace Verif.LrFrame.Spec
variable {K C : Type}

/-- The documented rules for missing cells. -/
inductive Rule (K : Type)
  | skip
  | fill (x : K)

/-- Which string asks for which rule; `parse` is Python's `float`. -/
inductive Names [Zero K] [One K] (parse : String → Option (V K)) : String → Rule K → Prop
  | skip : Names parse "skip" .skip
  | zero : Names parse "zero" (.fill 0)
  | one : Names parse "one" (.fill 1)
  | number (s : String) (x : K) (h : parse s = some (.num x)) (hs : s ∉ ["ignore", "raise", "skip", "zero", "one"]) :
      Names parse s (.fill x)

/-- One row: `skip` drops a row with a missing cell; `fill x` drops a row with a missing target and replaces the
missing feature cells, and only those, by `x`. -/
inductive Treats (miss : C → Prop) (put : K → C) : Rule K → List C × C → Option (List C × C) → Prop
  | keep (r) (h : ∀ c ∈ r.2 :: r.1, ¬miss c) : Treats miss put .skip r (some r)
  | drop (r) (c) (hc : c ∈ r.2 :: r.1) (h : miss c) : Treats miss put .skip r none
  | noTarget (x : K) (r) (h : miss r.2) : Treats miss put (.fill x) r none
  | fill (x : K) (r) (l : List C) (h : ¬miss r.2)
      (hl : List.Forall₂ (fun a b => (miss a ∧ b = put x) ∨ (¬miss a ∧ b = a)) r.1 l) :
      Treats miss put (.fill x) r (some (l, r.2))

/-- The documented outcome for a table: every row treated, dropped rows left out. -/
def Outcome (miss : C → Prop) (put : K → C) (ρ : Rule K) (rows out : List (List C × C)) : Prop :=
  ∃ os, List.Forall₂ (Treats miss put ρ) rows os ∧ out = os.reduceOption

end Verif.LrFrame.Spec

namespace Verif.LrFrame
open Verif.LrFrame.Spec
open Verif.LRObject (Obj)
variable {K : Type} [Field K] [LinearOrder K]

theorem forall₂_map_iff {A B : Type} (R : A → B → Prop) (f : A → B) (l : List A) :
    List.Forall₂ R l (l.map f) ↔ ∀ a ∈ l, R a (f a) := by
  rw [List.forall₂_map_right_iff, List.forall₂_same]

theorem outcome_of {C : Type} {miss : C → Prop} {put : K → C} {ρ : Rule K} (g : List C × C → Option (List C × C))
    (rows : List (List C × C)) (h : ∀ r ∈ rows, Treats miss put ρ r (g r)) :
    Outcome miss put ρ rows (rows.filterMap g) := by
  refine ⟨rows.map g, (forall₂_map_iff _ _ _).2 h, ?_⟩
  rw [List.reduceOption, List.filterMap_map]
  rfl

theorem outcome_unique {C : Type} {miss : C → Prop} {put : K → C} {ρ : Rule K} {rows out : List (List C × C)}
    (h : Outcome miss put ρ rows out) (out' : List (List C × C)) (h' : Outcome miss put ρ rows out') : out = out' := by
  obtain ⟨os, hos, rfl⟩ := h
  obtain ⟨os', hos', rfl⟩ := h'
  congr 1
  induction hos generalizing os' with
  | nil => cases hos'; rfl
  | cons ha _ ih =>
    cases hos' with
    | cons hb hr =>
      rw [ih _ hr]
      congr 1
      cases ha with
      | keep _ h =>
        cases hb with
        | keep => rfl
        | drop _ c hc hm => exact absurd hm (h c hc)
      | drop _ c hc hm =>
        cases hb with
        | keep _ h => exact absurd hm (h c hc)
        | drop => rfl
      | noTarget x _ h =>
        cases hb with
        | noTarget => rfl
        | fill _ _ _ h' => exact absurd h h'
      | fill x r l h hl =>
        cases hb with
        | noTarget _ _ h' => exact absurd h' h
        | fill _ _ l' _ hl' =>
          have : l = l' := by
            revert hl hl'
            generalize Prod.fst _ = l0
            intro hl hl'
            clear * - hl hl'
            induction hl generalizing l' with
            | nil => cases hl'; rfl
            | cons h1 _ ih =>
              cases hl' with
              | cons h2 hr =>
                rw [ih _ hr]
                congr 1
                rcases h1 with ⟨a, rfl⟩ | ⟨a, rfl⟩ <;> rcases h2 with ⟨b, rfl⟩ | ⟨b, rfl⟩
                · rfl
                · exact absurd a b
                · exact absurd b a
                · rfl
          rw [this]

theorem filter_eq_filterMap {A : Type} (p : A → Bool) (l : List A) :
    l.filter p = l.filterMap fun a => if p a then some a else none := by
  induction l with
  | nil => rfl
  | cons a l ih =>
    rw [List.filter_cons, List.filterMap_cons]
    cases p a <;> simp [ih]

theorem map_filter_eq_filterMap {A B : Type} (f : A → B) (p : B → Bool) (l : List A) :
    (l.map f).filter p = l.filterMap fun a => if p (f a) then some (f a) else none := by
  induction l with
  | nil => rfl
  | cons a l ih =>
    rw [List.map_cons, List.filter_cons, List.filterMap_cons]
    cases p (f a) <;> simp [ih]

/-! ## Frames -/

theorem fillDf_outcome (x : K) (rows : List (DRow K)) :
    Outcome (· = none) (fun x => some (.num x)) (.fill x) rows (fillDf x rows) := by
  unfold fillDf
  rw [map_filter_eq_filterMap]
  refine outcome_of _ rows fun r _ => ?_
  obtain ⟨f, y⟩ := r
  cases y with
  | none => exact .noTarget x _ rfl
  | some y =>
    refine .fill x _ _ (by simp) ?_
    rw [forall₂_map_iff]
    intro c _
    cases c with
    | none => exact .inl ⟨rfl, rfl⟩
    | some v => exact .inr ⟨by simp, rfl⟩

theorem skipDf_outcome (rows : List (DRow K)) :
    Outcome (· = none) (fun x : K => some (V.num x)) .skip rows
      (rows.filter fun r => !(r.1.any (·.isNone) || r.2.isNone)) := by
  rw [filter_eq_filterMap]
  refine outcome_of _ rows fun r _ => ?_
  by_cases h : (r.1.any (·.isNone) || r.2.isNone) = true
  · rw [h]
    rw [Bool.or_eq_true, List.any_eq_true] at h
    rcases h with ⟨c, hc, hn⟩ | h
    · exact .drop r c (List.mem_cons_of_mem _ hc) (Option.isNone_iff_eq_none.1 hn)
    · exact .drop r r.2 (List.mem_cons_self) (Option.isNone_iff_eq_none.1 h)
  · have hf : (r.1.any (·.isNone) || r.2.isNone) = false := Bool.eq_false_iff.2 h
    rw [hf]
    refine .keep r fun c hc hn => h ?_
    subst hn
    rw [Bool.or_eq_true, List.any_eq_true]
    rcases List.mem_cons.1 hc with e | hc
    · right; rw [← e]; rfl
    · left; exact ⟨none, hc, rfl⟩

theorem handleDf_num (parse : String → Option (V K)) (s : String) (x : K) (h : parse s = some (.num x))
    (hs : s ∉ ["ignore", "raise", "skip", "zero", "one"]) (rows : List (DRow K)) :
    handleDf parse s rows = .ok (fillDf x rows) := by
  simp only [List.mem_cons, List.not_mem_nil, or_false, not_or] at hs
  obtain ⟨h1, h2, h3, h4, h5⟩ := hs
  simp only [handleDf, if_neg h1, if_neg h2, if_neg h3, if_neg h4, if_neg h5, h]

/-- **C132 (frames).** In `fit_df` the policies "skip", "zero", "one" and a number treat every row as documented:
"skip" drops the rows with a null in a feature or the target; the others drop the rows without target and replace the
null features, and only those, by the number. -/
theorem fit_df_rows (parse : String → Option (V K)) (s : String) (ρ : Rule K) (hs : Names parse s ρ)
    (rows : List (DRow K)) :
    ∃ out, handleDf parse s rows = .ok out ∧ Outcome (· = none) (fun x => some (.num x)) ρ rows out := by
  cases hs with
  | skip => exact ⟨_, rfl, skipDf_outcome rows⟩
  | zero => exact ⟨_, rfl, fillDf_outcome 0 rows⟩
  | one => exact ⟨_, rfl, fillDf_outcome 1 rows⟩
  | number s x h hs => exact ⟨_, handleDf_num parse s x h hs rows, fillDf_outcome x rows⟩

example : Names (K := ℚ) (fun s => if s = "1.25" then some (.num (5 / 4)) else none) "1.25" (.fill (5 / 4)) :=
  .number _ _ (by decide +kernel) (by decide)

example : handleDf (K := ℚ) (fun s => if s = "1.25" then some (.num (5 / 4)) else none) "1.25"
    [([none, some (.num 2)], some (.num 3)), ([some .nan, none], some (.inf true)), ([some (.num 1)], none)] =
    .ok [([some (.num (5 / 4)), some (.num 2)], some (.num 3)), ([some .nan, some (.num (5 / 4))], some (.inf true))] := by
  decide +kernel

theorem sum_pos_iff (l : List Nat) : 0 < l.sum ↔ ∃ n ∈ l, 0 < n := by
  induction l with
  | nil => simp
  | cons a l ih =>
    rw [List.sum_cons, List.exists_mem_cons_iff, ← ih]
    omega

theorem raise_pos_iff (rows : List (DRow K)) :
    0 < (rows.map fun r => r.1.countP (·.isNone) + (if r.2.isNone then 1 else 0)).sum ↔
      ∃ r ∈ rows, none ∈ r.2 :: r.1 := by
  rw [sum_pos_iff]
  constructor
  · rintro ⟨n, hn, hp⟩
    obtain ⟨r, hr, rfl⟩ := List.mem_map.1 hn
    refine ⟨r, hr, ?_⟩
    by_contra hne
    rw [List.mem_cons, not_or] at hne
    have h2 : r.2.isNone = false := by
      cases h : r.2 with
      | none => exact absurd h.symm hne.1
      | some v => rfl
    rw [h2, List.countP_eq_zero.2] at hp
    · simp at hp
    · intro c hc hcn
      rw [Option.isNone_iff_eq_none] at hcn
      exact hne.2 (hcn ▸ hc)
  · rintro ⟨r, hr, hn⟩
    refine ⟨_, List.mem_map.2 ⟨r, hr, rfl⟩, ?_⟩
    rcases List.mem_cons.1 hn with e | hn
    · rw [← e]; simp
    · have : 0 < r.1.countP (·.isNone) := List.countP_pos_iff.2 ⟨none, hn, rfl⟩
      omega

/-- **C132 (raise).** "raise" gives an error exactly if a feature or the target has a null, and otherwise leaves the
rows as they are; "ignore" always leaves them. -/
theorem fit_df_raise (parse : String → Option (V K)) (rows : List (DRow K)) :
    ((∃ r ∈ rows, none ∈ r.2 :: r.1) → handleDf parse "raise" rows = .error .nulls) ∧
      ((∀ r ∈ rows, none ∉ r.2 :: r.1) → handleDf parse "raise" rows = .ok rows) ∧
      handleDf parse "ignore" rows = .ok rows := by
  refine ⟨fun h => ?_, fun h => ?_, rfl⟩
  · simp only [handleDf, if_neg (show "raise" ≠ "ignore" by decide), if_true, if_pos ((raise_pos_iff rows).2 h)]
  · have hn : ¬∃ r ∈ rows, none ∈ r.2 :: r.1 := by rintro ⟨r, hr, hc⟩; exact h r hr hc
    simp only [handleDf, if_neg (show "raise" ≠ "ignore" by decide), if_true,
      if_neg (fun hp => hn ((raise_pos_iff rows).1 hp))]

example : handleDf (K := ℚ) (fun _ => none) "raise" [([some .nan], some (.num 1)), ([some (.num 2)], none)] =
    .error .nulls := by decide +kernel

/-- **C132 (other strings).** A string that is no policy and no finite number is refused. -/
theorem bad_policy (big : K) (parse : String → Option (V K)) (s : String)
    (hs : s ∉ ["ignore", "raise", "skip", "zero", "one"]) (hp : ∀ x, parse s ≠ some (.num x)) (rows : List (DRow K))
    (nrows : List (NRow K)) :
    handleDf parse s rows = .error .policy ∧ handleNp big parse s nrows = .error .policy := by
  simp only [List.mem_cons, List.not_mem_nil, or_false, not_or] at hs
  obtain ⟨h1, h2, h3, h4, h5⟩ := hs
  simp only [handleDf, handleNp, if_neg h1, if_neg h2, if_neg h3, if_neg h4, if_neg h5]
  cases h : parse s with
  | none => simp
  | some v =>
    cases v with
    | num x => exact absurd h (hp x)
    | nan => simp
    | inf b => simp

example : handleDf (K := ℚ) (fun _ => some .nan) "nan" [([none], some (.num 1))] = .error .policy := by decide +kernel

/-! ## Matrices -/

theorem isNan_iff (v : V K) : isNan v = true ↔ v = .nan := by cases v <;> simp [isNan]

theorem nanToNum_eq (big x : K) (v : V K) (h : ∀ b, v ≠ .inf b) : nanToNum big x v = if isNan v then .num x else v := by
  cases v with
  | num y => rfl
  | nan => rfl
  | inf b => exact absurd rfl (h b)

theorem fillNp_outcome (big x : K) (rows : List (NRow K))
    (hinf : ∀ r ∈ rows, r.2 ≠ .nan → ∀ c ∈ r.1, ∀ b, c ≠ .inf b) :
    Outcome (· = V.nan) V.num (.fill x) rows (fillNp big x rows) := by
  unfold fillNp
  rw [map_filter_eq_filterMap]
  refine outcome_of _ rows fun r hr => ?_
  by_cases hy : r.2 = .nan
  · have : isNan r.2 = true := (isNan_iff _).2 hy
    simp only [this, Bool.not_true, Bool.false_eq_true, if_false]
    exact .noTarget x r hy
  · have : isNan r.2 = false := by
      cases h : isNan r.2 with
      | true => exact absurd ((isNan_iff _).1 h) hy
      | false => rfl
    simp only [this, Bool.not_false, if_true]
    refine .fill x r _ hy ?_
    rw [forall₂_map_iff]
    intro c hc
    rw [nanToNum_eq big x c (hinf r hr hy c hc)]
    by_cases hcn : c = .nan
    · subst hcn; exact .inl ⟨rfl, rfl⟩
    · refine .inr ⟨hcn, ?_⟩
      rw [if_neg]
      exact fun h => hcn ((isNan_iff c).1 h)

theorem skipNp_outcome (rows : List (NRow K)) :
    Outcome (· = V.nan) V.num .skip rows (rows.filter fun r => !(r.1.any isNan || isNan r.2)) := by
  rw [filter_eq_filterMap]
  refine outcome_of _ rows fun r _ => ?_
  by_cases h : (r.1.any isNan || isNan r.2) = true
  · rw [h]
    rw [Bool.or_eq_true, List.any_eq_true] at h
    rcases h with ⟨c, hc, hn⟩ | h
    · exact .drop r c (List.mem_cons_of_mem _ hc) ((isNan_iff c).1 hn)
    · exact .drop r r.2 (List.mem_cons_self) ((isNan_iff _).1 h)
  · have hf : (r.1.any isNan || isNan r.2) = false := Bool.eq_false_iff.2 h
    rw [hf]
    refine .keep r fun c hc hn => h ?_
    subst hn
    rw [Bool.or_eq_true, List.any_eq_true]
    rcases List.mem_cons.1 hc with e | hc
    · right; rw [← e]; rfl
    · left; exact ⟨.nan, hc, rfl⟩

theorem handleNp_num (big : K) (parse : String → Option (V K)) (s : String) (x : K) (h : parse s = some (.num x))
    (hs : s ∉ ["ignore", "raise", "skip", "zero", "one"]) (rows : List (NRow K)) :
    handleNp big parse s rows = .ok (fillNp big x rows) := by
  simp only [List.mem_cons, List.not_mem_nil, or_false, not_or] at hs
  obtain ⟨h1, h2, h3, h4, h5⟩ := hs
  simp only [handleNp, if_neg h1, if_neg h2, if_neg h3, if_neg h4, if_neg h5, h]

/-- **C132 (matrices), partial.** In `fit` the same policies treat NaN as documented.  Missing: "zero", "one" and
numbers on matrices with infinite features (`fit_inf_changed`). -/
theorem fit_rows_partial (big : K) (parse : String → Option (V K)) (s : String) (ρ : Rule K) (hs : Names parse s ρ)
    (rows : List (NRow K))
    (hinf : ρ = .skip ∨ ∀ r ∈ rows, r.2 ≠ .nan → ∀ c ∈ r.1, ∀ b, c ≠ .inf b) :
    ∃ out, handleNp big parse s rows = .ok out ∧ Outcome (· = .nan) .num ρ rows out := by
  cases hs with
  | skip => exact ⟨_, rfl, skipNp_outcome rows⟩
  | zero => exact ⟨_, rfl, fillNp_outcome big 0 rows (hinf.resolve_left (by simp))⟩
  | one => exact ⟨_, rfl, fillNp_outcome big 1 rows (hinf.resolve_left (by simp))⟩
  | number s x h hs =>
    exact ⟨_, handleNp_num big parse s x h hs rows, fillNp_outcome big x rows (hinf.resolve_left (by simp))⟩

example : handleNp (K := ℚ) 1000 (fun _ => none) "zero" [([.nan, .num 2], .inf true), ([.inf false], .nan)] =
    .ok [([.num 0, .num 2], .inf true)] := by decide +kernel

/-- **C132 (raise on matrices).** "raise" gives an error exactly if some entry is NaN. -/
theorem fit_raise (big : K) (parse : String → Option (V K)) (rows : List (NRow K)) :
    ((∃ r ∈ rows, V.nan ∈ r.2 :: r.1) → handleNp big parse "raise" rows = .error .nulls) ∧
      ((∀ r ∈ rows, V.nan ∉ r.2 :: r.1) → handleNp big parse "raise" rows = .ok rows) ∧
      handleNp big parse "ignore" rows = .ok rows := by
  have hiff : ((rows.any fun r => r.1.any isNan) || (rows.any fun r => isNan r.2)) = true ↔
      ∃ r ∈ rows, V.nan ∈ r.2 :: r.1 := by
    rw [Bool.or_eq_true, List.any_eq_true, List.any_eq_true]
    constructor
    · rintro (⟨r, hr, h⟩ | ⟨r, hr, h⟩)
      · obtain ⟨c, hc, hn⟩ := List.any_eq_true.1 h
        rw [isNan_iff] at hn
        exact ⟨r, hr, List.mem_cons_of_mem _ (hn ▸ hc)⟩
      · rw [isNan_iff] at h
        exact ⟨r, hr, by rw [h]; simp⟩
    · rintro ⟨r, hr, h⟩
      rcases List.mem_cons.1 h with e | h
      · exact .inr ⟨r, hr, by rw [← e]; rfl⟩
      · exact .inl ⟨r, hr, List.any_eq_true.2 ⟨_, h, rfl⟩⟩
  refine ⟨fun h => ?_, fun h => ?_, rfl⟩
  · simp only [handleNp, if_neg (show "raise" ≠ "ignore" by decide), if_true, if_pos (hiff.2 h)]
  · have hn : ¬∃ r ∈ rows, V.nan ∈ r.2 :: r.1 := by rintro ⟨r, hr, hc⟩; exact h r hr hc
    simp only [handleNp, if_neg (show "raise" ≠ "ignore" by decide), if_true, if_neg (fun hp => hn (hiff.1 hp))]

example : handleNp (K := ℚ) 1000 (fun _ => none) "raise" [([.inf true, .num 1], .nan)] = .error .nulls := by
  decide +kernel

/-- The rows of a fill on a matrix. -/
theorem names_fill (big : K) (parse : String → Option (V K)) (s : String) (x : K) (hs : Names parse s (.fill x))
    (rows : List (NRow K)) : handleNp big parse s rows = .ok (fillNp big x rows) := by
  cases hs with
  | zero => rfl
  | one => rfl
  | number s x h hs => exact handleNp_num big parse s x h hs rows

/-- **C132 (infinite features are replaced).** With a filling policy `fit` treats the rows as documented only if no row
that has a target has an infinite feature: `np.nan_to_num` also replaces infinities, by the largest and smallest finite
floats. -/
theorem fit_inf_changed (big : K) (parse : String → Option (V K)) (s : String) (x : K) (hs : Names parse s (.fill x))
    (rows : List (NRow K)) :
    (∃ out, handleNp big parse s rows = .ok out ∧ Outcome (· = .nan) .num (.fill x) rows out) ↔
      ∀ r ∈ rows, r.2 ≠ .nan → ∀ c ∈ r.1, ∀ b, c ≠ .inf b := by
  rw [names_fill big parse s x hs rows]
  constructor
  · rintro ⟨out, he, os, hos, rfl⟩ r hr hy c hc b rfl
    injection he with he
    -- no infinity survives in `fillNp`, but the documented row keeps it
    have hmem : ∃ r' ∈ os.reduceOption, V.inf b ∈ r'.1 := by
      have : ∀ (rows : List (NRow K)) os, List.Forall₂ (Treats (· = V.nan) V.num (.fill x)) rows os → r ∈ rows →
          ∃ l, some (l, r.2) ∈ os ∧ V.inf b ∈ l := by
        intro rows os h
        induction h with
        | nil => intro h; cases h
        | cons h1 _ ih =>
          intro hr
          rcases List.mem_cons.1 hr with rfl | hr
          · cases h1 with
            | noTarget _ _ h => exact absurd h hy
            | fill _ _ l h hl =>
              refine ⟨l, List.mem_cons_self, ?_⟩
              generalize r.1 = l0 at hl hc
              clear * - hl hc
              induction hl with
              | nil => cases hc
              | cons h1 _ ih =>
                rcases List.mem_cons.1 hc with rfl | hc
                · rcases h1 with ⟨h, _⟩ | ⟨_, rfl⟩
                  · cases h
                  · exact List.mem_cons_self
                · exact List.mem_cons_of_mem _ (ih hc)
          · obtain ⟨l, h1, h2⟩ := ih hr
            exact ⟨l, List.mem_cons_of_mem _ h1, h2⟩
      obtain ⟨l, h1, h2⟩ := this rows os hos hr
      exact ⟨(l, r.2), List.reduceOption_mem_iff.2 h1, h2⟩
    obtain ⟨r', hr', hb⟩ := hmem
    rw [← he] at hr'
    obtain ⟨r0, _, rfl⟩ := List.mem_map.1 (List.mem_of_mem_filter hr')
    obtain ⟨v, _, hv⟩ := List.mem_map.1 hb
    cases v with
    | num y => simp [nanToNum] at hv
    | nan => simp [nanToNum] at hv
    | inf b' => cases b' <;> simp [nanToNum] at hv
  · intro h
    exact ⟨_, rfl, fillNp_outcome big x rows h⟩

/-- **C132 (infinite features).** What the filling policies of `fit` do in the presence of infinities: the rows without a
target go, and in the others NaN becomes the number, the infinities the largest and the smallest float. -/
theorem fit_fill_inf (big : K) (parse : String → Option (V K)) (s : String) (x : K) (hs : Names parse s (.fill x))
    (rows : List (NRow K)) : ∃ out, handleNp big parse s rows = .ok out ∧
      List.Forall₂ (fun r o : NRow K => o.2 = r.2 ∧ List.Forall₂ (fun c d => (c = .nan → d = .num x) ∧
        (c = .inf false → d = .num big) ∧ (c = .inf true → d = .num (-big)) ∧ ∀ y, c = .num y → d = .num y) r.1 o.1)
        (rows.filter fun r => decide (r.2 ≠ .nan)) out := by
  refine ⟨_, names_fill big parse s x hs rows, ?_⟩
  have hf : (rows.filter fun r => decide (r.2 ≠ .nan)) = rows.filter fun r => !isNan r.2 := by
    refine List.filter_congr fun r _ => ?_
    cases r.2 <;> simp [isNan]
  rw [hf]
  unfold fillNp
  rw [List.filter_map, List.forall₂_map_right_iff]
  refine List.forall₂_same.2 fun r _ => ⟨rfl, ?_⟩
  rw [List.forall₂_map_right_iff]
  refine List.forall₂_same.2 fun c _ => ?_
  exact ⟨by rintro rfl; rfl, by rintro rfl; rfl, by rintro rfl; rfl, by rintro y rfl; rfl⟩

example : handleNp (K := ℚ) 1000 (fun _ => none) "zero" [([.inf true, .nan], .num 3)] =
    .ok [([.num (-1000), .num 0], .num 3)] := by decide +kernel

/-! ## Frames against matrices and against the expressions -/

/-- A cell that is null or a number. -/
def Plain (c : Option (V K)) : Prop := c = none ∨ ∃ x, c = some (.num x)

theorem isNan_getD (c : Option (V K)) (h : Plain c) : isNan (c.getD .nan) = c.isNone := by
  rcases h with rfl | ⟨x, rfl⟩ <;> rfl

theorem any_isNan (l : List (Option (V K))) (h : ∀ c ∈ l, Plain c) :
    (l.map fun c => c.getD .nan).any isNan = l.any (·.isNone) := by
  induction l with
  | nil => rfl
  | cons a l ih =>
    rw [List.map_cons, List.any_cons, List.any_cons, ih fun c hc => h c (by simp [hc]), isNan_getD a (h a (by simp))]

theorem fill_toNumpy (big x : K) (rows : List (DRow K)) (h : ∀ r ∈ rows, ∀ c ∈ r.2 :: r.1, Plain c) :
    (fillDf x rows).map toNumpy = fillNp big x (rows.map toNumpy) := by
  induction rows with
  | nil => rfl
  | cons r rows ih =>
    have ih' := ih fun r hr => h r (by simp [hr])
    have hy : isNan (r.2.getD .nan) = r.2.isNone := isNan_getD _ (h r (by simp) _ (by simp))
    unfold fillDf fillNp at ih' ⊢
    simp only [List.map_cons, List.filter_cons, toNumpy, hy]
    cases hr2 : r.2 with
    | none => simpa using ih'
    | some y =>
      simp only [Option.isSome_some, if_true, Option.isNone_some, Bool.not_false, List.map_cons, ih', toNumpy]
      congr 1
      rw [Option.getD_some, List.map_map, List.map_map, Prod.mk.injEq]
      refine ⟨List.map_congr_left fun c hc => ?_, rfl⟩
      rcases h r (by simp) c (by simp [hc]) with rfl | ⟨v, rfl⟩ <;> rfl

/-- **C132 (frames and matrices agree).** On a frame without NaN and infinities every policy does the same before and
after the conversion to a matrix. -/
theorem df_np_agree (big : K) (parse : String → Option (V K)) (s : String) (rows : List (DRow K))
    (h : ∀ r ∈ rows, ∀ c ∈ r.2 :: r.1, Plain c) :
    (handleDf parse s rows).map (fun out => out.map toNumpy) = handleNp big parse s (rows.map toNumpy) := by
  unfold handleDf handleNp
  by_cases h1 : s = "ignore"
  · rw [if_pos h1, if_pos h1]; rfl
  rw [if_neg h1, if_neg h1]
  by_cases h2 : s = "raise"
  · rw [if_pos h2, if_pos h2]
    have hiff : ((((rows.map toNumpy).any fun r => r.1.any isNan) || ((rows.map toNumpy).any fun r => isNan r.2)) = true) ↔
        0 < (rows.map fun r => r.1.countP (·.isNone) + (if r.2.isNone then 1 else 0)).sum := by
      rw [raise_pos_iff, Bool.or_eq_true, List.any_eq_true, List.any_eq_true]
      constructor
      · rintro (⟨q, hq, hn⟩ | ⟨q, hq, hn⟩)
        · obtain ⟨r, hr, rfl⟩ := List.mem_map.1 hq
          rw [toNumpy, any_isNan _ fun c hc => h r hr c (by simp [hc]), List.any_eq_true] at hn
          obtain ⟨c, hc, hcn⟩ := hn
          rw [Option.isNone_iff_eq_none] at hcn
          exact ⟨r, hr, by rw [hcn] at hc; simp [hc]⟩
        · obtain ⟨r, hr, rfl⟩ := List.mem_map.1 hq
          rw [toNumpy, isNan_getD _ (h r hr _ (by simp)), Option.isNone_iff_eq_none] at hn
          exact ⟨r, hr, by rw [hn]; simp⟩
      · rintro ⟨r, hr, hn⟩
        rcases List.mem_cons.1 hn with e | hn
        · refine .inr ⟨_, List.mem_map.2 ⟨r, hr, rfl⟩, ?_⟩
          rw [toNumpy, isNan_getD _ (h r hr _ (by simp)), ← e]; rfl
        · refine .inl ⟨_, List.mem_map.2 ⟨r, hr, rfl⟩, ?_⟩
          rw [toNumpy, any_isNan _ fun c hc => h r hr c (by simp [hc]), List.any_eq_true]
          exact ⟨none, hn, rfl⟩
    by_cases hp : 0 < (rows.map fun r => r.1.countP (·.isNone) + (if r.2.isNone then 1 else 0)).sum
    · rw [if_pos hp, if_pos (hiff.2 hp)]; rfl
    · rw [if_neg hp, if_neg (fun hc => hp (hiff.1 hc))]; rfl
  rw [if_neg h2, if_neg h2]
  by_cases h3 : s = "skip"
  · rw [if_pos h3, if_pos h3, List.filter_map]
    change Except.ok _ = Except.ok _
    congr 2
    refine List.filter_congr fun r hr => ?_
    rw [Function.comp_apply, toNumpy, any_isNan _ fun c hc => h r hr c (by simp [hc]),
      isNan_getD _ (h r hr _ (by simp))]
  rw [if_neg h3, if_neg h3]
  by_cases h4 : s = "zero"
  · rw [if_pos h4, if_pos h4]
    exact congrArg Except.ok (fill_toNumpy big 0 rows h)
  rw [if_neg h4, if_neg h4]
  by_cases h5 : s = "one"
  · rw [if_pos h5, if_pos h5]
    exact congrArg Except.ok (fill_toNumpy big 1 rows h)
  rw [if_neg h5, if_neg h5]
  cases parse s with
  | none => rfl
  | some v =>
    cases v with
    | num x => exact congrArg Except.ok (fill_toNumpy big x rows h)
    | nan => rfl
    | inf b => rfl

example : (∀ r ∈ [(([none, some (.num 2)], some (.num 3)) : DRow ℚ), ([some (.num 1), some (.num 1)], none)],
    ∀ c ∈ r.2 :: r.1, Plain c) := by
  intro r hr c hc
  simp only [List.mem_cons, List.not_mem_nil, or_false] at hr
  rcases hr with rfl | rfl <;> simp only [List.mem_cons, List.not_mem_nil, or_false] at hc <;>
    rcases hc with rfl | rfl | rfl <;> simp [Plain]

/-- The row of the least squares expressions as a row of `fit_df`. -/
def ofX {d : Nat} (r : Verif.Online.XRow d K) : DRow K := (List.ofFn fun i => (r.1 i).map .num, r.2.map .num)

theorem any_ofFn {A : Type} {d : Nat} (f : Fin d → A) (p : A → Bool) :
    (List.ofFn f).any p = (List.finRange d).any fun i => p (f i) := by
  rw [List.ofFn_eq_map, List.any_map]; rfl

theorem ofX_nan {d : Nat} (r : Verif.Online.XRow d K) :
    ((ofX r).1.any (·.isNone) || (ofX r).2.isNone) = Verif.Online.hasNan r := by
  unfold ofX Verif.Online.hasNan
  rw [any_ofFn]
  simp only [Option.isNone_map]

theorem none_mem_ofX {d : Nat} (r : Verif.Online.XRow d K) :
    none ∈ (ofX r).2 :: (ofX r).1 ↔ Verif.Online.hasNan r = true := by
  rw [← ofX_nan, Bool.or_eq_true, List.any_eq_true, List.mem_cons, or_comm]
  refine or_congr ⟨fun h => ⟨none, h, rfl⟩, fun ⟨c, hc, hn⟩ => ?_⟩ ?_
  · rw [Option.isNone_iff_eq_none] at hn; rwa [hn] at hc
  · rw [Option.isNone_iff_eq_none]; exact eq_comm

theorem fillDf_ofX {d : Nat} (x : K) (rows : List (Verif.Online.XRow d K)) :
    fillDf x (rows.map ofX) =
      ((rows.map (NullPolicy.fillRow x)).filter (fun r => r.2.isSome)).map ofX := by
  unfold fillDf
  rw [List.map_map, List.filter_map, List.filter_map, List.map_map]
  have : ((fun r : DRow K => r.2.isSome) ∘ ((fun r : DRow K => (r.1.map fun c => some (c.getD (.num x)), r.2)) ∘ ofX)) =
      ((fun r : Verif.Online.XRow d K => r.2.isSome) ∘ NullPolicy.fillRow x) := by
    funext r
    simp [ofX, NullPolicy.fillRow]
  rw [this]
  refine List.map_congr_left fun r _ => ?_
  simp only [Function.comp_apply, ofX, NullPolicy.fillRow, List.map_ofFn, Prod.mk.injEq, and_true]
  refine congrArg List.ofFn (funext fun i => ?_)
  simp only [Function.comp_apply, Option.map_some]
  cases r.1 i <;> rfl

theorem fill_all {d : Nat} (x : K) (rows : List (Verif.Online.XRow d K)) (h : (rows.any fun r => r.2.isNone) = false) :
    (rows.map (NullPolicy.fillRow x)).filter (fun r => r.2.isSome) = rows.map (NullPolicy.fillRow x) := by
  rw [List.filter_eq_self]
  intro r hr
  obtain ⟨r0, hr0, rfl⟩ := List.mem_map.1 hr
  have := List.any_eq_false.1 h r0 hr0
  cases h2 : r0.2 with
  | none => rw [h2] at this; exact absurd rfl this
  | some y => simp [NullPolicy.fillRow, h2]

/-- The rows that `series_to_mat_for_lstsq` returns. -/
def matRows {d : Nat} (p : NullPolicy.Policy K) (rows : List (Verif.Online.XRow d K)) :
    Option (List (Verif.Online.XRow d K)) :=
  match p with
  | .ignore => some rows
  | .skipWindow => some rows
  | .raise => none
  | .skip => some (rows.filter fun r => !Verif.Online.hasNan r)
  | .fill x => some ((rows.map (NullPolicy.fillRow x)).filter fun r => r.2.isSome)
  | .fillWindow x => some (rows.map (NullPolicy.fillRow x))

theorem seriesToMat_rows {d : Nat} (p : NullPolicy.Policy K) (rows mat : List (Verif.Online.XRow d K))
    (mask : List Bool) (h : NullPolicy.seriesToMat false p rows = .ok (mat, mask)) :
    some mat = if (rows.any Verif.Online.hasNan) = true then matRows p rows else some rows := by
  have key : ∀ (l : List (Verif.Online.XRow d K)) (ms : List Bool),
      (if l.length < d then (.error .notEnough : Except NullPolicy.Err _)
        else .ok (l.map (NullPolicy.addBias false), ms)) = .ok (mat, mask) → some mat = some l := by
    intro l ms h
    by_cases hd : l.length < d
    · rw [if_pos hd] at h; cases h
    · rw [if_neg hd] at h
      injection h with h
      have := congrArg Prod.fst h
      exact congrArg some (this.symm.trans (List.map_id l))
  unfold NullPolicy.seriesToMat at h
  by_cases he : rows.isEmpty = true
  · simp only [he, if_true] at h; cases h
  · simp only [he, Bool.false_eq_true, if_false] at h
    by_cases hn : (rows.any Verif.Online.hasNan) = true
    · rw [if_pos hn]
      simp only [hn, if_true] at h
      cases p with
      | ignore => exact key _ _ h
      | skipWindow => exact key _ _ h
      | raise => cases h
      | skip => exact key _ _ h
      | fill x =>
        by_cases hy : (rows.any fun r => r.2.isNone) = true
        · simp only [hy, if_true] at h; exact key _ _ h
        · have hy' : (rows.any fun r => r.2.isNone) = false := Bool.eq_false_iff.2 hy
          simp only [hy', Bool.false_eq_true, if_false] at h
          exact (key _ _ h).trans (congrArg some (fill_all x rows hy').symm)
      | fillWindow x =>
        by_cases hy : (rows.any fun r => r.2.isNone) = true
        · simp only [hy, if_true] at h; exact key _ _ h
        · have hy' : (rows.any fun r => r.2.isNone) = false := Bool.eq_false_iff.2 hy
          simp only [hy', Bool.false_eq_true, if_false] at h; exact key _ _ h
    · rw [if_neg hn]
      simp only [Bool.eq_false_iff.2 hn, Bool.false_eq_true, if_false] at h
      exact key _ _ h

/-- **C132 (classes and expressions).** Whenever `lin_reg` and its relatives accept a frame under a null policy,
`fit_df` under the same policy (written in lower case) works on exactly the same rows. -/
theorem fit_df_same_rows {d : Nat} (parse : String → Option (V K)) (rparse : String → Option K) (s : String)
    (p : NullPolicy.Policy K) (hlow : s.toLower = s) (hsw : s ≠ "skip_window")
    (hparse : parse s = (rparse s).map .num) (hp : NullPolicy.tryFrom rparse s = some p)
    (rows : List (Verif.Online.XRow d K)) (mat : List (Verif.Online.XRow d K)) (mask : List Bool)
    (h : NullPolicy.seriesToMat false p rows = .ok (mat, mask)) :
    handleDf parse s (rows.map ofX) = .ok (mat.map ofX) := by
  have hdf := seriesToMat_rows p rows mat mask h
  clear h
  -- the strings
  unfold NullPolicy.tryFrom at hp
  simp only [hlow] at hp
  have hfill : ∀ x, p = .fill x → fillDf x (rows.map ofX) = mat.map ofX := by
    rintro x rfl
    rw [fillDf_ofX]
    by_cases hn : (rows.any Verif.Online.hasNan) = true
    · rw [if_pos hn] at hdf
      rw [Option.some.inj hdf]
    · rw [if_neg hn] at hdf
      have hall : ∀ r ∈ rows, Verif.Online.hasNan r = false := by
        intro r hr
        by_contra hc
        exact hn (List.any_eq_true.2 ⟨r, hr, by simpa using hc⟩)
      rw [Option.some.inj hdf, fill_all]
      · rw [List.map_congr_left fun r hr => NullPolicy.fillRow_id x r (hall r hr), List.map_id']
      · rw [List.any_eq_false]
        intro r hr hc
        have := hall r hr
        unfold Verif.Online.hasNan at this
        rw [hc, Bool.or_true] at this
        cases this
  have hnone : (∃ r ∈ rows.map ofX, none ∈ r.2 :: r.1) ↔ (rows.any Verif.Online.hasNan) = true := by
    rw [List.any_eq_true]
    constructor
    · rintro ⟨r, hr, hc⟩
      obtain ⟨r0, hr0, rfl⟩ := List.mem_map.1 hr
      exact ⟨r0, hr0, (none_mem_ofX r0).1 hc⟩
    · rintro ⟨r, hr, hc⟩
      exact ⟨_, List.mem_map.2 ⟨r, hr, rfl⟩, (none_mem_ofX r).2 hc⟩
  by_cases h1 : s = "raise"
  · subst h1
    rw [if_pos rfl] at hp
    injection hp with hp
    subst hp
    by_cases hn : (rows.any Verif.Online.hasNan) = true
    · rw [if_pos hn] at hdf; cases hdf
    · rw [if_neg hn] at hdf
      rw [Option.some.inj hdf]
      exact (fit_df_raise parse _).2.1 fun r hr hc => hn (hnone.1 ⟨r, hr, hc⟩)
  rw [if_neg h1] at hp
  by_cases h2 : s = "skip"
  · subst h2
    rw [if_pos rfl] at hp
    injection hp with hp
    subst hp
    change Except.ok _ = Except.ok _
    congr 1
    rw [List.filter_map]
    have hf : mat = rows.filter (fun r => !Verif.Online.hasNan r) := by
      by_cases hn : (rows.any Verif.Online.hasNan) = true
      · rw [if_pos hn] at hdf; exact Option.some.inj hdf
      · rw [if_neg hn] at hdf
        rw [Option.some.inj hdf, eq_comm, List.filter_eq_self]
        intro r hr
        by_contra hc
        exact hn (List.any_eq_true.2 ⟨r, hr, by simpa using hc⟩)
    rw [hf]
    congr 1
    refine List.filter_congr fun r _ => ?_
    rw [Function.comp_apply, ofX_nan]
  rw [if_neg h2] at hp
  by_cases h3 : s = "zero"
  · subst h3
    rw [if_pos rfl] at hp
    injection hp with hp
    exact congrArg Except.ok (hfill 0 hp.symm)
  rw [if_neg h3] at hp
  by_cases h4 : s = "one"
  · subst h4
    rw [if_pos rfl] at hp
    injection hp with hp
    exact congrArg Except.ok (hfill 1 hp.symm)
  rw [if_neg h4] at hp
  by_cases h5 : s = "ignore"
  · subst h5
    rw [if_pos rfl] at hp
    injection hp with hp
    subst hp
    have : mat = rows := by
      by_cases hn : (rows.any Verif.Online.hasNan) = true
      · rw [if_pos hn] at hdf; exact Option.some.inj hdf
      · rw [if_neg hn] at hdf; exact Option.some.inj hdf
    rw [this]
    rfl
  rw [if_neg h5, if_neg hsw] at hp
  cases hr : rparse s with
  | none => rw [hr] at hp; cases hp
  | some x =>
    rw [hr] at hp
    injection hp with hp
    rw [handleDf_num parse s x (by rw [hparse, hr]; rfl) (by simp [h1, h2, h3, h4, h5])]
    exact congrArg Except.ok (hfill x hp.symm)

example : NullPolicy.tryFrom (K := ℚ) (fun _ => none) "zero" = some (.fill 0) ∧ "zero".toLower = "zero" ∧
    (NullPolicy.seriesToMat (d := 1) false (.fill (0 : ℚ)) [(fun _ => none, some 3), (fun _ => some 2, none)]).toOption.map
      (fun o => o.1.map ofX) = some [(([some (.num 0)], some (.num 3)) : DRow ℚ)] := by
  refine ⟨?_, by decide +kernel, by decide +kernel⟩
  have : "zero".toLower = "zero" := by decide +kernel
  simp [NullPolicy.tryFrom, this]

end Verif.LrFrame
