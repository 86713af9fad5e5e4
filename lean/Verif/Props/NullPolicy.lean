import Verif.Model.NullPolicy
import Mathlib.Algebra.Field.Rat
import Mathlib.Data.List.ReduceOption
import Mathlib.Algebra.BigOperators.Fin

/-!
# Null policies: theorems
-/
set_option linter.unusedSectionVars false

namespace Verif.NullPolicy.Spec
variable {K : Type} {d : Nat}

/-- Nothing is missing in the row. -/
def Complete (r : (Fin d → Option K) × Option K) : Prop := (∀ i, r.1 i ≠ none) ∧ r.2 ≠ none

/-- How the documentation treats one row: `skip` keeps complete rows, `fill x` keeps rows with a target and fills
the features, `raise` keeps every row. -/
inductive Treats : Policy K → (Fin d → Option K) × Option K → Option ((Fin d → Option K) × Option K) → Prop
  | raise (r) : Treats .raise r (some r)
  | keep (r) (h : Complete r) : Treats .skip r (some r)
  | drop (r) (h : ¬Complete r) : Treats .skip r none
  | fill (x : K) (f : Fin d → Option K) (y : K) :
      Treats (.fill x) (f, some y) (some (fun i => some ((f i).getD x), some y))
  | noTarget (x : K) (f : Fin d → Option K) : Treats (.fill x) (f, none) none

end Verif.NullPolicy.Spec

namespace Verif.NullPolicy
open Verif.Online Verif.NullPolicy.Spec
variable {K : Type} [Field K] {d : Nat}

theorem hasNan_iff (r : XRow d K) : hasNan r = false ↔ Complete r := by
  unfold hasNan Complete
  rw [Bool.or_eq_false_iff, List.any_eq_false]
  constructor
  · rintro ⟨h1, h2⟩
    refine ⟨fun i hi => ?_, fun hi => ?_⟩
    · exact h1 i (List.mem_finRange i) (by rw [hi]; rfl)
    · rw [hi] at h2; cases h2
  · rintro ⟨h1, h2⟩
    refine ⟨fun i _ hi => h1 i (Option.isNone_iff_eq_none.1 hi), ?_⟩
    cases h : r.2 with
    | none => exact absurd h h2
    | some y => rfl

/-- The treatment as a function. -/
def keep (p : Policy K) (r : XRow d K) : Option (XRow d K) :=
  match p with
  | .skip => if hasNan r then none else some r
  | .fill x => if r.2.isSome then some (fillRow x r) else none
  | _ => some r

theorem treats_iff (p : Policy K) (hp : p = .raise ∨ p = .skip ∨ ∃ x, p = .fill x) (r : XRow d K)
    (o : Option (XRow d K)) : Treats p r o ↔ keep p r = o := by
  rcases hp with rfl | rfl | ⟨x, rfl⟩
  · constructor
    · rintro ⟨⟩; rfl
    · rintro rfl; exact .raise r
  · have hc := hasNan_iff r
    simp only [keep]
    constructor
    · intro h
      cases h with
      | keep _ h => rw [hc.2 h]; rfl
      | drop _ h =>
        cases hn : hasNan r with
        | true => rfl
        | false => exact absurd (hc.1 hn) h
    · rintro rfl
      cases hn : hasNan r with
      | true => exact .drop r (fun h => by rw [hc.2 h] at hn; cases hn)
      | false => exact .keep r (hc.1 hn)
  · simp only [keep]
    constructor
    · intro h
      cases h with
      | fill => rfl
      | noTarget => rfl
    · rintro rfl
      obtain ⟨f, y⟩ := r
      cases y with
      | none => exact .noTarget x f
      | some y => exact .fill x f y

/-- What is emitted for one row. -/
def outRow {n : Nat} (c : Fin n → Option K) (o : Option (XRow n K)) : Option K × Option K :=
  match o with
  | none => (none, none)
  | some r => predResid c r

theorem emit_keep {n : Nat} (f : XRow d K → XRow n K) (c : Fin n → Option K) (kp : XRow d K → Option (XRow d K))
    (rows : List (XRow d K)) :
    emitMask (rows.map fun r => (kp r).isSome) (((rows.filterMap kp).map f).map (predResid c)) =
      .ok (rows.map fun r => outRow c ((kp r).map f)) := by
  induction rows with
  | nil => rfl
  | cons r rows ih =>
    rw [List.map_cons, List.map_cons, List.filterMap_cons]
    cases h : kp r with
    | none =>
      simp only [Option.isSome_none, emitMask, ih]
      rfl
    | some v =>
      simp only [Option.isSome_some, List.map_cons, emitMask, ih]
      rfl

theorem emit_all {n : Nat} (f : XRow d K → XRow n K) (c : Fin n → Option K) (kp : XRow d K → Option (XRow d K))
    (rows : List (XRow d K)) (h : ∀ r ∈ rows, (kp r).isSome) :
    ((rows.filterMap kp).map f).map (predResid c) = rows.map fun r => outRow c ((kp r).map f) := by
  induction rows with
  | nil => rfl
  | cons r rows ih =>
    have hr := h r (by simp)
    obtain ⟨v, hv⟩ := Option.isSome_iff_exists.1 hr
    rw [List.filterMap_cons_some hv, List.map_cons, List.map_cons, List.map_cons,
      ih (fun x hx => h x (by simp [hx])), hv]
    rfl

theorem fillRow_id (x : K) (r : XRow d K) (h : hasNan r = false) : fillRow x r = r := by
  have hc := ((hasNan_iff r).1 h).1
  unfold fillRow
  refine Prod.ext (funext fun i => ?_) rfl
  cases hi : r.1 i with
  | none => exact absurd hi (hc i)
  | some v => simp [hi]

theorem y_some (r : XRow d K) (h : hasNan r = false) : r.2.isSome := by
  have := ((hasNan_iff r).1 h).2
  cases hr : r.2 with
  | none => exact absurd hr this
  | some v => rfl

open scoped Classical in
/-- `seriesToMat` gives the kept rows and either a full mask or, when nothing is dropped, the mask `[true]`. -/
theorem seriesToMat_spec (b : Bool) (p : Policy K) (hp : p = .raise ∨ p = .skip ∨ ∃ x, p = .fill x)
    (rows : List (XRow d K)) :
    seriesToMat b p rows =
      if rows = [] then .error .empty
      else if p = .raise ∧ ∃ r ∈ rows, hasNan r then .error .nulls
      else if (rows.filterMap (keep p)).length < d then .error .notEnough
      else .ok ((rows.filterMap (keep p)).map (addBias b),
        if (p ≠ .raise) ∧ ((∃ r ∈ rows, hasNan r) ∧ (p = .skip ∨ ∃ r ∈ rows, r.2.isNone))
          then rows.map fun r => (keep p r).isSome else [true]) := by
  unfold seriesToMat
  by_cases h0 : rows = []
  · simp [h0]
  rw [if_neg (by simpa using h0), if_neg h0]
  by_cases hn : ∃ r ∈ rows, hasNan r
  · have hn' : rows.any hasNan = true := by simpa using hn
    rw [hn']
    rcases hp with rfl | rfl | ⟨x, rfl⟩
    · simp [hn]
    · have hf : rows.filter (fun r => !hasNan r) = rows.filterMap (keep .skip) := by
        rw [← List.filterMap_eq_filter]
        congr 1
        funext r
        cases hr : hasNan r <;> simp [keep, hr, Option.guard]
      have hm : (rows.map fun r => !hasNan r) = rows.map fun r => (keep .skip r).isSome := by
        apply List.map_congr_left
        intro r _
        cases hr : hasNan r <;> simp [keep, hr]
      simp only [if_true, hf, hm]
      simp [hn]
    · by_cases hy : ∃ r ∈ rows, r.2.isNone
      · have hy' : (rows.any fun r => r.2.isNone) = true := by simpa using hy
        have hf : (rows.map (fillRow x)).filter (fun r => r.2.isSome) = rows.filterMap (keep (.fill x)) := by
          clear h0 hn hn' hy hy'
          induction rows with
          | nil => rfl
          | cons r rows ih =>
            rw [List.map_cons, List.filter_cons, List.filterMap_cons, ih]
            obtain ⟨f, y⟩ := r
            cases y <;> simp [keep, fillRow]
        have hm : (rows.map fun r => r.2.isSome) = rows.map fun r => (keep (.fill x) r).isSome := by
          apply List.map_congr_left
          intro r _
          cases hr : r.2.isSome <;> simp [keep, hr]
        simp only [if_true, hy', hf, hm]
        have hq : (Policy.fill x ≠ .raise) ∧ ((∃ r ∈ rows, hasNan r) ∧ (Policy.fill x = .skip ∨ ∃ r ∈ rows, r.2.isNone)) :=
          ⟨by simp, hn, Or.inr hy⟩
        have hr : ¬(Policy.fill x = .raise ∧ ∃ r ∈ rows, hasNan r) := by simp
        rw [if_neg hr, if_pos hq]
      · have hy' : (rows.any fun r => r.2.isNone) = false := by
          rw [List.any_eq_false]
          intro r hr h
          exact hy ⟨r, hr, h⟩
        have hf : rows.map (fillRow x) = rows.filterMap (keep (.fill x)) := by
          rw [← List.filterMap_eq_map]
          apply List.filterMap_congr
          intro r hr
          have : r.2.isSome := by
            cases h : r.2 with
            | none => exact absurd ⟨r, hr, by rw [h]; rfl⟩ hy
            | some v => rfl
          simp [keep, this]
        simp only [if_true, hy', hf, Bool.false_eq_true, if_false]
        have hq : ¬((Policy.fill x ≠ .raise) ∧ ((∃ r ∈ rows, hasNan r) ∧ (Policy.fill x = .skip ∨ ∃ r ∈ rows, r.2.isNone))) := by
          rintro ⟨_, _, h | h⟩
          · simp at h
          · exact hy h
        have hr : ¬(Policy.fill x = .raise ∧ ∃ r ∈ rows, hasNan r) := by simp
        rw [if_neg hr, if_neg hq]
  · have hn' : rows.any hasNan = false := by
      rw [List.any_eq_false]
      intro r hr h
      exact hn ⟨r, hr, h⟩
    rw [hn']
    have hk : rows.filterMap (keep p) = rows := by
      have : rows.filterMap (keep p) = rows.filterMap some := by
        apply List.filterMap_congr
        intro r hr
        have hr' : hasNan r = false := by
          cases h : hasNan r with
          | false => rfl
          | true => exact absurd ⟨r, hr, h⟩ hn
        rcases hp with rfl | rfl | ⟨x, rfl⟩
        · rfl
        · simp [keep, hr']
        · simp [keep, y_some r hr', fillRow_id x r hr']
      rw [this, List.filterMap_some]
    simp only [hk]
    simp [hn]

open scoped Classical in
/-- For the policies `raise`, `skip` and `fill x`: the call fails exactly on no data, on a null under `raise`, or
when fewer rows are kept than there are features.  Otherwise the fit uses exactly the rows the documentation keeps,
in order, and the output has the length of the input: a kept row gets its own prediction and residual, a dropped
row gets NaN. -/
theorem lstsq_pred_aligned_partial (solve : {n : Nat} → List (XRow n K) → Fin n → Option K) (b : Bool) (p : Policy K)
    (hp : p = .raise ∨ p = .skip ∨ ∃ x, p = .fill x) (rows : List (XRow d K)) (kept : List (Option (XRow d K)))
    (hk : List.Forall₂ (Treats p) rows kept) :
    lstsqPred solve b p rows =
      if rows = [] then .error .empty
      else if p = .raise ∧ ∃ r ∈ rows, ¬Complete r then .error .nulls
      else if kept.reduceOption.length < d then .error .notEnough
      else .ok (kept.map fun o => match o with
        | none => (none, none)
        | some r => predResid (solve (kept.reduceOption.map (addBias b))) (addBias b r)) := by
  have hkept : kept = rows.map (keep p) := by
    induction hk with
    | nil => rfl
    | cons h _ ih => rw [List.map_cons, ← ih, (treats_iff p hp _ _).1 h]
  have hred : kept.reduceOption = rows.filterMap (keep p) := by
    rw [hkept, List.reduceOption, List.filterMap_map]
    rfl
  have hc : (∃ r ∈ rows, ¬Complete r) ↔ ∃ r ∈ rows, hasNan r := by
    constructor
    · rintro ⟨r, hr, h⟩
      refine ⟨r, hr, ?_⟩
      cases hn : hasNan r with
      | true => rfl
      | false => exact absurd ((hasNan_iff r).1 hn) h
    · rintro ⟨r, hr, h⟩
      refine ⟨r, hr, fun hh => ?_⟩
      rw [(hasNan_iff r).2 hh] at h
      cases h
  unfold lstsqPred
  rw [seriesToMat_spec b p hp rows, hred]
  simp only [hc]
  by_cases h0 : rows = []
  · simp [h0]
  rw [if_neg h0, if_neg h0]
  by_cases h1 : p = .raise ∧ ∃ r ∈ rows, hasNan r
  · rw [if_pos h1, if_pos h1]
  rw [if_neg h1, if_neg h1]
  by_cases h2 : (rows.filterMap (keep p)).length < d
  · rw [if_pos h2, if_pos h2]
  rw [if_neg h2, if_neg h2]
  simp only
  generalize hcf : solve ((rows.filterMap (keep p)).map (addBias b)) = c
  have hgoal : (kept.map fun o => match o with
        | none => ((none, none) : Option K × Option K)
        | some r => predResid c (addBias b r)) =
      rows.map fun r => outRow c ((keep p r).map (addBias b)) := by
    rw [hkept, List.map_map]
    apply List.map_congr_left
    intro r _
    cases h : keep p r <;> simp [h, outRow]
  rw [hgoal]
  by_cases h3 : (p ≠ .raise) ∧ ((∃ r ∈ rows, hasNan r) ∧ (p = .skip ∨ ∃ r ∈ rows, r.2.isNone))
  · rw [if_pos h3]
    have hany : ((rows.map fun r => (keep p r).isSome).any fun m => !m) = true := by
      rw [List.any_map, List.any_eq_true]
      rcases h3.2.2 with rfl | ⟨r, hr, hy⟩
      · obtain ⟨r, hr, hn⟩ := h3.2.1
        exact ⟨r, hr, by simp [keep, hn]⟩
      · refine ⟨r, hr, ?_⟩
        rcases hp with rfl | rfl | ⟨x, rfl⟩
        · exact absurd rfl h3.1
        · have : hasNan r = true := by simp [hasNan, hy]
          simp [keep, this]
        · have : r.2.isSome = false := by
            cases h : r.2 with
            | none => rfl
            | some v => rw [h] at hy; cases hy
          simp [keep, this]
    rw [hany, if_pos rfl, emit_keep]
  · rw [if_neg h3, if_neg (by simp)]
    rw [emit_all]
    intro r hr
    rcases hp with rfl | rfl | ⟨x, rfl⟩
    · rfl
    · have : hasNan r = false := by
        cases h : hasNan r with
        | false => rfl
        | true => exact absurd ⟨by simp, ⟨r, hr, h⟩, Or.inl rfl⟩ h3
      simp [keep, this]
    · have : r.2.isSome := by
        cases h : r.2 with
        | some v => rfl
        | none => exact absurd ⟨by simp, ⟨r, hr, by simp [hasNan, h]⟩, Or.inr ⟨r, hr, by simp [h]⟩⟩ h3
      simp [keep, this]

/-- Every row has exactly one treatment, so `kept` always exists. -/
theorem treats_total (p : Policy K) (hp : p = .raise ∨ p = .skip ∨ ∃ x, p = .fill x) (rows : List (XRow d K)) :
    ∃ kept, List.Forall₂ (Treats p) rows kept := by
  refine ⟨rows.map (keep p), ?_⟩
  rw [List.forall₂_map_right_iff]
  exact List.forall₂_same.2 fun r _ => (treats_iff p hp r _).2 rfl

/-- The code violates the claim for `ignore`: as soon as one entry is null the output has length one. -/
theorem lstsq_pred_ignore_length (solve : {n : Nat} → List (XRow n K) → Fin n → Option K) (b : Bool)
    (rows : List (XRow d K)) (hlen : d ≤ rows.length) (hnull : ∃ r ∈ rows, ¬Complete r) :
    lstsqPred solve b .ignore rows = .ok [(none, none)] := by
  obtain ⟨r, hr, h⟩ := hnull
  have hn : rows.any hasNan = true := by
    rw [List.any_eq_true]
    refine ⟨r, hr, ?_⟩
    cases hn : hasNan r with
    | true => rfl
    | false => exact absurd ((hasNan_iff r).1 hn) h
  have h0 : rows.isEmpty = false := by
    cases rows with
    | nil => simp at hr
    | cons _ _ => rfl
  unfold lstsqPred seriesToMat
  simp only [hn, h0, if_true, if_neg (not_lt.2 hlen), Bool.false_eq_true, if_false]
  rfl

open scoped Classical in
/-- With weights the call fails as soon as a policy drops a row, and panics on a null weight. -/
theorem weighted_dropped_error (solve : {n : Nat} → List K → List (XRow n K) → Fin n → Option K) (b : Bool)
    (p : Policy K) (hp : p = .raise ∨ p = .skip ∨ ∃ x, p = .fill x) (rows : List (XRow d K))
    (kept : List (Option (XRow d K))) (hk : List.Forall₂ (Treats p) rows kept) (hdrop : none ∈ kept)
    (hd : d ≤ kept.reduceOption.length) (weights : List (Option K)) (hw : weights.length = rows.length) :
    lstsqPredW solve b p weights rows = .error (if none ∈ weights then .panic else .weights) := by
  have hkept : kept = rows.map (keep p) := by
    clear hdrop hd hw
    induction hk with
    | nil => rfl
    | cons h _ ih => rw [List.map_cons, ← ih, (treats_iff p hp _ _).1 h]
  have hred : kept.reduceOption = rows.filterMap (keep p) := by
    rw [hkept, List.reduceOption, List.filterMap_map]
    rfl
  have hlt : (rows.filterMap (keep p)).length < rows.length := by
    rw [← hred, ← hk.length_eq.symm]
    rw [List.reduceOption_length_lt_iff]
    exact hdrop
  unfold lstsqPredW
  rw [seriesToMat_spec b p hp rows, ← hred]
  have h0 : rows ≠ [] := by rintro rfl; simp at hlt
  have h1 : ¬(p = .raise ∧ ∃ r ∈ rows, hasNan r) := by
    rintro ⟨rfl, _⟩
    rw [hkept] at hdrop
    simp [keep] at hdrop
  rw [if_neg h0, if_neg h1, if_neg (not_lt.2 hd)]
  simp only
  by_cases hwn : none ∈ weights
  · rw [if_pos, if_pos hwn]
    rw [List.any_eq_true]
    exact ⟨none, hwn, rfl⟩
  · rw [if_neg, if_neg hwn, if_pos]
    · rw [List.length_map, hred, hw]; omega
    · rw [List.any_eq_true]
      rintro ⟨o, ho, h⟩
      rw [Option.isNone_iff_eq_none] at h
      rw [h] at ho
      exact hwn ho

/-- With weights and no dropped row the weights are those of the rows, in order. -/
theorem weighted_aligned_partial (solve : {n : Nat} → List K → List (XRow n K) → Fin n → Option K) (b : Bool)
    (rows : List (XRow d K)) (weights : List K) (hw : weights.length = rows.length) (hc : ∀ r ∈ rows, Complete r)
    (hd : d ≤ rows.length) (h0 : rows ≠ []) (p : Policy K) :
    lstsqPredW solve b p (weights.map some) rows =
      .ok ((rows.map (addBias b)).map (predResid (solve weights (rows.map (addBias b))))) := by
  have hn : rows.any hasNan = false := by
    rw [List.any_eq_false]
    intro r hr h
    rw [(hasNan_iff r).2 (hc r hr)] at h
    cases h
  have h1 : rows.isEmpty = false := by
    cases rows with
    | nil => exact absurd rfl h0
    | cons _ _ => rfl
  unfold lstsqPredW seriesToMat
  simp only [hn, h1, if_neg (not_lt.2 hd), Bool.false_eq_true, if_false]
  simp [hw]

/-- Several targets: without nulls the data is used as it is; with nulls `raise` fails, `fill x` fills the features
but fails when a target is null, and every other policy fails. -/
theorem multi_target_nulls {k : Nat} (p : Policy K) (rows : List (MRow d k K)) (h0 : rows ≠ []) :
    ((∀ r ∈ rows, (∀ i, r.1 i ≠ none) ∧ ∀ i, r.2 i ≠ none) → multiToMat p rows = .ok rows) ∧
    ((∃ r ∈ rows, ∃ i, r.2 i = none) → ∃ e, multiToMat p rows = .error e) ∧
    ((∃ r ∈ rows, ∃ i, r.1 i = none) → (∀ r ∈ rows, ∀ i, r.2 i ≠ none) →
      ((∃ x, p = .fill x) ∨ ∃ e, multiToMat p rows = .error e) ∧
      ∀ x, p = .fill x → multiToMat p rows = .ok (rows.map fun r => (fun i => some ((r.1 i).getD x), r.2))) := by
  have hy : (rows.any fun r => (List.finRange k).any fun i => (r.2 i).isNone) = true ↔
      ∃ r ∈ rows, ∃ i, r.2 i = none := by
    simp [List.any_eq_true]
  have hx : (rows.any fun r => (List.finRange d).any fun i => (r.1 i).isNone) = true ↔
      ∃ r ∈ rows, ∃ i, r.1 i = none := by
    simp [List.any_eq_true]
  have he : rows.isEmpty = false := by
    cases rows with
    | nil => exact absurd rfl h0
    | cons _ _ => rfl
  refine ⟨fun h => ?_, fun h => ?_, fun h1 h2 => ?_⟩
  · have y0 : (rows.any fun r => (List.finRange k).any fun i => (r.2 i).isNone) = false := by
      rw [← Bool.not_eq_true, hy]
      rintro ⟨r, hr, i, hi⟩
      exact (h r hr).2 i hi
    have x0 : (rows.any fun r => (List.finRange d).any fun i => (r.1 i).isNone) = false := by
      rw [← Bool.not_eq_true, hx]
      rintro ⟨r, hr, i, hi⟩
      exact (h r hr).1 i hi
    unfold multiToMat
    simp [y0, x0, he]
  · have y1 := hy.2 h
    unfold multiToMat
    rw [y1]
    cases p <;> simp
  · have x1 := hx.2 h1
    have y0 : (rows.any fun r => (List.finRange k).any fun i => (r.2 i).isNone) = false := by
      rw [← Bool.not_eq_true, hy]
      rintro ⟨r, hr, i, hi⟩
      exact h2 r hr i hi
    constructor
    · unfold multiToMat
      rw [y0, x1]
      cases p <;> simp
    · rintro x rfl
      unfold multiToMat
      simp [y0, x1, he]

/-- Policies are read without regard to case; `zero` and `one` fill with these numbers, other words must be
numbers. -/
theorem policy_parse (parse : String → Option K) (s : String) :
    (s.toLower = "zero" → tryFrom parse s = some (.fill 0)) ∧
    (s.toLower = "one" → tryFrom parse s = some (.fill 1)) ∧
    (s.toLower = "skip" → tryFrom parse s = some .skip) ∧
    (s.toLower = "raise" → tryFrom parse s = some .raise) ∧
    (s.toLower = "ignore" → tryFrom parse s = some .ignore) ∧
    (s.toLower = "skip_window" → tryFrom parse s = some .skipWindow) ∧
    (s.toLower ∉ ["raise", "skip", "zero", "one", "ignore", "skip_window"] →
      tryFrom parse s = (parse s.toLower).map .fill) := by
  unfold tryFrom
  refine ⟨?_, ?_, ?_, ?_, ?_, ?_, ?_⟩
  · intro h; simp [h]
  · intro h; simp [h]
  · intro h; simp [h]
  · intro h; simp [h]
  · intro h; simp [h]
  · intro h; simp [h]
  · intro h
    simp only [List.mem_cons, List.not_mem_nil, or_false, not_or] at h
    simp [h]

/-- What a scored row contains: the prediction is the inner product of the features and the coefficients (the last
coefficient is added as it is with a bias), the residual is the target minus the prediction and missing without a
target; a missing feature or coefficient makes both missing. -/
theorem scored_row (x : Fin d → K) (y : Option K) :
    (∀ c : Fin d → K, predResid (fun i => some (c i)) (addBias false (fun i => some (x i), y)) =
      (some (∑ i, x i * c i), y.map fun y => y - ∑ i, x i * c i)) ∧
    (∀ c : Fin (d + 1) → K, predResid (fun i => some (c i)) (addBias true (fun i => some (x i), y)) =
      (some ((∑ i : Fin d, x i * c i.castSucc) + c (Fin.last d)),
        y.map fun y => y - ((∑ i : Fin d, x i * c i.castSucc) + c (Fin.last d)))) ∧
    ∀ (r : XRow d K) (c : Fin d → Option K), (∃ i, r.1 i = none ∨ c i = none) → predResid c r = (none, none) := by
  have key : ∀ {n : ℕ} (x c : Fin n → K), dotO (fun i => some (x i)) (fun i => some (c i)) = some (∑ i, x i * c i) := by
    intro n x c
    simp [dotO]
  refine ⟨?_, ?_, ?_⟩
  · intro c
    unfold predResid addBias
    simp only [key]
    cases y <;> rfl
  · intro c
    have hs : (Fin.snoc (fun i => some (x i)) (some 1) : Fin (d + 1) → Option K) =
        fun i => some ((Fin.snoc x 1 : Fin (d + 1) → K) i) := by
      funext i
      refine Fin.lastCases ?_ (fun j => ?_) i
      · simp
      · simp
    have hd : dotO (Fin.snoc (fun i => some (x i)) (some 1) : Fin (d + 1) → Option K) (fun i => some (c i)) =
        some ((∑ i : Fin d, x i * c i.castSucc) + c (Fin.last d)) := by
      rw [hs, key, Fin.sum_univ_castSucc]
      simp
    have h2 : predResid (d := d + 1) (fun i => some (c i)) (addBias true (fun i => some (x i), y)) =
        (dotO (Fin.snoc (fun i => some (x i)) (some 1)) (fun i => some (c i)), match y, dotO (Fin.snoc (fun i => some (x i)) (some 1)) (fun i => some (c i)) with
          | some y, some p => some (y - p)
          | _, _ => none) := rfl
    rw [h2, hd]
    cases y <;> rfl
  · rintro r c ⟨i, hi⟩
    have hn : dotO r.1 c = none := by
      unfold dotO
      rw [if_neg]
      intro hall
      have := List.all_eq_true.1 hall i (List.mem_finRange i)
      rcases hi with h | h <;> simp [h] at this
    unfold predResid
    rw [hn]
    cases r.2 <;> rfl

example : predResid (![some 3, some 5, some 100] : Fin 3 → Option ℚ) (addBias true (![some 1, some 2], some 120)) =
    (some 113, some 7) := by decide +kernel

/-! ## Examples -/

def exData : List (XRow 1 ℚ) := [(![some 1], some 2), (![none], some 5), (![some 3], none), (![some 4], some 9)]

/-- A solver that returns the sum of the targets for every coefficient. -/
def exSolve {n : Nat} (rows : List (XRow n ℚ)) (_ : Fin n) : Option ℚ := some ((rows.map fun r => r.2.getD 0).sum)

example : lstsqPred exSolve false .skip exData =
    .ok [(some 11, some (-9)), (none, none), (none, none), (some 44, some (-35))] := by
  rw [lstsq_pred_aligned_partial exSolve false .skip (Or.inr (Or.inl rfl)) exData
    [some (![some 1], some 2), none, none, some (![some 4], some 9)]
    (by
      refine .cons ((treats_iff _ (Or.inr (Or.inl rfl)) _ _).2 (by decide +kernel)) (.cons ?_ (.cons ?_ (.cons ?_ .nil)))
      all_goals exact (treats_iff _ (Or.inr (Or.inl rfl)) _ _).2 (by decide +kernel))]
  rw [if_neg (by simp [exData]), if_neg (by simp), if_neg (by decide)]
  decide +kernel

example : lstsqPred exSolve true (.fill 0) exData =
    .ok [(some 32, some (-30)), (some 16, some (-11)), (none, none), (some 80, some (-71))] := by decide +kernel

example : ∃ o, lstsqPred exSolve false .ignore exData = .ok o ∧ o.length = 1 ∧ exData.length = 4 :=
  ⟨_, lstsq_pred_ignore_length exSolve false exData (by decide) ⟨_, List.mem_cons_of_mem _ List.mem_cons_self,
    fun h => h.1 0 rfl⟩, rfl, rfl⟩

example : lstsqPredW (fun _ m => exSolve m) false .skip [some 1, some 1, some 1, some 1] exData =
    .error .weights := by
  decide +kernel

example : ∃ o, lstsqPredW (fun _ m => exSolve m) false .raise [some 1, some 2]
    [(![some (1 : ℚ)], some 2), (![some 4], some 9)] = .ok o ∧ o.length = 2 :=
  ⟨_, weighted_aligned_partial (fun _ m => exSolve m) false _ [1, 2] rfl
    (by
      intro r hr
      rw [← hasNan_iff]
      revert r
      decide +kernel) (by decide) (by simp) .raise, rfl⟩

example : multiToMat (.fill 7) [((![none], ![some 1, some 2]) : MRow 1 2 ℚ)] =
    .ok [(![some 7], ![some 1, some 2])] := by
  have := ((multi_target_nulls (.fill (7 : ℚ)) [((![none], ![some 1, some 2]) : MRow 1 2 ℚ)] (by simp)).2.2
    ⟨_, List.mem_cons_self, 0, rfl⟩ (by decide +kernel)).2 7 rfl
  rw [this]
  have h : ∀ i : Fin 1, some (((![none] : Fin 1 → Option ℚ) i).getD 7) = (![some 7] : Fin 1 → Option ℚ) i := by
    decide +kernel
  simp only [List.map_cons, List.map_nil, funext h]

example : tryFrom (fun _ => (none : Option ℚ)) "Zero" = some (.fill 0) :=
  (policy_parse _ "Zero").1 (by decide +kernel)

end Verif.NullPolicy
