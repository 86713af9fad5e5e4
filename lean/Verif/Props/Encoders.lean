import Verif.Model.Transforms
import Verif.Props.Transforms
import Mathlib.Data.Nat.Choose.Basic
import Mathlib.Data.Sym.Card
import Mathlib.Tactic

/-!
# Encoders, polynomial features and linear imputation: theorems
-/

namespace Verif.Transforms

set_option linter.unusedSectionVars false

open Verif.Pipeline
open Verif.Confusion (Val)

variable {K : Type} [Field K] [LinearOrder K] [IsStrictOrderedRing K]

namespace Spec

/-- The string `s` occurs in column `c`. -/
def Seen (f : Frame (Cell K) Ty) (c s : String) : Prop := ∃ r ∈ f.rows, (r c).bind Cell.str? = some s

/-- `s` is the smallest string of the column. -/
def First (f : Frame (Cell K) Ty) (c s : String) : Prop := Seen f c s ∧ ∀ t, Seen f c t → s ≤ t

end Spec

open Spec

/-! ## One-hot encoding -/

/-- The levels are exactly the strings that occur, each once, in increasing order. -/
theorem levels_spec (f : Frame (Cell K) Ty) (c : String) :
    (∀ s, s ∈ levels f c ↔ Seen f c s) ∧ (levels f c).Pairwise (· < ·) := by
  have : Std.Total (α := String) (· ≤ ·) := ⟨String.le_total⟩
  have : IsTrans String (· ≤ ·) := ⟨fun _ _ _ => String.le_trans⟩
  have hperm := List.perm_insertionSort (· ≤ ·) (((f.col c).filterMap fun o => o.bind Cell.str?).dedup)
  refine ⟨?_, ?_⟩
  · intro s
    unfold levels
    rw [hperm.mem_iff, List.mem_dedup, List.mem_filterMap]
    constructor
    · rintro ⟨o, ho, hs⟩
      obtain ⟨r, hr, rfl⟩ := List.mem_map.1 ho
      exact ⟨r, hr, hs⟩
    · rintro ⟨r, hr, hs⟩
      exact ⟨r c, List.mem_map.2 ⟨r, hr, rfl⟩, hs⟩
  · have h1 : (levels f c).Pairwise (· ≤ ·) := List.pairwise_insertionSort _ _
    have h2 : (levels f c).Nodup := hperm.nodup_iff.2 (List.nodup_dedup _)
    refine (h1.and h2).imp ?_
    rintro a b ⟨hab, hne⟩
    by_contra hlt
    exact hne (String.le_antisymm hab (String.not_lt.1 hlt))

example : levels exT "s" = ["a", "b"] := by decide +kernel

theorem mem_drop_first (l : List String) (h : l.Pairwise (· < ·)) (s : String) :
    s ∈ l.drop 1 ↔ s ∈ l ∧ ∃ t ∈ l, t < s := by
  cases l with
  | nil => simp
  | cons a t =>
    rw [List.pairwise_cons] at h
    simp only [List.drop_one, List.tail_cons]
    constructor
    · intro hs
      exact ⟨by simp [hs], a, by simp, h.1 s hs⟩
    · rintro ⟨hs, u, hu, hlt⟩
      rcases List.mem_cons.1 hs with rfl | hs
      · exfalso
        rcases List.mem_cons.1 hu with rfl | hu
        · exact String.lt_irrefl _ hlt
        · exact String.lt_asymm hlt (h.1 u hu)
      · exact hs

/-- One-hot encoding of a string column with at least two distinct values has an indicator for every value seen in
training (with `drop_first`, for every value but the smallest), named column, separator, value; in any frame it is
1 in the rows with that value and 0 in all others, including null and unseen values. -/
theorem one_hot_indicators (sep : String) (dropFirst : Bool) (f : Frame (Cell K) Ty) (cs : List String)
    (es : List (Ex (Cell K) Ty)) (hes : oneHot sep dropFirst f cs = some es) (c : String) (hc : c ∈ cs)
    (hty : f.schema.lookup c = some .str) (htwo : ∃ a b, a ≠ b ∧ Seen f c a ∧ Seen f c b) (v : String)
    (hv : Seen f c v) (hfirst : dropFirst = true → ∃ u, Seen f c u ∧ u < v) :
    ∃ e ∈ es, e.name = c ++ sep ++ v ∧
      ∀ rows, e.eval rows = rows.map fun r => some (Cell.num (Val.num (if (r c).bind Cell.str? = some v then 1 else 0))) := by
  obtain ⟨hmem, hsort⟩ := levels_spec f c
  have hlen : (levels f c).length > 1 := by
    obtain ⟨a, b, hab, ha, hb⟩ := htwo
    have ha := (hmem a).2 ha
    have hb := (hmem b).2 hb
    match h : levels f c with
    | [] => rw [h] at ha; cases ha
    | [x] =>
      rw [h, List.mem_singleton] at ha hb
      exact absurd (ha.trans hb.symm) hab
    | _ :: _ :: _ => simp
  have hin : v ∈ (levels f c).drop (if dropFirst then 1 else 0) := by
    cases dropFirst with
    | false => simpa using (hmem v).2 hv
    | true =>
      obtain ⟨u, hu, hlt⟩ := hfirst rfl
      rw [if_pos rfl, mem_drop_first _ hsort]
      exact ⟨(hmem v).2 hv, u, (hmem u).2 hu, hlt⟩
  unfold oneHot at hes
  split at hes
  case isFalse => cases hes
  case isTrue =>
    simp only at hes
    split at hes
    · cases hes
    · cases hes
      refine ⟨indicator c sep v, ?_, rfl, ?_⟩
      · refine List.mem_flatMap.2 ⟨c, List.mem_filter.2 ⟨hc, by simpa using hty⟩, ?_⟩
        unfold oneHotCol
        simp only
        rw [if_pos hlen]
        exact List.mem_map.2 ⟨v, hin, rfl⟩
      · intro rows
        simp only [indicator, Ex.row, bit]
        apply List.map_congr_left
        intro r _
        by_cases h : (r c).bind Cell.str? = some v <;> simp [h]

/-- "c" was not seen in training. -/
example : Seen exT "s" "a" ∧ Seen exT "s" "b" ∧ run (oneHot "_" false exT ["s"]) exT "s_b" = some [q 1, q 0, q 0, q 1] ∧
    run (oneHot "_" false exT ["s"]) exN "s_a" = some [q 0, q 1] ∧
    (oneHot "_" true exT ["s"]).map (fun es => es.map (·.name)) = some ["s_b"] := by
  unfold Seen
  decide +kernel

/-- In every row exactly one indicator of a column is 1 if the value was seen in training (and is not the dropped
first one), and none otherwise. -/
theorem one_hot_exactly_one (sep : String) (dropFirst : Bool) (f : Frame (Cell K) Ty) (c : String)
    (r : String → Option (Cell K)) :
    (∀ e ∈ oneHotCol sep dropFirst f c, e.eval [r] = [some (bit true)] ∨ e.eval [r] = [some (bit false)]) ∧
    ((oneHotCol sep dropFirst f c).countP fun e => decide (e.eval [r] = [some (bit true)])) ≤ 1 ∧
    ∀ s, (r c).bind Cell.str? = some s → (∃ a, a ≠ s ∧ Seen f c a) → Seen f c s →
      (dropFirst = true → ∃ u, Seen f c u ∧ u < s) →
      ((oneHotCol sep dropFirst f c).countP fun e => decide (e.eval [r] = [some (bit true)])) = 1 := by
  obtain ⟨hmem, hsort⟩ := levels_spec f c
  have hbit : (bit true : Cell K) ≠ bit false := by simp [bit]
  have hcount : ∀ l : List String, l.Nodup →
      ((l.map fun v => (indicator c sep v : Ex (Cell K) Ty)).countP fun e => decide (e.eval [r] = [some (bit true)])) =
        if ∃ s ∈ l, (r c).bind Cell.str? = some s then 1 else 0 := by
    intro l hl
    induction l with
    | nil => simp
    | cons v t ih =>
      rw [List.nodup_cons] at hl
      rw [List.map_cons, List.countP_cons, ih hl.2]
      by_cases hv : (r c).bind Cell.str? = some v
      · have h1 : ¬∃ s ∈ t, (r c).bind Cell.str? = some s := by
          rintro ⟨s, hs, h⟩
          rw [hv] at h
          exact hl.1 (Option.some.inj h ▸ hs)
        have h2 : ∃ s ∈ v :: t, (r c).bind Cell.str? = some s := ⟨v, by simp, hv⟩
        rw [if_neg h1, if_pos h2]
        simp [indicator, Ex.row, hv]
      · have h3 : (indicator c sep v : Ex (Cell K) Ty).eval [r] ≠ [some (bit true)] := by
          simp only [indicator, Ex.row, List.map_cons, List.map_nil, ne_eq, List.cons.injEq, Option.some.injEq, and_true, hv,
            decide_false]
          exact fun h => hbit h.symm
        have h4 : (∃ s ∈ v :: t, (r c).bind Cell.str? = some s) ↔ ∃ s ∈ t, (r c).bind Cell.str? = some s := by
          constructor
          · rintro ⟨s, hs, h⟩
            rcases List.mem_cons.1 hs with rfl | hs
            · exact absurd h hv
            · exact ⟨s, hs, h⟩
          · rintro ⟨s, hs, h⟩
            exact ⟨s, by simp [hs], h⟩
        simp only [h3, decide_false, Bool.false_eq_true, if_false, add_zero, h4]
  have hnd0 : (levels f c).Nodup := hsort.imp (S := (· ≠ ·)) (by
    intro a b h he
    subst he
    exact String.lt_irrefl _ h)
  have hnd : ((levels f c).drop (if dropFirst then 1 else 0)).Nodup := hnd0.sublist (List.drop_sublist _ _)
  refine ⟨?_, ?_, ?_⟩
  · intro e he
    unfold oneHotCol at he
    simp only at he
    split at he
    · obtain ⟨v, _, rfl⟩ := List.mem_map.1 he
      simp only [indicator, Ex.row, List.map_cons, List.map_nil]
      cases decide ((r c).bind Cell.str? = some v) <;> simp
    · cases he
  · unfold oneHotCol
    simp only
    split
    · rw [hcount _ hnd]
      exact ite_le_one (le_refl _) zero_le_one
    · simp
  · intro s hs ⟨a, ha, hsa⟩ hseen hfirst
    have ha' := (hmem a).2 hsa
    have hs' := (hmem s).2 hseen
    have hlen : (levels f c).length > 1 := by
      match h : levels f c with
      | [] => rw [h] at hs'; cases hs'
      | [x] =>
        rw [h, List.mem_singleton] at ha' hs'
        exact absurd (ha'.trans hs'.symm) ha
      | _ :: _ :: _ => simp
    unfold oneHotCol
    simp only
    rw [if_pos hlen, hcount _ hnd, if_pos]
    refine ⟨s, ?_, hs⟩
    cases dropFirst with
    | false => simpa using hs'
    | true =>
      obtain ⟨u, hu, hlt⟩ := hfirst rfl
      rw [if_pos rfl, mem_drop_first _ hsort]
      exact ⟨hs', u, (hmem u).2 hu, hlt⟩

example : (oneHotCol "_" false exT "s").map (fun e => e.eval exT.rows) = [[q 0, q 1, q 0, q 0], [q 1, q 0, q 0, q 1]] := by
  decide +kernel

/-- A column with fewer than two distinct values gets no indicator; if all given columns are like that, the encoder
reports that they do not exist or are not strings. -/
theorem one_hot_single (sep : String) (dropFirst : Bool) (f : Frame (Cell K) Ty) (c : String)
    (h : ∀ a b, Seen f c a → Seen f c b → a = b) :
    oneHotCol sep dropFirst f c = [] ∧ oneHot sep dropFirst f [c] = none := by
  have h1 : oneHotCol sep dropFirst f c = [] := by
    obtain ⟨hmem, hsort⟩ := levels_spec f c
    have hlen : ¬(levels f c).length > 1 := by
      match hl : levels f c with
      | [] => simp
      | [x] => simp
      | x :: y :: t =>
        exfalso
        have hx := (hmem x).1 (by rw [hl]; simp)
        have hy := (hmem y).1 (by rw [hl]; simp)
        rw [hl, List.pairwise_cons] at hsort
        exact String.lt_irrefl y (h x y hx hy ▸ hsort.1 y (by simp))
    unfold oneHotCol
    simp only
    rw [if_neg hlen]
  refine ⟨h1, ?_⟩
  unfold oneHot
  by_cases hn : c ∈ f.names
  · by_cases ht : f.schema.lookup c = some .str <;> simp [hn, ht, h1]
  · simp [hn]

/-- Disagreement: a flag column with one value and null is not encoded, and `one_hot_encode` drops it all the same. -/
theorem one_hot_loses_flag : oneHot "_" false (⟨[("s", .str)], [fun _ => some (.str "yes"), fun _ => none]⟩ : Frame (Cell ℚ) Ty) ["s"] = none ∧
    ((({ df := ⟨[("s", .str), ("t", .str)],
          [fun n => if n = "s" then some (.str "yes") else if n = "t" then some (.str "a") else none,
           fun n => if n = "t" then some (.str "b") else none]⟩,
         name := "", target := none, featIn := [], steps := [], exclude := [], lowercase := false, uppercase := false } : Blueprint (Cell ℚ) Ty).oneHotEncode
        (oneHot "_" false) (Sel.byType fun d => d = .str) true).materialize.map fun p => p.featOut) = some ["t_a", "t_b"] := by
  constructor
  · decide +kernel
  · decide +kernel

/-- Disagreement: two columns whose indicators get the same name make the fitted step fail on its own training frame, and
an indicator named like an existing column replaces that column. -/
theorem one_hot_names_collide : let f : Frame (Cell ℚ) Ty := ⟨[("a", .str), ("a_b", .str)],
      [fun n => if n = "a" then some (.str "b_c") else if n = "a_b" then some (.str "c") else none,
       fun n => if n = "a" then some (.str "d") else if n = "a_b" then some (.str "e") else none]⟩
    let g : Frame (Cell ℚ) Ty := ⟨[("a", .str), ("a_b", .num)],
      [fun n => if n = "a" then some (.str "b") else if n = "a_b" then q 7 else none,
       fun n => if n = "a" then some (.str "d") else if n = "a_b" then q 8 else none]⟩
    ((oneHot "_" false f ["a", "a_b"]).isSome = true ∧ run (oneHot "_" false f ["a", "a_b"]) f "a" = none) ∧
    run (oneHot "_" false g ["a"]) g "a_b" = some [q 1, q 0] := by decide +kernel

/-! ## Rank-hot encoding -/

/-- The columns of a rank-hot encoding say whether the value has at least a given rank: a value of rank `k` (from 0)
is encoded by `k` ones followed by zeros; null and values outside the ranking by -1 everywhere. -/
theorem rank_hot_value (c : String) (ranking : List String) (es : List (Ex (Cell K) Ty))
    (h : rankHot c ranking = some es) (r : String → Option (Cell K)) :
    es.map (·.name) = ranking.tail.map (fun v => c ++ ">=" ++ v) ∧
    (∀ k (hk : k < ranking.length), (r c).bind Cell.str? = some ranking[k] →
      es.map (fun e => e.eval [r]) =
        List.replicate k [some (.num (.num 1))] ++ List.replicate (ranking.length - 1 - k) [some (.num (.num 0))]) ∧
    ((∀ s ∈ ranking, (r c).bind Cell.str? ≠ some s) →
      es.map (fun e => e.eval [r]) = List.replicate (ranking.length - 1) [some (.num (.num (-1)))]) := by
  unfold rankHot at h
  split at h
  · cases h
  · rename_i hlen
    split at h
    case isFalse => cases h
    case isTrue hnd =>
      cases h
      have hz : (List.range' 1 (ranking.length - 1)).length = ranking.tail.length := by simp
      refine ⟨?_, ?_, ?_⟩
      · have := List.map_snd_zip (le_of_eq hz.symm)
        rw [List.map_map]
        conv_rhs => rw [← this, List.map_map]
        rfl
      · intro k hk hs
        rw [List.map_map]
        apply List.ext_getElem
        · simp only [List.length_map, List.length_zip, List.length_range', List.length_tail, List.length_append,
            List.length_replicate, min_self]
          omega
        · intro i h1 h2
          simp only [List.length_map, List.length_zip, List.length_range', List.length_tail, min_self] at h1
          simp only [List.getElem_map, List.getElem_zip, List.getElem_range', Function.comp_apply, Ex.row, List.map_cons,
            List.map_nil, hs, List.getElem_mem, if_true, hnd.idxOf_getElem k hk]
          by_cases hik : i < k
          · rw [List.getElem_append_left (by simpa using hik), List.getElem_replicate, if_pos (by omega)]
          · rw [List.getElem_append_right (by simpa using hik), List.getElem_replicate, if_neg (by omega)]
      · intro hs
        rw [List.map_map]
        apply List.ext_getElem
        · simp
        · intro i h1 h2
          rw [List.getElem_replicate, List.getElem_map]
          simp only [Function.comp_apply, Ex.row, List.map_cons, List.map_nil]
          cases hv : (r c).bind Cell.str? with
          | none => rfl
          | some s =>
            have : s ∉ ranking := fun hc => hs s hc hv
            simp only [this, if_false]

example : (rankHot "s" ["a", "b", "c"] : Option (List (Ex (Cell ℚ) Ty))).map (fun es => es.map fun e => (e.name, e.eval exT.rows)) =
    some [("s>=b", [q 1, q 0, q (-1), q 1]), ("s>=c", [q 0, q 0, q (-1), q 0])] := by decide +kernel

/-! ## Value encoders -/

/-- A string column is replaced by the learned values; null and values without a learned value get the default. -/
theorem encode_value (table : Frame (Cell K) Ty → String → List (String × Val K)) (target : String) (d : Default K)
    (f h h' : Frame (Cell K) Ty) (cs : List String) (es : List (Ex (Cell K) Ty)) (c : String) (hc : c ∈ cs)
    (hty : f.schema.lookup c = some .str) (dv : Option (Val K)) (hd : defaultValue f target d = some dv)
    (hfit : encode table target d f cs = some es) (happ : withColumns es h = some h') (i : ℕ) (hi : i < h.rows.length) :
    (∀ s v, (h.rows[i] c).bind Cell.str? = some s → (table f c).lookup s = some v → (h'.col c)[i]? = some (some (.num v))) ∧
    (∀ s, (h.rows[i] c).bind Cell.str? = some s → (table f c).lookup s = none → (h'.col c)[i]? = some (dv.map .num)) ∧
    (h.rows[i] c = none → (h'.col c)[i]? = some (dv.map .num)) := by
  unfold encode at hfit
  split at hfit
  case isFalse => cases hfit
  case isTrue =>
    simp only at hfit
    split at hfit
    case isTrue => cases hfit
    case isFalse =>
      rw [hd] at hfit
      cases hfit
      have hcol := withColumns_col happ (Ex.row c [c] (fun _ => .num) fun r =>
        (replaceStrict (table f c) dv ((r c).bind Cell.str?)).map .num)
        (List.mem_map.2 ⟨c, List.mem_filter.2 ⟨hc, by simpa using hty⟩, rfl⟩) _ fun _ => rfl
      have hcol' : (h'.col c)[i]? = some ((replaceStrict (table f c) dv ((h.rows[i] c).bind Cell.str?)).map .num) := by
        rw [show h'.col c = _ from hcol, List.getElem?_map, List.getElem?_eq_getElem hi]
        rfl
      refine ⟨?_, ?_, ?_⟩
      · intro s v hs hv
        rw [hcol', hs]
        simp only [replaceStrict, hv, Option.map_some]
      · intro s hs hv
        rw [hcol', hs]
        simp only [replaceStrict, hv]
      · intro hn
        rw [hcol', hn]
        rfl

example : run (encode (fun _ _ => [("a", Val.num 10), ("b", .num 20)]) "x" (.text "mean") exT ["s"]) exT "s" =
      some [q 20, q 10, q 4, q 20] ∧
    run (encode (fun _ _ => [("a", Val.num 10), ("b", .num 20)]) "x" (.text "zero") exT ["s"]) exN "s" = some [q 0, q 10] := by
  decide +kernel

/-- The defaults: null, zero, a number, the mean of the target; any other text is an error. -/
theorem default_values (f : Frame (Cell K) Ty) (target : String) (xs : List (Option K)) (hx : IsCol f target xs)
    (hne : known xs ≠ []) (v : K) (s : String) (hs : s ≠ "null" ∧ s ≠ "zero" ∧ s ≠ "mean") :
    defaultValue f target .null = some none ∧ defaultValue f target (.text "null") = some none ∧
    defaultValue f target (.text "zero") = some (some (.num 0)) ∧ defaultValue f target (.value v) = some (some (.num v)) ∧
    defaultValue f target (.text "mean") = some (some (.num (mean xs))) ∧ defaultValue f target (.text s) = none := by
  refine ⟨rfl, rfl, rfl, rfl, ?_, ?_⟩
  · have h1 : ("mean" : String) ≠ "null" := by decide
    have h2 : ("mean" : String) ≠ "zero" := by decide
    simp only [defaultValue, h1, h2, if_false, if_true]
    rw [valsOf_col f target xs hx, meanOf_num _ hne]
    rfl
  · simp only [defaultValue, hs.1, hs.2.1, hs.2.2, if_false]

example : defaultValue exT "x" (.text "mean") = some (some (.num 4)) ∧ defaultValue exT "x" (.text "median") = none := by
  decide +kernel

theorem lookup_table {A : Type} (ks : List String) (g : String → A) (k : String) :
    (ks.map fun k => (k, g k)).lookup k = if k ∈ ks then some (g k) else none := by
  induction ks with
  | nil => simp
  | cons a t ih =>
    rw [List.map_cons, List.lookup_cons]
    by_cases h : k = a
    · subst h; simp
    · have : (k == a) = false := by simpa using h
      rw [this, ih]
      simp [h]

/-- Target and weight-of-evidence encoding replace a category by the value computed for it from the complete rows of
the training frame (C45, C46). -/
theorem encode_tables (msl sm : ℝ) (target : String) (f : Frame (Cell ℝ) Ty) (c s : String)
    (hs : ∃ t, (some s, some t) ∈ pairs f c target) :
    (targetTable msl sm target f c).lookup s =
      some (.num (Woe.encode (pairs f c target) ((Woe.overallMean (pairs f c target)).getD 0) msl sm s)) ∧
    ∃ ks : List String, ks.Nodup ∧ (∀ k, k ∈ ks ↔ ∃ t, (some k, some t) ∈ pairs f c target) ∧
      (woeTable target f c).lookup s = some (.num (Woe.woe (pairs f c target) ks s)) := by
  have hmem : ∀ k, k ∈ ((Woe.clean (pairs f c target)).map Prod.fst).dedup ↔ ∃ t, (some k, some t) ∈ pairs f c target := by
    intro k
    rw [List.mem_dedup, List.mem_map]
    constructor
    · rintro ⟨p, hp, rfl⟩
      unfold Woe.clean at hp
      obtain ⟨q, hq, hqp⟩ := List.mem_filterMap.1 hp
      obtain ⟨a, b⟩ := q
      cases a <;> cases b <;> simp at hqp
      subst hqp
      exact ⟨_, hq⟩
    · rintro ⟨t, ht⟩
      exact ⟨(k, t), List.mem_filterMap.2 ⟨_, ht, rfl⟩, rfl⟩
  refine ⟨?_, _, List.nodup_dedup _, hmem, ?_⟩
  · unfold targetTable
    simp only
    rw [lookup_table, if_pos ((hmem s).2 hs)]
  · unfold woeTable
    simp only
    rw [lookup_table, if_pos ((hmem s).2 hs)]

example : pairs exT "s" "x" = [(some "b", some 1), (some "a", none), (none, some 3), (some "b", some 8)] := by decide +kernel

/-- Null has no entry in the learned mapping: although the documentation of the blueprint says that nulls are encoded
as well, rows with a null category do not influence the mapping and get the default. -/
theorem encode_null_default (msl sm : ℝ) (target : String) (f f' : Frame (Cell ℝ) Ty) (es : List (Ex (Cell ℝ) Ty)) (c : String)
    (hty : f.schema.lookup c = some .str) (hfit : encode (targetTable msl sm target) target .null f [c] = some es)
    (happ : withColumns es f = some f') (i : ℕ) (hi : i < f.rows.length) (hn : f.rows[i] c = none) :
    (f'.col c)[i]? = some none :=
  (encode_value (targetTable msl sm target) target .null f f f' [c] es c (by simp) hty none rfl hfit happ i hi).2.2 hn

example : exT.schema.lookup "s" = some .str ∧ (exT.rows[2]?.map fun r => r "s") = some none ∧
    run (encode (fun _ _ => [("a", Val.num 10), ("b", .num 20)]) "x" .null exT ["s"]) exT "s" =
      some [q 20, q 10, none, q 20] := by decide +kernel

/-! ## Polynomial features -/

/-- The combinations of `polynomial_features` are the multisets of the given size, each exactly once. -/
theorem combs_multisets (d : ℕ) (cs : List String) (hcs : cs.Nodup) :
    (∀ m : Multiset String, m ∈ (combsWR d cs).map Multiset.ofList ↔
      Multiset.card m = d ∧ ∀ x ∈ m, x ∈ cs) ∧
    ((combsWR d cs).map Multiset.ofList).Nodup ∧ (combsWR d cs).length = Nat.multichoose cs.length d := by
  induction d, cs using combsWR.induct with
  | case1 cs =>
    refine ⟨?_, by simp [combsWR], by simp [combsWR]⟩
    intro m
    simp only [combsWR, List.map_cons, List.map_nil, List.mem_singleton, Multiset.coe_nil, Multiset.card_eq_zero]
    constructor
    · rintro rfl; simp
    · exact fun h => h.1
  | case2 d =>
    refine ⟨?_, by simp [combsWR], by simp [combsWR]⟩
    intro m
    simp only [combsWR, List.map_nil, List.not_mem_nil, false_iff, not_and, imp_false]
    intro hc hall
    obtain ⟨x, hx⟩ := Multiset.card_pos_iff_exists_mem.1 (by rw [hc]; exact Nat.succ_pos d)
    exact hall x hx
  | case3 d c cs ih1 ih2 =>
    have hcs' := List.nodup_cons.1 hcs
    obtain ⟨a1, a2, a3⟩ := ih1 hcs
    obtain ⟨b1, b2, b3⟩ := ih2 hcs'.2
    have hmap : ((combsWR d (c :: cs)).map (c :: ·)).map Multiset.ofList =
        ((combsWR d (c :: cs)).map Multiset.ofList).map fun m => c ::ₘ m := by
      rw [List.map_map, List.map_map]
      rfl
    refine ⟨?_, ?_, ?_⟩
    · intro m
      rw [combsWR, List.map_append, List.mem_append, hmap, b1]
      constructor
      · rintro (h | ⟨h1, h2⟩)
        · obtain ⟨m', hm', rfl⟩ := List.mem_map.1 h
          obtain ⟨h1, h2⟩ := (a1 m').1 hm'
          refine ⟨by rw [Multiset.card_cons, h1], ?_⟩
          intro x hx
          rcases Multiset.mem_cons.1 hx with rfl | hx
          · simp
          · exact h2 x hx
        · exact ⟨h1, fun x hx => List.mem_cons_of_mem _ (h2 x hx)⟩
      · rintro ⟨h1, h2⟩
        by_cases hcm : c ∈ m
        · left
          refine List.mem_map.2 ⟨m.erase c, (a1 _).2 ⟨?_, ?_⟩, Multiset.cons_erase hcm⟩
          · rw [Multiset.card_erase_of_mem hcm, h1]; rfl
          · exact fun x hx => h2 x (Multiset.mem_of_mem_erase hx)
        · right
          refine ⟨h1, fun x hx => ?_⟩
          rcases List.mem_cons.1 (h2 x hx) with rfl | h
          · exact absurd hx hcm
          · exact h
    · rw [combsWR, List.map_append, hmap, List.nodup_append]
      refine ⟨a2.map fun x y h => (Multiset.cons_inj_right c).1 h, b2, ?_⟩
      intro x hx y hy hxy
      subst hxy
      obtain ⟨m', _, rfl⟩ := List.mem_map.1 hx
      exact hcs'.1 (((b1 _).1 hy).2 c (Multiset.mem_cons_self _ _))
    · rw [combsWR, List.length_append, List.length_map, a3, b3]
      simp only [List.length_cons]
      rw [Nat.multichoose_succ_succ]
      exact Nat.add_comm _ _

example : combsWR 2 ["a", "b", "c"] = [["a", "a"], ["a", "b"], ["a", "c"], ["b", "b"], ["b", "c"], ["c", "c"]] ∧
    Nat.multichoose 3 2 = 6 := by simp [combsWR, Nat.multichoose]

theorem product_num (comb : List String) (hne : comb ≠ []) (x : String → K) (r : String → Option (Cell K))
    (h : ∀ c ∈ comb, r c = some (.num (.num (x c)))) : product comb r = some (.num ((comb.map x).prod)) := by
  cases comb with
  | nil => exact absurd rfl hne
  | cons c t =>
    have key : ∀ (t : List String) (a : K), (∀ c ∈ t, r c = some (.num (.num (x c)))) →
        t.foldl (fun acc d => op2 vmul acc ((r d).bind Cell.val?)) (some (Val.num a)) = some (.num (a * (t.map x).prod)) := by
      intro t
      induction t with
      | nil => intro a _; simp
      | cons d t ih =>
        intro a ht
        rw [List.foldl_cons, ht d (by simp)]
        show t.foldl _ (some (Val.num (a * x d))) = _
        rw [ih (a * x d) fun c hc => ht c (by simp [hc])]
        simp [mul_assoc]
    unfold product
    simp only
    rw [h c (by simp)]
    show t.foldl _ (some (Val.num (x c))) = _
    rw [key t (x c) fun d hd => h d (by simp [hd])]
    simp

theorem product_null (comb : List String) (r : String → Option (Cell K)) (h : ∃ c ∈ comb, (r c).bind Cell.val? = none) :
    product comb r = none := by
  have key : ∀ (t : List String) (o : Option (Val K)), o = none ∨ (∃ c ∈ t, (r c).bind Cell.val? = none) →
      t.foldl (fun acc d => op2 vmul acc ((r d).bind Cell.val?)) o = none := by
    intro t
    induction t with
    | nil =>
      rintro o (h | ⟨c, hc, _⟩)
      · exact h
      · cases hc
    | cons d t ih =>
      rintro o (h | ⟨c, hc, hn⟩)
      · subst h
        exact ih _ (.inl rfl)
      · rw [List.foldl_cons]
        apply ih
        rcases List.mem_cons.1 hc with rfl | hc
        · left; rw [hn]; cases o <;> rfl
        · exact .inr ⟨c, hc, hn⟩
  cases comb with
  | nil => rfl
  | cons c t =>
    unfold product
    simp only
    apply key
    obtain ⟨d, hd, hn⟩ := h
    rcases List.mem_cons.1 hd with rfl | hd
    · exact .inl hn
    · exact .inr ⟨d, hd, hn⟩

/-- `polynomial_features` has one column for every multiset of `degree` columns (without those of a single column if
`interaction_only`), holding the product of their values, null if one of them is null; a degree below 2 is an
error. -/
theorem polynomial_features (cs : List String) (hcs : cs.Nodup) (degree : ℤ) (io : Bool) :
    (degree ≤ 1 → (polynomial cs degree io : Option (List (Ex (Cell K) Ty))) = none) ∧
    (1 < degree → ∃ combs : List (List String),
      (combs.map Multiset.ofList).Nodup ∧
      (∀ m : Multiset String, m ∈ combs.map Multiset.ofList ↔
        ((Multiset.card m : ℤ) = degree ∧ (∀ x ∈ m, x ∈ cs) ∧ (io = true → ∃ x ∈ m, ∃ y ∈ m, x ≠ y))) ∧
      ∃ es : List (Ex (Cell K) Ty), polynomial cs degree io = some es ∧
        es.map (·.name) = combs.map (fun l => "*".intercalate l) ∧
        ∀ i (hi : i < combs.length) (r : String → Option (Cell K)),
          (∀ x : String → K, (∀ c ∈ combs[i], r c = some (.num (.num (x c)))) →
            es[i]?.map (fun e => e.eval [r]) = some [some (.num (.num ((combs[i].map x).prod)))]) ∧
          ((∃ c ∈ combs[i], (r c).bind Cell.val? = none) → es[i]?.map (fun e => e.eval [r]) = some [none])) := by
  refine ⟨?_, ?_⟩
  · intro h
    unfold polynomial
    rw [if_pos h]
  · intro h
    obtain ⟨h1, h2, -⟩ := combs_multisets degree.toNat cs hcs
    have hdedup : ∀ l : List String, decide (l.dedup.length > 1) = true ↔ ∃ x ∈ l, ∃ y ∈ l, x ≠ y := by
      intro l
      rw [decide_eq_true_eq]
      constructor
      · intro hl
        match hd : l.dedup with
        | [] => rw [hd] at hl; simp at hl
        | [a] => rw [hd] at hl; simp at hl
        | a :: b :: t =>
          have hnd := List.nodup_dedup l
          rw [hd, List.nodup_cons] at hnd
          refine ⟨a, List.mem_dedup.1 (by rw [hd]; simp), b, List.mem_dedup.1 (by rw [hd]; simp), ?_⟩
          intro hab
          exact hnd.1 (by simp [hab])
      · rintro ⟨x, hx, y, hy, hxy⟩
        have hx := List.mem_dedup.2 hx
        have hy := List.mem_dedup.2 hy
        match hd : l.dedup with
        | [] => rw [hd] at hx; cases hx
        | [a] =>
          rw [hd, List.mem_singleton] at hx hy
          exact absurd (hx.trans hy.symm) hxy
        | a :: b :: t => simp
    refine ⟨(combsWR degree.toNat cs).filter fun comb => !io || decide (comb.dedup.length > 1), ?_, ?_, ?_⟩
    · exact h2.sublist (List.Sublist.map _ List.filter_sublist)
    · intro m
      constructor
      · intro hm
        obtain ⟨l, hl, rfl⟩ := List.mem_map.1 hm
        rw [List.mem_filter] at hl
        obtain ⟨a1, a2⟩ := (h1 (l : Multiset String)).1 (List.mem_map.2 ⟨l, hl.1, rfl⟩)
        refine ⟨by rw [a1]; omega, a2, ?_⟩
        rintro rfl
        have := hl.2
        simp only [Bool.not_true, Bool.false_or] at this
        exact (hdedup l).1 this
      · rintro ⟨a1, a2, a3⟩
        obtain ⟨l, hl, rfl⟩ := List.mem_map.1 ((h1 m).2 ⟨by omega, a2⟩)
        refine List.mem_map.2 ⟨l, List.mem_filter.2 ⟨hl, ?_⟩, rfl⟩
        cases io with
        | false => rfl
        | true =>
          simp only [Bool.not_true, Bool.false_or]
          exact (hdedup l).2 (a3 rfl)
    · refine ⟨_, by unfold polynomial; rw [if_neg (by omega)], ?_, ?_⟩
      · rw [List.map_map]; rfl
      · intro i hi r
        have hlen : ∀ l ∈ (combsWR degree.toNat cs).filter fun comb => !io || decide (comb.dedup.length > 1), l ≠ [] := by
          intro l hl hnil
          rw [List.mem_filter] at hl
          have := ((h1 (l : Multiset String)).1 (List.mem_map.2 ⟨l, hl.1, rfl⟩)).1
          rw [hnil] at this
          simp at this
          omega
        refine ⟨?_, ?_⟩
        · intro x hx
          rw [List.getElem?_map, List.getElem?_eq_getElem hi]
          simp only [Option.map_some, Ex.row, List.map_cons, List.map_nil]
          rw [product_num _ (hlen _ (List.getElem_mem hi)) x r hx]
          rfl
        · intro hn
          rw [List.getElem?_map, List.getElem?_eq_getElem hi]
          simp only [Option.map_some, Ex.row, List.map_cons, List.map_nil]
          rw [product_null _ r hn]
          rfl

example : (polynomial ["x", "y"] 2 true : Option (List (Ex (Cell ℚ) Ty))).map (fun es => es.map fun e =>
      (e.name, e.eval [fun n => if n = "x" then q 3 else q 5, fun n => if n = "x" then q 3 else none])) =
    some [("x*y", [q 15, none])] := by
  simp [polynomial, combsWR, Ex.row]
  decide +kernel

/-! ## Linear imputation -/

/-- Rows with a known target stay; a null target becomes the linear prediction, in which a null feature counts as
zero. -/
theorem linear_impute_value (fit : Frame (Cell K) Ty → List String → String → Bool → Option (List (Val K))) (target : String)
    (addBias : Bool) (f h h' : Frame (Cell K) Ty) (features : List String) (es : List (Ex (Cell K) Ty)) (w : List K) (b : K)
    (hw : w.length = features.length)
    (hfitted : fit f features target addBias = some ((w ++ if addBias then [b] else []).map Val.num))
    (hfit : linearImpute fit target addBias f features = some es) (happ : withColumns es h = some h') (i : ℕ)
    (hi : i < h.rows.length) (x : String → Option K)
    (hx : ∀ c ∈ features, h.rows[i] c = (x c).map fun v => Cell.num (Val.num v)) :
    (∀ v, h.rows[i] target = some (.num v) → (h'.col target)[i]? = some (some (.num v))) ∧
    (h.rows[i] target = none → (h'.col target)[i]? = some (some (.num (.num
      (((features.zip w).map fun fc => (x fc.1).getD 0 * fc.2).sum + if addBias then b else 0))))) := by
  unfold linearImpute at hfit
  rw [hfitted] at hfit
  cases hfit
  have hcol := withColumns_col happ _ (List.mem_singleton.2 rfl) _ fun _ => rfl
  simp only [Ex.row] at hcol
  have hcol' := congrArg (fun l => l[i]?) hcol
  simp only [List.getElem?_map, List.getElem?_eq_getElem hi, Option.map_some] at hcol'
  refine ⟨?_, ?_⟩
  · intro v hv
    rw [hcol', hv]
    rfl
  · intro hn
    rw [hcol', hn]
    simp only [Option.bind_none, fillNull, Option.getD_none, Option.map_some, Option.some.injEq, Cell.num.injEq]
    have hsum : ∀ (fs : List String) (w : List K) (rest : List (Val K)) (a : K), w.length = fs.length →
        (∀ c ∈ fs, h.rows[i] c = (x c).map fun v => Cell.num (Val.num v)) →
        (((fs.zip (w.map Val.num ++ rest)).map fun fc => op2 vmul ((h.rows[i] fc.1).bind Cell.val?) (some fc.2)).filterMap id).foldl
          vadd (.num a) = .num (a + ((fs.zip w).map fun fc => (x fc.1).getD 0 * fc.2).sum) := by
      intro fs
      induction fs with
      | nil => intro w rest a _ _; simp
      | cons c t ih =>
        intro w rest a hl hfs
        cases w with
        | nil => simp at hl
        | cons v w =>
          simp only [List.map_cons, List.cons_append, List.zip_cons_cons, List.sum_cons]
          rw [hfs c (by simp)]
          have hl' : w.length = t.length := by simpa using hl
          have hfs' := fun c hc => hfs c (List.mem_cons_of_mem _ hc)
          cases hxc : x c with
          | none =>
            simp only [Option.map_none, Option.bind_none, op2, List.filterMap_cons, id, Option.getD_none, zero_mul, zero_add]
            exact ih w rest a hl' hfs'
          | some u =>
            simp only [Option.map_some, Option.bind_some, Cell.val?, Option.getD_some]
            show (List.filterMap id _).foldl vadd (Val.num (a + u * v)) = _
            rw [ih w rest (a + u * v) hl' hfs', add_assoc]
    cases addBias with
    | false =>
      simp only [Bool.false_eq_true, if_false, List.append_nil, add_zero]
      have := hsum features w [] 0 hw hx
      rw [List.append_nil, zero_add] at this
      exact this
    | true =>
      simp only [if_true, List.map_append, List.map_cons, List.map_nil, List.filterMap_append, List.foldl_append]
      rw [hsum features w [Val.num b] 0 hw hx, zero_add]
      simp [vadd]

example : run (linearImpute (fun _ _ _ _ => some [Val.num 2, .num 100]) "x" true exT ["y"])
    ⟨[("x", .num), ("y", .num)], [fun n => if n = "y" then q 7 else none, fun _ => none, fun _ => q 5]⟩ "x" =
    some [q 114, q 100, q 5] := by decide +kernel

end Verif.Transforms
