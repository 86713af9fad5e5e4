import Verif.Model.Transforms
import Verif.Props.Pipeline
import Mathlib.Tactic

/-!
# The transforms of a blueprint: theorems
-/

namespace Verif.Transforms

set_option linter.unusedSectionVars false

open Verif.Pipeline
open Verif.Confusion (Val)

variable {K : Type} [Field K] [LinearOrder K] [IsStrictOrderedRing K]

namespace Spec

/-- A column of finite numbers and nulls. -/
def IsCol (f : Frame (Cell K) Ty) (c : String) (xs : List (Option K)) : Prop :=
  f.col c = xs.map fun o => o.map fun x => Cell.num (Val.num x)

/-- The numbers of a column. -/
def known (xs : List (Option K)) : List K := xs.filterMap id

/-- Arithmetic mean. -/
def mean (xs : List (Option K)) : K := (known xs).sum / ((known xs).length : K)

/-- Mean of the squared deviations. -/
def popVar (xs : List (Option K)) : K :=
  ((known xs).map fun x => (x - mean xs) ^ 2).sum / ((known xs).length : K)

/-- What a transform of given columns must do: compute row by row and write only those columns. -/
def Fits (F : Frame (Cell K) Ty → List String → Option (List (Ex (Cell K) Ty))) : Prop :=
  ∀ f cs es, F f cs = some es → (∀ e ∈ es, Pipeline.Spec.RowEx e) ∧ ∀ e ∈ es, e.name ∈ cs

end Spec

open Spec

/-- The frame of the examples: a numeric and a string column. -/
def Spec.exT : Frame (Cell ℚ) Ty :=
  ⟨[("x", .num), ("s", .str)],
    [fun n => [("x", Cell.num (Val.num 1)), ("s", .str "b")].lookup n,
     fun n => [("s", Cell.str "a")].lookup n,
     fun n => [("x", Cell.num (Val.num 3))].lookup n,
     fun n => [("x", Cell.num (Val.num 8)), ("s", .str "b")].lookup n]⟩

/-- New rows. -/
def Spec.exN : Frame (Cell ℚ) Ty :=
  ⟨[("x", .num), ("s", .str)],
    [fun n => [("s", Cell.str "c")].lookup n,
     fun n => [("x", Cell.num (Val.num 12)), ("s", .str "a")].lookup n]⟩

theorem Spec.exT_col : IsCol exT "x" [some 1, none, some 3, some 8] := by
  unfold IsCol
  decide +kernel

theorem Spec.exN_col : IsCol exN "x" [none, some 12] := by
  unfold IsCol
  decide +kernel

/-- Fit on `f`, apply to `h`, read column `c`. -/
def Spec.run (F : Option (List (Ex (Cell ℚ) Ty))) (h : Frame (Cell ℚ) Ty) (c : String) : Option (List (Option (Cell ℚ))) :=
  F.bind fun es => (withColumns es h).map fun g => g.col c

def Spec.q (v : ℚ) : Option (Cell ℚ) := some (.num (.num v))

/-! ## One expression for each column -/

theorem perCol_spec {P : Type} (learn : List (Val K) → Option P) (g : P → Option (Val K) → Option (Val K))
    (f : Frame (Cell K) Ty) (cs : List String) (es : List (Ex (Cell K) Ty)) (h : perCol learn g f cs = some es) :
    es.map (·.name) = cs ∧ (∀ e ∈ es, ∃ c ∈ cs, ∃ p, learn (valsOf f c) = some p ∧ e = onCol c (g p)) := by
  induction cs generalizing es with
  | nil =>
    simp only [perCol, List.mapM_nil, Option.pure_def, Option.some.injEq] at h
    subst h
    simp
  | cons c t ih =>
    simp only [perCol, List.mapM_cons, Option.bind_eq_bind, Option.pure_def, Option.bind_eq_some_iff,
      Option.some.injEq] at h
    obtain ⟨e, he, l, hl, rfl⟩ := h
    obtain ⟨h1, h2⟩ := ih l hl
    split at he
    case isFalse => cases he
    case isTrue =>
      obtain ⟨p, hp, rfl⟩ := Option.map_eq_some_iff.1 he
      refine ⟨by rw [List.map_cons, h1]; rfl, ?_⟩
      intro e' he'
      rcases List.mem_cons.1 he' with rfl | he'
      · exact ⟨c, by simp, p, hp, rfl⟩
      · obtain ⟨d, hd, r⟩ := h2 e' he'
        exact ⟨d, by simp [hd], r⟩

theorem onCol_row (c : String) (g : Option (Val K) → Option (Val K)) : Pipeline.Spec.RowEx (onCol c g) := ⟨_, fun _ => rfl⟩

theorem perCol_fits {P : Type} (learn : List (Val K) → Option P) (g : P → Option (Val K) → Option (Val K)) :
    Fits (perCol learn g) := by
  intro f cs es h
  obtain ⟨h1, h2⟩ := perCol_spec learn g f cs es h
  refine ⟨?_, ?_⟩
  · intro e he
    obtain ⟨c, _, p, _, rfl⟩ := h2 e he
    exact onCol_row c _
  · intro e he
    rw [← h1]
    exact List.mem_map.2 ⟨e, he, rfl⟩

/-- What `with_columns` makes of a column. -/
theorem withColumns_col {V D : Type} {es : List (Ex V D)} {h h' : Frame V D} (hh : withColumns es h = some h')
    (e : Ex V D) (he : e ∈ es) (g : (String → Option V) → Option V) (hg : ∀ rows, e.eval rows = rows.map g) :
    h'.col e.name = h.rows.map g := by
  unfold withColumns at hh
  split at hh
  case isFalse => cases hh
  case isTrue hr =>
    have hnd := Pipeline.runs_nodup hr
    cases hh
    have hfind : es.find? (fun x => x.name == e.name) = some e := by
      clear hr
      induction es with
      | nil => cases he
      | cons a t ih =>
        rw [List.map_cons, List.nodup_cons] at hnd
        rcases List.mem_cons.1 he with rfl | he'
        · simp
        · have : (a.name == e.name) = false := by
            have : a.name ≠ e.name := fun hc => hnd.1 (hc ▸ List.mem_map.2 ⟨e, he', rfl⟩)
            simpa using this
          rw [List.find?_cons, this]
          exact ih he' hnd.2
    unfold Frame.col
    apply List.ext_getElem
    · simp
    · intro i h1 h2
      have hi : i < h.rows.length := by simpa using h1
      rw [List.getElem_map, List.getElem_mapIdx, List.getElem_map]
      unfold cell
      rw [hfind]
      simp only [Option.map_some, Option.getD_some]
      rw [hg]
      exact Pipeline.getElem?_join_map h.rows g i hi

/-- A transform of given columns, fitted on `f` and applied to `h`, maps each of them cell by cell. -/
theorem perCol_apply {P : Type} (learn : List (Val K) → Option P) (g : P → Option (Val K) → Option (Val K))
    (f h h' : Frame (Cell K) Ty) (cs : List String) (es : List (Ex (Cell K) Ty)) (hfit : perCol learn g f cs = some es)
    (happ : withColumns es h = some h') (c : String) (hc : c ∈ cs) :
    ∃ p, learn (valsOf f c) = some p ∧ h'.col c = (h.col c).map fun o => (g p (o.bind Cell.val?)).map .num := by
  obtain ⟨h1, h2⟩ := perCol_spec learn g f cs es hfit
  rw [← h1] at hc
  obtain ⟨e, he, rfl⟩ := List.mem_map.1 hc
  obtain ⟨d, _, p, hp, rfl⟩ := h2 e he
  refine ⟨p, hp, ?_⟩
  rw [withColumns_col happ _ he _ fun _ => rfl]
  simp only [Frame.col, List.map_map]
  rfl

theorem val_col (xs : List (Option K)) (o : Option (Cell K)) (h : o ∈ xs.map fun o => o.map fun x => Cell.num (Val.num x)) :
    ∃ x ∈ xs, o = x.map fun x => Cell.num (Val.num x) := by
  obtain ⟨x, hx, rfl⟩ := List.mem_map.1 h
  exact ⟨x, hx, rfl⟩

theorem valsOf_col (f : Frame (Cell K) Ty) (c : String) (xs : List (Option K)) (h : IsCol f c xs) :
    valsOf f c = (known xs).map Val.num := by
  unfold valsOf known
  rw [h, List.filterMap_map, List.map_filterMap]
  apply List.filterMap_congr
  intro o _
  cases o <;> rfl

theorem map_col {B : Type} (h : Frame (Cell K) Ty) (c : String) (ys : List (Option K)) (hy : IsCol h c ys)
    (g : Option (Val K) → B) :
    ((h.col c).map fun o => g (o.bind Cell.val?)) = ys.map fun o => g (o.map Val.num) := by
  rw [hy, List.map_map]
  apply List.map_congr_left
  intro o _
  cases o <;> rfl

theorem foldl_vadd (xs : List K) (a : K) : (xs.map Val.num).foldl vadd (.num a) = .num (a + xs.sum) := by
  induction xs generalizing a with
  | nil => simp
  | cons x t ih =>
    rw [List.map_cons, List.foldl_cons, List.sum_cons]
    show (t.map Val.num).foldl vadd (.num (a + x)) = _
    rw [ih, add_assoc]

theorem len_ne (l : List K) (h : l ≠ []) : (l.length : K) ≠ 0 := by
  have : l.length ≠ 0 := by simpa using h
  exact_mod_cast this

theorem meanOf_num (xs : List K) (h : xs ≠ []) : meanOf (xs.map Val.num) = some (.num (xs.sum / (xs.length : K))) := by
  unfold meanOf
  rw [if_neg (by simpa using h), foldl_vadd, zero_add, List.length_map]
  simp only [Val.fdiv]
  rw [if_neg (len_ne xs h)]

theorem meanOf_nil : meanOf ([] : List (Val K)) = none := rfl

/-! ## Row by row, own columns -/

/-- Every built-in transform of selected columns computes row by row and writes only the columns it was given. -/
theorem builtin_fits (m : Impute) (sqrt : K → K) (quant : K → List (Val K) → Option (Val K)) (ql qh : K)
    (table : Frame (Cell K) Ty → String → List (String × Val K)) (target : String) (d : Default K) :
    Fits (impute (K := K) m) ∧ Fits (center (K := K)) ∧ Fits (scaleStandard sqrt) ∧ Fits (scaleMinMax (K := K)) ∧
    Fits (scaleAbsMax (K := K)) ∧ Fits (robustScale quant ql qh) ∧ Fits (winsorize quant ql qh) ∧
    Fits (encode table target d) := by
  refine ⟨perCol_fits _ _, perCol_fits _ _, perCol_fits _ _, perCol_fits _ _, perCol_fits _ _, ?_, ?_, ?_⟩
  · intro f cs es h
    unfold robustScale at h
    split at h
    · cases h
    · exact perCol_fits _ _ f cs es h
  · intro f cs es h
    unfold winsorize at h
    split at h
    · cases h
    · exact perCol_fits _ _ f cs es h
  · intro f cs es h
    unfold encode at h
    split at h
    case isFalse => cases h
    case isTrue =>
      simp only at h
      split at h
      · cases h
      · obtain ⟨dv, _, rfl⟩ := Option.map_eq_some_iff.1 h
        refine ⟨?_, ?_⟩
        · intro e he
          obtain ⟨c, _, rfl⟩ := List.mem_map.1 he
          exact ⟨_, fun _ => rfl⟩
        · intro e he
          obtain ⟨c, hc, rfl⟩ := List.mem_map.1 he
          exact List.mem_of_mem_filter hc

example : (impute .mean exT ["x"]).map (fun es => es.map (·.name)) = some ["x"] ∧
    (encode (fun _ _ => [("a", Val.num 1)]) "x" .null exT ["s", "x"]).map (fun es => es.map (·.name)) = some ["s"] := by
  decide +kernel

/-- The other transforms compute row by row as well. -/
theorem builtin_rowwise (m : Impute) (c : String) (needs : List String) (rule : (String → Option (Cell K)) → Option Bool)
    (fit : Frame (Cell K) Ty → List String → String → Bool → Option (List (Val K))) (target sep : String)
    (b : Bool) (ranking : List String) (deg : ℤ) (f : Frame (Cell K) Ty) (cs : List String) (es : List (Ex (Cell K) Ty))
    (h : conditionalImpute m c needs rule f = some es ∨ linearImpute fit target b f cs = some es ∨
      oneHot sep b f cs = some es ∨ rankHot c ranking = some es ∨ polynomial cs deg b = some es) :
    ∀ e ∈ es, Pipeline.Spec.RowEx e := by
  rcases h with h | h | h | h | h
  · unfold conditionalImpute at h
    split at h
    · cases h
      intro e he
      rw [List.mem_singleton] at he
      subst he
      exact ⟨_, fun _ => rfl⟩
    · cases h
  · obtain ⟨co, _, rfl⟩ := Option.map_eq_some_iff.1 h
    intro e he
    rw [List.mem_singleton] at he
    subst he
    exact ⟨_, fun _ => rfl⟩
  · unfold oneHot at h
    split at h
    case isFalse => cases h
    case isTrue =>
      simp only at h
      split at h
      · cases h
      · cases h
        intro e he
        obtain ⟨c, _, he⟩ := List.mem_flatMap.1 he
        unfold oneHotCol at he
        simp only at he
        split at he
        · obtain ⟨v, _, rfl⟩ := List.mem_map.1 he
          exact ⟨_, fun _ => rfl⟩
        · cases he
  · unfold rankHot at h
    split at h
    · cases h
    · split at h
      · cases h
        intro e he
        obtain ⟨v, _, rfl⟩ := List.mem_map.1 he
        exact ⟨_, fun _ => rfl⟩
      · cases h
  · unfold polynomial at h
    split at h
    · cases h
    · cases h
      intro e he
      obtain ⟨v, _, rfl⟩ := List.mem_map.1 he
      exact ⟨_, fun _ => rfl⟩

example : (oneHot "_" false exT ["s"]).map (fun es => es.map (·.name)) = some ["s_a", "s_b"] ∧
    (polynomial ["x"] 2 false : Option (List (Ex (Cell ℚ) Ty))).map (fun es => es.map (·.name)) = some ["x*x"] := by
  constructor
  · decide +kernel
  · simp [polynomial, combsWR, Ex.row]

/-! ## Imputation -/

/-- Mean imputation, learned on `f` and applied to `h`: null cells become the mean of the known values of `f`, all
other cells stay. -/
theorem impute_mean (f h h' : Frame (Cell K) Ty) (cs : List String) (es : List (Ex (Cell K) Ty)) (c : String)
    (xs ys : List (Option K)) (hc : c ∈ cs) (hx : IsCol f c xs) (hy : IsCol h c ys)
    (hfit : impute .mean f cs = some es) (happ : withColumns es h = some h') :
    IsCol h' c (ys.map fun o => some (o.getD (mean xs))) := by
  obtain ⟨p, hp, hcol⟩ := perCol_apply _ _ f h h' cs es hfit happ c hc
  rw [valsOf_col f c xs hx] at hp
  have hne : known xs ≠ [] := by
    intro h0
    rw [h0] at hp
    cases hp
  have hp' : p = Val.num (mean xs) := by
    have : meanOf ((known xs).map Val.num) = some p := hp
    rw [meanOf_num _ hne] at this
    exact (Option.some.inj this).symm
  subst hp'
  unfold IsCol
  rw [hcol, map_col h c ys hy fun o => (fillNull (Val.num (mean xs)) o).map Cell.num, List.map_map]
  apply List.map_congr_left
  intro o _
  cases o <;> rfl

example : IsCol exT "x" [some 1, none, some 3, some 8] ∧ IsCol exN "x" [none, some 12] ∧
    run (impute .mean exT ["x"]) exN "x" = some [q 4, q 12] := ⟨exT_col, exN_col, by decide +kernel⟩

theorem mapM_none {A B : Type} (g : A → Option B) (l : List A) (a : A) (ha : a ∈ l) (h : g a = none) : l.mapM g = none := by
  induction l with
  | nil => cases ha
  | cons b t ih =>
    rw [List.mapM_cons]
    rcases List.mem_cons.1 ha with rfl | ha'
    · rw [h]; rfl
    · rw [ih ha']
      cases g b <;> rfl

/-- A column without values cannot be imputed, and mode imputation always fails. -/
theorem impute_fails (m : Impute) (f : Frame (Cell K) Ty) (cs : List String) (c : String) (hc : c ∈ cs)
    (h : m = .mode ∨ valsOf f c = []) : impute m f cs = none := by
  unfold impute perCol
  apply mapM_none _ cs c hc
  split
  · rcases h with rfl | h
    · rfl
    · rw [h]
      cases m <;> rfl
  · rfl

example : impute .mode exT ["x"] = none ∧ valsOf (⟨[("x", .num)], [fun _ => none]⟩ : Frame (Cell ℚ) Ty) "x" = [] ∧
    (impute .mean exT ["x"]).isSome = true := ⟨impute_fails _ _ _ "x" (by simp) (.inl rfl), rfl, by decide +kernel⟩

theorem vle_num (a b : K) : vle (Val.num a) (Val.num b) = decide (a ≤ b) := rfl

theorem sort_num (xs : List K) : (xs.map Val.num).insertionSort (fun a b => vle a b = true) =
    (xs.insertionSort (· ≤ ·)).map Val.num := by
  induction xs with
  | nil => rfl
  | cons x t ih =>
    rw [List.map_cons, List.insertionSort_cons, ih, List.insertionSort_cons]
    generalize t.insertionSort (· ≤ ·) = s
    induction s with
    | nil => rfl
    | cons y s ih2 =>
      rw [List.map_cons]
      by_cases hxy : x ≤ y
      · simp only [List.orderedInsert, vle_num, hxy, decide_true, if_true, List.map_cons]
      · simp only [List.orderedInsert, vle_num, hxy, decide_false, Bool.false_eq_true, if_false, List.map_cons, ih2]

/-- Median imputation fills with a value that has at most half of the known values below it and at most half
above. -/
theorem impute_median (f h h' : Frame (Cell K) Ty) (cs : List String) (es : List (Ex (Cell K) Ty)) (c : String)
    (xs ys : List (Option K)) (hc : c ∈ cs) (hx : IsCol f c xs) (hy : IsCol h c ys)
    (hfit : impute .median f cs = some es) (happ : withColumns es h = some h') :
    ∃ m : K, IsCol h' c (ys.map fun o => some (o.getD m)) ∧
      2 * (known xs).countP (fun x => decide (x < m)) ≤ (known xs).length ∧
      2 * (known xs).countP (fun x => decide (m < x)) ≤ (known xs).length := by
  obtain ⟨p, hp, hcol⟩ := perCol_apply _ _ f h h' cs es hfit happ c hc
  rw [valsOf_col f c xs hx] at hp
  have hp : medianOf ((known xs).map Val.num) = some p := hp
  unfold medianOf at hp
  rw [sort_num] at hp
  set s := (known xs).insertionSort (· ≤ ·) with hs
  have hperm : s.Perm (known xs) := List.perm_insertionSort _ _
  have hsort : s.Pairwise (· ≤ ·) := List.pairwise_insertionSort _ _
  simp only [List.isEmpty_map, List.length_map] at hp
  -- counting in a sorted list
  have hlow : ∀ (m : K) (i : ℕ), (∀ j (hj : j < s.length), i ≤ j → m ≤ s[j]) →
      s.countP (fun x => decide (x < m)) ≤ i := by
    intro m i hi
    have hz : (s.drop i).countP (fun x => decide (x < m)) = 0 := by
      rw [List.countP_eq_zero]
      intro x hx
      obtain ⟨j, hj, rfl⟩ := List.getElem_of_mem hx
      rw [List.getElem_drop]
      simp only [decide_eq_true_eq, not_lt]
      exact hi _ _ (by omega)
    have h1 := List.countP_append (p := fun x => decide (x < m)) (l₁ := s.take i) (l₂ := s.drop i)
    rw [List.take_append_drop, hz, add_zero] at h1
    rw [h1]
    exact le_trans List.countP_le_length (by rw [List.length_take]; exact min_le_left _ _)
  have hhigh : ∀ (m : K) (i : ℕ), (∀ j (hj : j < s.length), j < i → s[j] ≤ m) →
      s.countP (fun x => decide (m < x)) ≤ s.length - i := by
    intro m i hi
    have hz : (s.take i).countP (fun x => decide (m < x)) = 0 := by
      rw [List.countP_eq_zero]
      intro x hx
      obtain ⟨j, hj, rfl⟩ := List.getElem_of_mem hx
      rw [List.getElem_take]
      simp only [decide_eq_true_eq, not_lt]
      rw [List.length_take] at hj
      exact hi _ _ (by omega)
    have h1 := List.countP_append (p := fun x => decide (m < x)) (l₁ := s.take i) (l₂ := s.drop i)
    rw [List.take_append_drop, hz, zero_add] at h1
    rw [h1]
    exact le_trans List.countP_le_length (by rw [List.length_drop])
  have hmono : ∀ i j (hi : i < s.length) (hj : j < s.length), i ≤ j → s[i] ≤ s[j] := by
    intro i j hi hj hij
    rcases Nat.lt_or_ge i j with h | h
    · exact List.pairwise_iff_getElem.1 hsort i j hi hj h
    · have : i = j := by omega
      subst this; exact le_refl _
  have hfin : ∀ m : K, p = Val.num m → IsCol h' c (ys.map fun o => some (o.getD m)) := by
    intro m hm
    subst hm
    unfold IsCol
    rw [hcol, map_col h c ys hy fun o => (fillNull (Val.num m) o).map Cell.num, List.map_map]
    apply List.map_congr_left
    intro o _
    cases o <;> rfl
  split at hp
  · cases hp
  · rename_i hne
    have hpos : 0 < s.length := List.length_pos_iff.2 (by simpa using hne)
    split at hp
    · rename_i hodd
      have hlt : s.length / 2 < s.length := Nat.div_lt_self hpos (by omega)
      rw [List.getElem?_map, List.getElem?_eq_getElem hlt] at hp
      simp only [Option.map_some, Option.some.injEq] at hp
      refine ⟨s[s.length / 2], hfin _ hp.symm, ?_, ?_⟩
      · rw [← hperm.countP_eq, ← hperm.length_eq]
        have := hlow s[s.length / 2] (s.length / 2) fun j hj hij => hmono _ _ hlt hj hij
        omega
      · rw [← hperm.countP_eq, ← hperm.length_eq]
        have := hhigh s[s.length / 2] (s.length / 2 + 1) fun j hj hij => hmono _ _ hj hlt (by omega)
        omega
    · rename_i heven
      have hlt : s.length / 2 < s.length := Nat.div_lt_self hpos (by omega)
      have hlt' : s.length / 2 - 1 < s.length := by omega
      rw [List.getElem?_map, List.getElem?_map, List.getElem?_eq_getElem hlt', List.getElem?_eq_getElem hlt] at hp
      simp only [Option.map_some, op2, vadd, Val.fdiv, Option.some.injEq] at hp
      rw [if_neg (by norm_num)] at hp
      have hle := hmono _ _ hlt' hlt (by omega)
      have h2 : (0 : K) < 2 := by norm_num
      refine ⟨(s[s.length / 2 - 1] + s[s.length / 2]) / 2, hfin _ hp.symm, ?_, ?_⟩
      · rw [← hperm.countP_eq, ← hperm.length_eq]
        have := hlow ((s[s.length / 2 - 1] + s[s.length / 2]) / 2) (s.length / 2) fun j hj hij => by
          rw [div_le_iff₀ h2]
          have := hmono _ _ hlt hj hij
          linarith
        omega
      · rw [← hperm.countP_eq, ← hperm.length_eq]
        have := hhigh ((s[s.length / 2 - 1] + s[s.length / 2]) / 2) (s.length / 2) fun j hj hij => by
          rw [le_div_iff₀ h2]
          have := hmono _ _ hj hlt' (by omega)
          linarith
        omega

example : run (impute .median exT ["x"]) exN "x" = some [q 3, q 12] := by decide +kernel

/-- Conditional imputation: where the rule is true the cell becomes the mean of the known values for which the rule
is false, all other cells stay, null cells included. -/
theorem conditional_impute_mean (c : String) (needs : List String) (rule : (String → Option (Cell K)) → Option Bool)
    (f h h' : Frame (Cell K) Ty) (es : List (Ex (Cell K) Ty)) (xs : List (Option K)) (hx : IsCol f c xs)
    (hne : known (((f.rows.map rule).zip xs).filterMap fun p => if p.1 = some false then some p.2 else none) ≠ [])
    (hfit : conditionalImpute .mean c needs rule f = some es) (happ : withColumns es h = some h') :
    h'.col c = h.rows.map fun r => if rule r = some true then
      some (.num (.num (mean (((f.rows.map rule).zip xs).filterMap fun p => if p.1 = some false then some p.2 else none))))
      else r c := by
  unfold conditionalImpute at hfit
  split at hfit
  case isFalse => cases hfit
  case isTrue hty =>
    simp only [Option.some.injEq] at hfit
    have hlist : ((f.rows.filter fun r => rule r = some false).filterMap fun r => (r c).bind Cell.val?) =
        (known (((f.rows.map rule).zip xs).filterMap fun p => if p.1 = some false then some p.2 else none)).map Val.num := by
      clear hne hfit happ hty
      unfold IsCol Frame.col at hx
      generalize f.rows = rows at hx ⊢
      induction rows generalizing xs with
      | nil => simp [known]
      | cons r t ih =>
        cases xs with
        | nil => simp at hx
        | cons x xs =>
          simp only [List.map_cons, List.cons.injEq] at hx
          have := ih xs hx.2
          rw [List.map_cons, List.zip_cons_cons, List.filter_cons]
          by_cases hr : rule r = some false
          · rw [if_pos (by simpa using hr), List.filterMap_cons, hx.1, List.filterMap_cons]
            simp only [hr, if_true]
            cases x with
            | none => simpa [known] using this
            | some x => simpa [known, Cell.val?] using this
          · rw [if_neg (by simpa using hr), List.filterMap_cons]
            simp only [hr, if_false]
            exact this
    subst hfit
    refine (withColumns_col happ _ (List.mem_singleton.2 rfl) _ fun _ => rfl).trans ?_
    apply List.map_congr_left
    intro r _
    split
    · rw [hlist]
      show (meanOf _).map _ = _
      rw [meanOf_num _ hne]
      rfl
    · rfl

/-- Values above 5 are replaced by the mean of the others; null is neither. -/
example : run (conditionalImpute .mean "x" [] (fun r => match r "x" with
    | some (.num (.num v)) => some (decide (v > 5))
    | _ => none) exT) exT "x" = some [q 1, none, q 3, q 2] := by decide +kernel

/-! ## Centering and scaling -/

theorem known_map (xs : List (Option K)) (g : K → K) : known (xs.map fun o => o.map g) = (known xs).map g := by
  unfold known
  rw [List.filterMap_map, List.map_filterMap]
  apply List.filterMap_congr
  intro o _
  cases o <;> rfl

theorem sum_sub_mean (l : List K) (h : l ≠ []) : (l.map fun x => x - l.sum / (l.length : K)).sum = 0 := by
  have : ∀ (l : List K) (m : K), (l.map fun x => x - m).sum = l.sum - (l.length : K) * m := by
    intro l m
    induction l with
    | nil => simp
    | cons a t ih => simp [ih]; ring
  rw [this, mul_div_cancel₀ _ (len_ne l h), sub_self]

/-- Centering subtracts the mean learned on the training column. -/
theorem center_value (f h h' : Frame (Cell K) Ty) (cs : List String) (es : List (Ex (Cell K) Ty)) (c : String)
    (xs ys : List (Option K)) (hc : c ∈ cs) (hx : IsCol f c xs) (hy : IsCol h c ys) (hne : known xs ≠ [])
    (hfit : center f cs = some es) (happ : withColumns es h = some h') :
    IsCol h' c (ys.map fun o => o.map fun y => y - mean xs) := by
  obtain ⟨p, hp, hcol⟩ := perCol_apply _ _ f h h' cs es hfit happ c hc
  rw [valsOf_col f c xs hx, meanOf_num _ hne] at hp
  cases hp
  unfold IsCol
  rw [hcol, map_col h c ys hy fun o => (op2 vsub o (some (Val.num ((known xs).sum / ((known xs).length : K))))).map Cell.num,
    List.map_map]
  apply List.map_congr_left
  intro o _
  cases o with
  | none => rfl
  | some y =>
    simp only [Option.map_some, op2, vsub, vneg, vadd, Function.comp_apply, ← sub_eq_add_neg]
    rfl

example : run (center exT ["x"]) exN "x" = some [none, q 8] := by decide +kernel

/-- The centered training column has mean 0. -/
theorem center_mean_zero (f f' : Frame (Cell K) Ty) (cs : List String) (es : List (Ex (Cell K) Ty)) (c : String)
    (xs : List (Option K)) (hc : c ∈ cs) (hx : IsCol f c xs) (hne : known xs ≠ [])
    (hfit : center f cs = some es) (happ : withColumns es f = some f') :
    ∃ zs, IsCol f' c zs ∧ mean zs = 0 ∧ zs.length = xs.length ∧ ∀ i : ℕ, zs[i]? = some none ↔ xs[i]? = some none := by
  refine ⟨_, center_value f f f' cs es c xs xs hc hx hx hne hfit happ, ?_, by simp, ?_⟩
  · unfold mean
    rw [known_map]
    have := sum_sub_mean (known xs) hne
    rw [this, zero_div]
  · intro i
    rw [List.getElem?_map]
    cases xs[i]? with
    | none => simp
    | some o => cases o <;> simp

example : known [some (1 : ℚ), none, some 3, some 8] ≠ [] ∧ run (center exT ["x"]) exT "x" = some [q (-3), none, q (-1), q 4] := by
  decide +kernel

/-- A training column without values makes the column null in every frame. -/
theorem center_null (f h h' : Frame (Cell K) Ty) (cs : List String) (es : List (Ex (Cell K) Ty)) (c : String)
    (hc : c ∈ cs) (hx : valsOf f c = []) (hfit : center f cs = some es) (happ : withColumns es h = some h') :
    h'.col c = h.rows.map fun _ => none := by
  obtain ⟨p, hp, hcol⟩ := perCol_apply _ _ f h h' cs es hfit happ c hc
  rw [hx] at hp
  cases hp
  rw [hcol]
  simp only [Frame.col, List.map_map]
  apply List.map_congr_left
  intro r _
  simp only [Function.comp_apply, meanOf_nil]
  cases (r c).bind Cell.val? <;> rfl

example : valsOf (⟨[("x", .num)], [fun _ => none]⟩ : Frame (Cell ℚ) Ty) "x" = [] ∧
    run (center ⟨[("x", .num)], [fun _ => none]⟩ ["x"]) exN "x" = some [none, none] := by decide +kernel

theorem popVar_nonneg (xs : List (Option K)) : 0 ≤ popVar xs := by
  unfold popVar
  apply div_nonneg
  · apply List.sum_nonneg
    intro x hx
    obtain ⟨y, _, rfl⟩ := List.mem_map.1 hx
    exact sq_nonneg _
  · exact Nat.cast_nonneg _

theorem stdOf_num (sqrt : K → K) (xs : List (Option K)) (hne : known xs ≠ []) :
    stdOf sqrt ((known xs).map Val.num) = some (.num (sqrt (popVar xs))) := by
  unfold stdOf
  rw [meanOf_num _ hne]
  simp only [Option.bind_some, List.map_map]
  have : ((fun v => vmul (vsub v (Val.num ((known xs).sum / ((known xs).length : K))))
      (vsub v (Val.num ((known xs).sum / ((known xs).length : K))))) ∘ Val.num) =
      Val.num ∘ fun x => (x - mean xs) ^ 2 := by
    funext x
    simp only [Function.comp_apply, vsub, vneg, vadd, vmul, mean]
    congr 1
    ring
  rw [this, ← List.map_map, meanOf_num _ (by simpa using hne)]
  simp only [Option.map_some, Val.fsqrt, List.length_map]
  rw [show ((known xs).map fun x => (x - mean xs) ^ 2).sum / ((known xs).length : K) = popVar xs from rfl,
    if_neg (not_lt.2 (popVar_nonneg xs))]

/-- Standard scaling subtracts the mean and divides by the standard deviation of the training column. -/
theorem scale_standard_value (sqrt : K → K) (hsqrt : ∀ x : K, 0 ≤ x → sqrt x * sqrt x = x) (f h h' : Frame (Cell K) Ty)
    (cs : List String) (es : List (Ex (Cell K) Ty)) (c : String) (xs ys : List (Option K)) (hc : c ∈ cs)
    (hx : IsCol f c xs) (hy : IsCol h c ys) (hne : known xs ≠ []) (hvar : popVar xs ≠ 0)
    (hfit : scaleStandard sqrt f cs = some es) (happ : withColumns es h = some h') :
    IsCol h' c (ys.map fun o => o.map fun y => (y - mean xs) / sqrt (popVar xs)) := by
  obtain ⟨p, hp, hcol⟩ := perCol_apply _ _ f h h' cs es hfit happ c hc
  rw [valsOf_col f c xs hx, meanOf_num _ hne, stdOf_num sqrt xs hne] at hp
  cases hp
  have hs : sqrt (popVar xs) ≠ 0 := by
    intro h0
    have := hsqrt _ (popVar_nonneg xs)
    rw [h0, mul_zero] at this
    exact hvar this.symm
  unfold IsCol
  rw [hcol, map_col h c ys hy fun o => (op2 Val.fdiv (op2 vsub o (some (Val.num ((known xs).sum / ((known xs).length : K)))))
    (some (Val.num (sqrt (popVar xs))))).map Cell.num, List.map_map]
  apply List.map_congr_left
  intro o _
  cases o with
  | none => rfl
  | some y =>
    simp only [Option.map_some, op2, vsub, vneg, vadd, Val.fdiv, Function.comp_apply, ← sub_eq_add_neg, hs, if_false]
    rfl

example : known [some (1 : ℚ), none, some 3, some 8] ≠ [] ∧
    run (scaleStandard (fun v => if v = 26 / 3 then 2 else 0) exT ["x"]) exT "x" = some [q (-3 / 2), none, q (-1 / 2), q 2] := by
  decide +kernel

/-- The scaled training column has mean 0 and population variance 1. -/
theorem scale_standard_moments (sqrt : K → K) (hsqrt : ∀ x : K, 0 ≤ x → sqrt x * sqrt x = x) (f f' : Frame (Cell K) Ty)
    (cs : List String) (es : List (Ex (Cell K) Ty)) (c : String) (xs : List (Option K)) (hc : c ∈ cs)
    (hx : IsCol f c xs) (hne : known xs ≠ []) (hvar : popVar xs ≠ 0)
    (hfit : scaleStandard sqrt f cs = some es) (happ : withColumns es f = some f') :
    ∃ zs, IsCol f' c zs ∧ mean zs = 0 ∧ popVar zs = 1 := by
  refine ⟨_, scale_standard_value sqrt hsqrt f f f' cs es c xs xs hc hx hx hne hvar hfit happ, ?_⟩
  have hm : mean (xs.map fun o => o.map fun y => (y - mean xs) / sqrt (popVar xs)) = 0 := by
    have h1 : mean (xs.map fun o => o.map fun y => (y - mean xs) / sqrt (popVar xs)) =
        ((known xs).map fun y => (y - mean xs) / sqrt (popVar xs)).sum / ((known xs).length : K) := by
      unfold mean
      rw [known_map, List.length_map]
    have h2 : ((known xs).map fun y => (y - mean xs) / sqrt (popVar xs)).sum =
        ((known xs).map fun y => y - mean xs).sum / sqrt (popVar xs) := by
      simp only [div_eq_mul_inv]
      rw [List.sum_map_mul_right]
    have h3 : ((known xs).map fun y => y - mean xs).sum = 0 := sum_sub_mean (known xs) hne
    rw [h1, h2, h3, zero_div, zero_div]
  refine ⟨hm, ?_⟩
  have hs := hsqrt _ (popVar_nonneg xs)
  have hdef : ∀ zs : List (Option K), popVar zs = ((known zs).map fun x => (x - mean zs) ^ 2).sum / ((known zs).length : K) :=
    fun _ => rfl
  have : ((fun x => (x - 0) ^ 2) ∘ fun y => (y - mean xs) / sqrt (popVar xs)) =
      fun y => (y - mean xs) ^ 2 * (popVar xs)⁻¹ := by
    funext y
    simp only [Function.comp_apply, sub_zero]
    rw [div_pow, pow_two (sqrt _), hs, div_eq_mul_inv]
  rw [hdef (xs.map _), hm, known_map, List.map_map, List.length_map, this, List.sum_map_mul_right, mul_div_right_comm]
  exact mul_inv_cancel₀ hvar

example : (∀ x : ℝ, 0 ≤ x → √x * √x = x) ∧ popVar [some (1 : ℝ), none, some 3] ≠ 0 ∧ known [some (1 : ℝ), none, some 3] ≠ [] := by
  refine ⟨fun x hx => Real.mul_self_sqrt hx, ?_, by simp [known]⟩
  norm_num [popVar, mean, known, List.filterMap_cons]

/-- The mean is 4, the population variance 26/3 (any value stands in for its root here). -/
example : popVar [some (1 : ℚ), none, some 3, some 8] = 26 / 3 ∧
    run (scaleStandard (fun v => if v = 26 / 3 then 2 else 0) exT ["x"]) exN "x" = some [none, q 4] := by decide +kernel

/-- A constant training column becomes NaN. -/
theorem scale_standard_constant (sqrt : K → K) (hsqrt : ∀ x : K, 0 ≤ x → sqrt x * sqrt x = x) (f f' : Frame (Cell K) Ty)
    (cs : List String) (es : List (Ex (Cell K) Ty)) (c : String) (xs : List (Option K)) (v : K) (hc : c ∈ cs)
    (hx : IsCol f c xs) (hne : known xs ≠ []) (hcon : ∀ x ∈ known xs, x = v)
    (hfit : scaleStandard sqrt f cs = some es) (happ : withColumns es f = some f') :
    f'.col c = xs.map fun o => o.map fun _ => .num .nan := by
  obtain ⟨p, hp, hcol⟩ := perCol_apply _ _ f f f' cs es hfit happ c hc
  rw [valsOf_col f c xs hx, meanOf_num _ hne, stdOf_num sqrt xs hne] at hp
  cases hp
  have hrep : known xs = List.replicate (known xs).length v := List.eq_replicate_iff.2 ⟨rfl, hcon⟩
  have hmean : (known xs).sum / ((known xs).length : K) = v := by
    have : (known xs).sum = ((known xs).length : K) * v := by
      conv_lhs => rw [hrep, List.sum_replicate, nsmul_eq_mul]
    rw [this, mul_div_cancel_left₀ _ (len_ne _ hne)]
  have hvar : popVar xs = 0 := by
    unfold popVar
    have : ((known xs).map fun x => (x - mean xs) ^ 2).sum = 0 := by
      apply List.sum_eq_zero
      intro y hy
      obtain ⟨x, hx', rfl⟩ := List.mem_map.1 hy
      rw [hcon x hx', show mean xs = v from hmean, sub_self]
      ring
    rw [this, zero_div]
  have hs : sqrt (popVar xs) = 0 := by
    have := hsqrt _ (popVar_nonneg xs)
    rw [hvar] at this ⊢
    exact mul_self_eq_zero.1 this
  rw [hcol, map_col f c xs hx fun o => (op2 Val.fdiv (op2 vsub o (some (Val.num ((known xs).sum / ((known xs).length : K)))))
    (some (Val.num (sqrt (popVar xs))))).map Cell.num]
  apply List.map_congr_left
  intro o ho
  cases o with
  | none => rfl
  | some y =>
    have : y = v := hcon y (List.mem_filterMap.2 ⟨some y, ho, rfl⟩)
    simp only [Option.map_some, op2, vsub, vneg, vadd, Val.fdiv, hs, hmean, this, if_true, add_neg_cancel]

example : run (scaleStandard (fun v => v) ⟨[("x", .num)], [fun _ => q 7, fun _ => none, fun _ => q 7]⟩ ["x"])
    ⟨[("x", .num)], [fun _ => q 7, fun _ => none, fun _ => q 7]⟩ "x" =
    some [some (.num .nan), none, some (.num .nan)] := by decide +kernel

theorem filter_num (xs : List K) : (xs.map Val.num).filter (fun v => decide (v ≠ .nan)) = xs.map Val.num := by
  rw [List.filter_eq_self]
  intro v hv
  obtain ⟨x, _, rfl⟩ := List.mem_map.1 hv
  simp

theorem foldl_min (t : List K) (x : K) :
    (t.map Val.num).foldl (fun a b => if vle a b then a else b) (Val.num x) = .num (t.foldl min x) := by
  induction t generalizing x with
  | nil => rfl
  | cons y t ih =>
    rw [List.map_cons, List.foldl_cons, List.foldl_cons, vle_num]
    by_cases h : x ≤ y
    · rw [if_pos (by simpa using h), min_eq_left h, ih]
    · rw [if_neg (by simpa using h), min_eq_right (le_of_not_ge h), ih]

theorem foldl_max (t : List K) (x : K) :
    (t.map Val.num).foldl (fun a b => if vle a b then b else a) (Val.num x) = .num (t.foldl max x) := by
  induction t generalizing x with
  | nil => rfl
  | cons y t ih =>
    rw [List.map_cons, List.foldl_cons, List.foldl_cons, vle_num]
    by_cases h : x ≤ y
    · rw [if_pos (by simpa using h), max_eq_right h, ih]
    · rw [if_neg (by simpa using h), max_eq_left (le_of_not_ge h), ih]

theorem foldl_min_spec (t : List K) (x : K) : t.foldl min x ∈ x :: t ∧ ∀ y ∈ x :: t, t.foldl min x ≤ y := by
  induction t generalizing x with
  | nil => simp
  | cons a t ih =>
    obtain ⟨h1, h2⟩ := ih (min x a)
    rw [List.foldl_cons]
    refine ⟨?_, ?_⟩
    · rcases List.mem_cons.1 h1 with h | h
      · rw [h]
        rcases min_choice x a with hm | hm <;> rw [hm] <;> simp
      · exact List.mem_cons.2 (.inr (List.mem_cons.2 (.inr h)))
    · intro y hy
      have h0 := h2 (min x a) (by simp)
      rcases List.mem_cons.1 hy with rfl | hy
      · exact le_trans h0 (min_le_left _ _)
      · rcases List.mem_cons.1 hy with rfl | hy
        · exact le_trans h0 (min_le_right _ _)
        · exact h2 y (by simp [hy])

theorem foldl_max_spec (t : List K) (x : K) : t.foldl max x ∈ x :: t ∧ ∀ y ∈ x :: t, y ≤ t.foldl max x := by
  induction t generalizing x with
  | nil => simp
  | cons a t ih =>
    obtain ⟨h1, h2⟩ := ih (max x a)
    rw [List.foldl_cons]
    refine ⟨?_, ?_⟩
    · rcases List.mem_cons.1 h1 with h | h
      · rw [h]
        rcases max_choice x a with hm | hm <;> rw [hm] <;> simp
      · exact List.mem_cons.2 (.inr (List.mem_cons.2 (.inr h)))
    · intro y hy
      have h0 := h2 (max x a) (by simp)
      rcases List.mem_cons.1 hy with rfl | hy
      · exact le_trans (le_max_left _ _) h0
      · rcases List.mem_cons.1 hy with rfl | hy
        · exact le_trans (le_max_right _ _) h0
        · exact h2 y (by simp [hy])

theorem minOf_num (l : List K) (m : K) (hm : m ∈ l) (hle : ∀ x ∈ l, m ≤ x) : minOf (l.map Val.num) = some (.num m) := by
  unfold minOf
  rw [filter_num]
  cases l with
  | nil => cases hm
  | cons x t =>
    simp only [List.map_cons]
    rw [foldl_min]
    obtain ⟨h1, h2⟩ := foldl_min_spec t x
    rw [le_antisymm (h2 m hm) (hle _ h1)]

theorem maxOf_num (l : List K) (m : K) (hm : m ∈ l) (hle : ∀ x ∈ l, x ≤ m) : maxOf (l.map Val.num) = some (.num m) := by
  unfold maxOf
  rw [filter_num]
  cases l with
  | nil => cases hm
  | cons x t =>
    simp only [List.map_cons]
    rw [foldl_max]
    obtain ⟨h1, h2⟩ := foldl_max_spec t x
    rw [le_antisymm (hle _ h1) (h2 m hm)]

theorem between_num (lo hi y : K) (h : lo < hi) :
    between (.num lo, .num hi) (some (.num y)) = some (.num ((y - lo) / (hi - lo))) := by
  have : hi + -lo ≠ 0 := by
    rw [← sub_eq_add_neg]
    exact sub_ne_zero.2 h.ne'
  simp only [between, op2, vsub, vneg, vadd, Val.fdiv, this, if_false, sub_eq_add_neg]

/-- Min-max scaling maps the smallest training value to 0 and the largest to 1, linearly. -/
theorem scale_min_max_value (f h h' : Frame (Cell K) Ty) (cs : List String) (es : List (Ex (Cell K) Ty)) (c : String)
    (xs ys : List (Option K)) (lo hi : K) (hc : c ∈ cs) (hx : IsCol f c xs) (hy : IsCol h c ys)
    (hlo : lo ∈ known xs ∧ ∀ x ∈ known xs, lo ≤ x) (hhi : hi ∈ known xs ∧ ∀ x ∈ known xs, x ≤ hi) (hlt : lo < hi)
    (hfit : scaleMinMax f cs = some es) (happ : withColumns es h = some h') :
    IsCol h' c (ys.map fun o => o.map fun y => (y - lo) / (hi - lo)) := by
  obtain ⟨p, hp, hcol⟩ := perCol_apply _ _ f h h' cs es hfit happ c hc
  rw [valsOf_col f c xs hx, minOf_num _ lo hlo.1 hlo.2, maxOf_num _ hi hhi.1 hhi.2] at hp
  cases hp
  unfold IsCol
  rw [hcol, map_col h c ys hy fun o => (between (Val.num lo, Val.num hi) o).map Cell.num, List.map_map]
  apply List.map_congr_left
  intro o _
  cases o with
  | none => rfl
  | some y =>
    simp only [Option.map_some, between_num lo hi y hlt, Function.comp_apply]

example : IsCol exN "x" [none, some 12] ∧ run (scaleMinMax exT ["x"]) exN "x" = some [none, q (11 / 7)] :=
  ⟨exN_col, by decide +kernel⟩

/-- The scaled training column lies in [0, 1] and reaches both ends. -/
theorem scale_min_max_range (f f' : Frame (Cell K) Ty) (cs : List String) (es : List (Ex (Cell K) Ty)) (c : String)
    (xs : List (Option K)) (lo hi : K) (hc : c ∈ cs) (hx : IsCol f c xs)
    (hlo : lo ∈ known xs ∧ ∀ x ∈ known xs, lo ≤ x) (hhi : hi ∈ known xs ∧ ∀ x ∈ known xs, x ≤ hi) (hlt : lo < hi)
    (hfit : scaleMinMax f cs = some es) (happ : withColumns es f = some f') :
    ∃ zs, IsCol f' c zs ∧ (∀ z ∈ known zs, 0 ≤ z ∧ z ≤ 1) ∧ 0 ∈ known zs ∧ 1 ∈ known zs := by
  refine ⟨_, scale_min_max_value f f f' cs es c xs xs lo hi hc hx hx hlo hhi hlt hfit happ, ?_, ?_, ?_⟩
  · intro z hz
    rw [known_map] at hz
    obtain ⟨x, hx', rfl⟩ := List.mem_map.1 hz
    have h1 := hlo.2 x hx'
    have h2 := hhi.2 x hx'
    have h3 : 0 < hi - lo := sub_pos.2 hlt
    exact ⟨div_nonneg (by linarith) h3.le, (div_le_one h3).2 (by linarith)⟩
  · rw [known_map]
    exact List.mem_map.2 ⟨lo, hlo.1, by rw [sub_self, zero_div]⟩
  · rw [known_map]
    exact List.mem_map.2 ⟨hi, hhi.1, div_self (sub_ne_zero.2 hlt.ne')⟩

example : run (scaleMinMax exT ["x"]) exT "x" = some [q 0, none, q (2 / 7), q 1] ∧
    run (scaleMinMax exT ["x"]) exN "x" = some [none, q (11 / 7)] := by decide +kernel

/-- A constant training column becomes NaN (as the comment in the code says). -/
theorem scale_min_max_constant (f f' : Frame (Cell K) Ty) (cs : List String) (es : List (Ex (Cell K) Ty)) (c : String)
    (xs : List (Option K)) (v : K) (hc : c ∈ cs) (hx : IsCol f c xs) (hv : v ∈ known xs) (hcon : ∀ x ∈ known xs, x = v)
    (hfit : scaleMinMax f cs = some es) (happ : withColumns es f = some f') :
    f'.col c = xs.map fun o => o.map fun _ => .num .nan := by
  obtain ⟨p, hp, hcol⟩ := perCol_apply _ _ f f f' cs es hfit happ c hc
  rw [valsOf_col f c xs hx, minOf_num _ v hv fun x h => (hcon x h).ge, maxOf_num _ v hv fun x h => (hcon x h).le] at hp
  cases hp
  rw [hcol, map_col f c xs hx fun o => (between (Val.num v, Val.num v) o).map Cell.num]
  apply List.map_congr_left
  intro o ho
  cases o with
  | none => rfl
  | some y =>
    have : y = v := hcon y (List.mem_filterMap.2 ⟨some y, ho, rfl⟩)
    simp only [Option.map_some, between, op2, vsub, vneg, vadd, Val.fdiv, this, if_true, add_neg_cancel]

example : run (scaleMinMax ⟨[("x", .num)], [fun _ => q 7, fun _ => none]⟩ ["x"])
    ⟨[("x", .num)], [fun _ => q 7, fun _ => none]⟩ "x" = some [some (.num .nan), none] := by decide +kernel

/-- Scaling by the largest absolute value. -/
theorem scale_abs_max_value (f h h' : Frame (Cell K) Ty) (cs : List String) (es : List (Ex (Cell K) Ty)) (c : String)
    (xs ys : List (Option K)) (M : K) (hc : c ∈ cs) (hx : IsCol f c xs) (hy : IsCol h c ys)
    (hM : (∃ x ∈ known xs, |x| = M) ∧ ∀ x ∈ known xs, |x| ≤ M) (hpos : M ≠ 0)
    (hfit : scaleAbsMax f cs = some es) (happ : withColumns es h = some h') :
    IsCol h' c (ys.map fun o => o.map fun y => y / M) := by
  obtain ⟨p, hp, hcol⟩ := perCol_apply _ _ f h h' cs es hfit happ c hc
  rw [valsOf_col f c xs hx] at hp
  have hlearn : maxOf (([minOf ((known xs).map Val.num), maxOf ((known xs).map Val.num)].filterMap id).map vabs) =
      some (.num M) := by
    obtain ⟨⟨x0, hx0, hxM⟩, hle⟩ := hM
    cases hk : known xs with
    | nil => rw [hk] at hx0; cases hx0
    | cons x t =>
      obtain ⟨a1, a2⟩ := foldl_min_spec t x
      obtain ⟨b1, b2⟩ := foldl_max_spec t x
      rw [hk] at hx0 hle
      rw [minOf_num (x :: t) _ a1 a2, maxOf_num (x :: t) _ b1 b2]
      show maxOf ([|t.foldl min x|, |t.foldl max x|].map Val.num) = _
      apply maxOf_num
      · have h1 := hle _ a1
        have h2 := hle _ b1
        rcases le_total 0 x0 with h0 | h0
        · have : |t.foldl max x| = M := by
            apply le_antisymm h2
            rw [← hxM, abs_of_nonneg h0]
            exact le_trans (b2 x0 hx0) (le_abs_self _)
          simp [this]
        · have : |t.foldl min x| = M := by
            apply le_antisymm h1
            rw [← hxM, abs_of_nonpos h0]
            exact le_trans (neg_le_neg (a2 x0 hx0)) (neg_le_abs _)
          simp [this]
      · intro y hy'
        simp only [List.mem_cons, List.not_mem_nil, or_false] at hy'
        rcases hy' with rfl | rfl
        · exact hle _ a1
        · exact hle _ b1
  rw [hlearn] at hp
  cases hp
  unfold IsCol
  rw [hcol, map_col h c ys hy fun o => (op2 Val.fdiv o (some (Val.num M))).map Cell.num, List.map_map]
  apply List.map_congr_left
  intro o _
  cases o with
  | none => rfl
  | some y => simp only [Option.map_some, op2, Val.fdiv, hpos, if_false, Function.comp_apply]

example : IsCol exN "x" [none, some 12] ∧ run (scaleAbsMax exT ["x"]) exN "x" = some [none, q (3 / 2)] :=
  ⟨exN_col, by decide +kernel⟩

/-- The scaled training column lies in [-1, 1], reaches 1 or -1 and keeps every sign. -/
theorem scale_abs_max_range (f f' : Frame (Cell K) Ty) (cs : List String) (es : List (Ex (Cell K) Ty)) (c : String)
    (xs : List (Option K)) (M : K) (hc : c ∈ cs) (hx : IsCol f c xs)
    (hM : (∃ x ∈ known xs, |x| = M) ∧ ∀ x ∈ known xs, |x| ≤ M) (hpos : M ≠ 0)
    (hfit : scaleAbsMax f cs = some es) (happ : withColumns es f = some f') :
    ∃ zs, IsCol f' c zs ∧ (∀ z ∈ known zs, |z| ≤ 1) ∧ (∃ z ∈ known zs, |z| = 1) ∧
      known zs = (known xs).map (· / M) ∧ 0 < M := by
  have hM0 : 0 < M := by
    obtain ⟨⟨x, _, rfl⟩, _⟩ := hM
    exact lt_of_le_of_ne (abs_nonneg x) hpos.symm
  refine ⟨_, scale_abs_max_value f f f' cs es c xs xs M hc hx hx hM hpos hfit happ, ?_, ?_, known_map _ _, hM0⟩
  · intro z hz
    rw [known_map] at hz
    obtain ⟨x, hx', rfl⟩ := List.mem_map.1 hz
    rw [abs_div, abs_of_pos hM0]
    exact (div_le_one hM0).2 (hM.2 x hx')
  · obtain ⟨⟨x, hx', he⟩, _⟩ := hM
    refine ⟨x / M, ?_, ?_⟩
    · rw [known_map]
      exact List.mem_map.2 ⟨x, hx', rfl⟩
    · rw [abs_div, abs_of_pos hM0, he, div_self hpos]

example : run (scaleAbsMax exT ["x"]) exT "x" = some [q (1 / 8), none, q (3 / 8), q 1] := by decide +kernel

/-! ## Quantiles -/

/-- Both quantile transforms accept exactly `0 ≤ q_low < q_high ≤ 1`. -/
theorem quantiles_checked (ql qh : K) : badQuantiles ql qh = false ↔ 0 ≤ ql ∧ ql < qh ∧ qh ≤ 1 := by
  unfold badQuantiles
  simp only [Bool.or_eq_false_iff, decide_eq_false_iff_not, not_lt, ge_iff_le, gt_iff_lt, not_le]
  constructor
  · rintro ⟨⟨⟨⟨h1, h2⟩, h3⟩, h4⟩, h5⟩
    exact ⟨h2, h5, h3⟩
  · rintro ⟨h1, h2, h3⟩
    exact ⟨⟨⟨⟨le_trans h2.le h3, h1⟩, h3⟩, le_trans h1 h2.le⟩, h2⟩

example : badQuantiles (1 / 4 : ℚ) (3 / 4) = false ∧ badQuantiles (3 / 4 : ℚ) (1 / 4) = true ∧
    badQuantiles (1 / 4 : ℚ) (5 / 4) = true := by decide +kernel

/-- Robust scaling maps the two learned quantiles to 0 and 1, linearly. -/
theorem robust_scale_value (quant : K → List (Val K) → Option (Val K)) (ql qh : K) (f h h' : Frame (Cell K) Ty)
    (cs : List String) (es : List (Ex (Cell K) Ty)) (c : String) (ys : List (Option K)) (lo hi : K) (hc : c ∈ cs)
    (hy : IsCol h c ys) (hlo : quant ql (valsOf f c) = some (.num lo)) (hhi : quant qh (valsOf f c) = some (.num hi))
    (hlt : lo < hi) (hfit : robustScale quant ql qh f cs = some es) (happ : withColumns es h = some h') :
    IsCol h' c (ys.map fun o => o.map fun y => (y - lo) / (hi - lo)) := by
  unfold robustScale at hfit
  split at hfit
  case isTrue => cases hfit
  case isFalse =>
    obtain ⟨p, hp, hcol⟩ := perCol_apply _ _ f h h' cs es hfit happ c hc
    rw [hlo, hhi] at hp
    cases hp
    unfold IsCol
    rw [hcol, map_col h c ys hy fun o => (between (Val.num lo, Val.num hi) o).map Cell.num, List.map_map]
    apply List.map_congr_left
    intro o _
    cases o with
    | none => rfl
    | some y => simp only [Option.map_some, between_num lo hi y hlt, Function.comp_apply]

example : run (robustScale (fun p vs => if p < 1 / 2 then minOf vs else maxOf vs) (1 / 4) (3 / 4) exT ["x"]) exN "x" =
    some [none, q (11 / 7)] := by decide +kernel

/-- Winsorizing moves each value to the nearest point of the interval between the two learned quantiles; null stays
null. -/
theorem winsorize_value (quant : K → List (Val K) → Option (Val K)) (ql qh : K) (f h h' : Frame (Cell K) Ty)
    (cs : List String) (es : List (Ex (Cell K) Ty)) (c : String) (ys : List (Option K)) (lo hi : K) (hc : c ∈ cs)
    (hy : IsCol h c ys) (hlo : quant ql (valsOf f c) = some (.num lo)) (hhi : quant qh (valsOf f c) = some (.num hi))
    (hle : lo ≤ hi) (hfit : winsorize quant ql qh f cs = some es) (happ : withColumns es h = some h') :
    ∃ g : K → K, IsCol h' c (ys.map fun o => o.map g) ∧
      (∀ y, lo ≤ g y ∧ g y ≤ hi) ∧ (∀ y, lo ≤ y → y ≤ hi → g y = y) ∧ (∀ y, y < lo → g y = lo) ∧ ∀ y, hi < y → g y = hi := by
  unfold winsorize at hfit
  split at hfit
  case isTrue => cases hfit
  case isFalse =>
    obtain ⟨p, hp, hcol⟩ := perCol_apply _ _ f h h' cs es hfit happ c hc
    rw [hlo, hhi] at hp
    cases hp
    refine ⟨fun y => min (max y lo) hi, ?_, ?_, ?_, ?_, ?_⟩
    · unfold IsCol
      rw [hcol, map_col h c ys hy fun o => (clip (some (Val.num lo)) (some (Val.num hi)) o).map Cell.num, List.map_map]
      apply List.map_congr_left
      intro o _
      cases o with
      | none => rfl
      | some y =>
        simp only [Option.map_some, clip, reduceCtorEq, if_false, vle_num, decide_eq_true_eq, Function.comp_apply]
        by_cases h1 : lo ≤ y
        · rw [if_pos h1, max_eq_left h1, vle_num]
          by_cases h2 : y ≤ hi
          · rw [if_pos (by simpa using h2), min_eq_left h2]
          · rw [if_neg (by simpa using h2), min_eq_right (le_of_not_ge h2)]
        · rw [if_neg h1, max_eq_right (le_of_not_ge h1), vle_num, if_pos (by simpa using hle), min_eq_left hle]
    · intro y
      exact ⟨le_min (le_max_right _ _) hle, min_le_right _ _⟩
    · intro y h1 h2
      simp only [max_eq_left h1, min_eq_left h2]
    · intro y h1
      simp only [max_eq_right h1.le, min_eq_left hle]
    · intro y h1
      simp only [max_eq_left (le_trans hle h1.le), min_eq_right h1.le]

example : run (winsorize (fun p vs => if p < 1 / 2 then minOf vs else maxOf vs) (1 / 4) (3 / 4) exT ["x"]) exN "x" =
    some [none, q 8] := by decide +kernel

end Verif.Transforms
