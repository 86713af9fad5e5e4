import Verif.Model.Compat
import Mathlib.Tactic.Ring
import Mathlib.Tactic.FinCases
import Std.Data.String.ToNat
import Mathlib.Tactic.Linarith
import Mathlib.Tactic.NormNum

/-!
# C165: the compatibility layer

`compat.f(array, …)` against `frame.select(f("column", …))`.
-/

namespace Verif.Compat
open Verif.Pl
open Verif.Confusion (Val)

namespace Spec

/-- The parts of an expression. -/
inductive Part {V O : Type} : Tmpl V O → Tmpl V O → Prop
  | self (t : Tmpl V O) : Part t t
  | arg {s : Tmpl V O} {o : O} {n : ℕ} {args : Fin n → Tmpl V O} (i : Fin n) : Part s (args i) → Part s (.app o n args)

/-- The expression uses only its arguments and literals: no column by name. -/
def NoCol {V O : Type} (t : Tmpl V O) : Prop := ∀ n, ¬ Part (.col n) t

/-- The expression does not ask for the number of rows of the frame. -/
def NoLen {V O : Type} (t : Tmpl V O) : Prop := ¬ Part .len t

/-- How a user with a frame writes the same call: the column instead of the array. -/
def inFrame {V P : Type} (x : Arg V P) (name : String) : Seen V P :=
  match x with
  | .ndarray _ => .colExpr name
  | .hasArray _ => .colExpr name
  | .series s => .colExpr s.name
  | .colExpr n => .colExpr n
  | .plain p => .plain p

/-- The frame has the array under its name. -/
def Holds {V P : Type} (F : Frame V) (x : Arg V P) (name : String) : Prop :=
  match x with
  | .ndarray v => F.get name = .ok ⟨name, v⟩
  | .hasArray v => F.get name = .ok ⟨name, v⟩
  | .series s => F.get s.name = .ok s
  | .colExpr _ => False
  | .plain _ => True

end Spec

variable {V O P : Type} {ofNat : ℕ → V} {sem : O → List (Ser V) → Except String (Ser V)}

/-! ## Evaluation -/

theorem eval_congr (F G : Frame V) (σ τ : ℕ ⊕ String → Option (Seen V P)) (hσ : ∀ k t, (match σ k with
        | some (.litExpr s) => Except.ok s
        | some (.colExpr n) => F.get n
        | _ => .error "ValueError") = t → (match τ k with
        | some (.litExpr s) => Except.ok s
        | some (.colExpr n) => G.get n
        | _ => .error "ValueError") = t)
    (t : Tmpl V O) (hc : ∀ n, Spec.Part (.col n) t → F.get n = G.get n) (hl : Spec.Part .len t → F.height = G.height) :
    eval ofNat sem F σ t = eval ofNat sem G τ t := by
  induction t with
  | slot k => exact (hσ k _ rfl).symm
  | col n => exact hc n (.self _)
  | lit s => rfl
  | len => simp only [eval]; rw [hl (.self _)]
  | app o n args ih =>
    simp only [eval]
    have : (fun i : Fin n => eval ofNat sem F σ (args i)) = fun i => eval ofNat sem G τ (args i) :=
      funext fun i => ih i (fun m h => hc m (.arg i h)) (fun h => hl (.arg i h))
    rw [this]

theorem mapM_error {α ε : Type} {l : List (Except ε α)} {e : ε} (h : .error e ∈ l) : ∃ e', l.mapM id = .error e' := by
  induction l with
  | nil => simp at h
  | cons a l ih =>
    cases a with
    | error e' => exact ⟨e', rfl⟩
    | ok a =>
      obtain ⟨e', h'⟩ := ih (by simpa using h)
      exact ⟨e', by rw [List.mapM_cons, h']; rfl⟩

theorem eval_part_error (F : Frame V) (σ : ℕ ⊕ String → Option (Seen V P)) {s t : Tmpl V O} (h : Spec.Part s t) {e : String}
    (hs : eval ofNat sem F σ s = .error e) : ∃ e', eval ofNat sem F σ t = .error e' := by
  induction h with
  | self => exact ⟨e, hs⟩
  | @arg o n args i _ ih =>
    obtain ⟨e', h'⟩ := ih
    simp only [eval]
    have hm : Except.error e' ∈ List.ofFn fun i : Fin n => eval ofNat sem F σ (args i) := by
      rw [List.mem_ofFn]
      exact ⟨i, h'⟩
    obtain ⟨e'', h''⟩ := mapM_error hm
    exact ⟨e'', by rw [h'']; rfl⟩

/-! ## The call -/

theorem map_mapIdx {α β γ : Type} (f : ℕ → α → β) (g : β → γ) (l : List α) :
    (l.mapIdx f).map g = l.mapIdx fun i x => g (f i x) :=
  List.ext_getElem (by simp) fun i _ _ => by simp

theorem shapes (args : List (Arg V P)) :
    (args.mapIdx fun i x => tryIntoSeries x (Nat.repr i)).map Seen.shape =
      (args.mapIdx fun i x => Spec.inFrame x (Nat.repr i)).map Seen.shape := by
  rw [map_mapIdx, map_mapIdx]
  congr 1
  funext i x
  cases x <;> rfl

theorem kw_shapes (kwargs : List (String × Arg V P)) :
    (kwargs.map fun p => (p.1, tryIntoSeries p.2 p.1)).map (fun p => (p.1, p.2.shape)) =
      (kwargs.map fun p => (p.1, Spec.inFrame p.2 p.1)).map fun p => (p.1, p.2.shape) := by
  rw [List.map_map, List.map_map]
  apply List.map_congr_left
  rintro ⟨n, x⟩ _
  cases x <;> rfl

theorem find_kw (f : Arg V P → String → Seen V P) (kwargs : List (String × Arg V P)) (k : String) :
    ((kwargs.map fun p => (p.1, f p.2 p.1)).find? fun p => p.1 = k).map (·.2) =
      (kwargs.find? fun p => p.1 = k).map fun p => f p.2 p.1 := by
  rw [List.find?_map, Option.map_map]
  rfl

theorem slot_same (F : Frame V) (x : Arg V P) (name : String) (h : Spec.Holds F x name) (n : ℕ) :
    (match some (tryIntoSeries x name) with
      | some (.litExpr s) => Except.ok s
      | some (.colExpr n) => (noFrame V).get n
      | _ => .error "ValueError") =
    (match some (Spec.inFrame x name) with
      | some (.litExpr s) => Except.ok s
      | some (.colExpr m) => ({F with height := n} : Frame V).get m
      | _ => .error "ValueError") := by
  cases x with
  | ndarray v => exact h.symm
  | hasArray v => exact h.symm
  | series s => exact h.symm
  | colExpr m => exact h.elim
  | plain p => rfl

/-- **C165a.**  A call with arrays gives what the same function gives on a frame that has the arrays as columns, named by position and
keyword, except that `pl.len()` is zero: for every library function that uses no other columns, exceptions included. -/
theorem compat_is_frame (lib : String → Option (Func V O P)) (name : String) (args : List (Arg V P)) (kwargs : List (String × Arg V P))
    (F : Frame V) (f : Func V O P) (hn : name ∉ ["frame", "str_to_expr", "pl", "annotations", "__version__", "warn_len_compare"])
    (hf : lib name = some f) (ha : args ≠ []) (hF : ∀ i (h : i < args.length), Spec.Holds F args[i] (Nat.repr i))
    (hK : ∀ p ∈ kwargs, Spec.Holds F p.2 p.1)
    (hc : ∀ t, f ((args.mapIdx fun i x => Spec.inFrame x (Nat.repr i)).map Seen.shape)
      ((kwargs.map fun p => (p.1, Spec.inFrame p.2 p.1)).map fun p => (p.1, p.2.shape)) = .ok t → Spec.NoCol t) :
    call ofNat sem lib name args kwargs =
      (select ofNat sem {F with height := 0} f (args.mapIdx fun i x => Spec.inFrame x (Nat.repr i))
        (kwargs.map fun p => (p.1, Spec.inFrame p.2 p.1))).map fun s => { s with name := outName name } := by
  unfold call
  rw [if_neg (show name ∉ cannotCall from hn), hf]
  simp only
  rw [if_neg (by have := List.length_pos_of_ne_nil ha; omega)]
  congr 1
  unfold select
  rw [shapes, kw_shapes]
  cases ht : f ((args.mapIdx fun i x => Spec.inFrame x (Nat.repr i)).map Seen.shape)
      ((kwargs.map fun p => (p.1, Spec.inFrame p.2 p.1)).map fun p => (p.1, p.2.shape)) with
  | error e => rfl
  | ok t =>
    show eval ofNat sem (noFrame V) _ t = eval ofNat sem _ _ t
    apply eval_congr
    · rintro k t rfl
      symm
      cases k with
      | inl i =>
        simp only [slotsOf, List.getElem?_mapIdx]
        by_cases hi : i < args.length
        · rw [List.getElem?_eq_getElem hi]
          exact slot_same F args[i] (Nat.repr i) (hF i hi) 0
        · rw [List.getElem?_eq_none (by omega)]
          rfl
      | inr k =>
        simp only [slotsOf]
        rw [find_kw tryIntoSeries, find_kw Spec.inFrame]
        cases hk : kwargs.find? fun p => p.1 = k with
        | none => rfl
        | some p =>
          exact slot_same F p.2 p.1 (hK p (List.mem_of_find?_eq_some hk)) 0
    · intro n h
      exact absurd h (hc t ht n)
    · intro _
      rfl

/-- **C165b.**  So a function that does not ask for the number of rows gives the same as on the frame. -/
theorem compat_eq_frame (lib : String → Option (Func V O P)) (name : String) (args : List (Arg V P)) (kwargs : List (String × Arg V P))
    (F : Frame V) (f : Func V O P) (hn : name ∉ ["frame", "str_to_expr", "pl", "annotations", "__version__", "warn_len_compare"])
    (hf : lib name = some f) (ha : args ≠ []) (hF : ∀ i (h : i < args.length), Spec.Holds F args[i] (Nat.repr i))
    (hK : ∀ p ∈ kwargs, Spec.Holds F p.2 p.1)
    (hc : ∀ t, f ((args.mapIdx fun i x => Spec.inFrame x (Nat.repr i)).map Seen.shape)
      ((kwargs.map fun p => (p.1, Spec.inFrame p.2 p.1)).map fun p => (p.1, p.2.shape)) = .ok t → Spec.NoCol t ∧ Spec.NoLen t) :
    (call ofNat sem lib name args kwargs).map Ser.vals =
      (select ofNat sem F f (args.mapIdx fun i x => Spec.inFrame x (Nat.repr i))
        (kwargs.map fun p => (p.1, Spec.inFrame p.2 p.1))).map Ser.vals := by
  rw [compat_is_frame lib name args kwargs F f hn hf ha hF hK fun t ht => (hc t ht).1]
  have : select ofNat sem {F with height := 0} f (args.mapIdx fun i x => Spec.inFrame x (Nat.repr i))
        (kwargs.map fun p => (p.1, Spec.inFrame p.2 p.1)) =
      select ofNat sem F f (args.mapIdx fun i x => Spec.inFrame x (Nat.repr i)) (kwargs.map fun p => (p.1, Spec.inFrame p.2 p.1)) := by
    unfold select
    cases ht : f ((args.mapIdx fun i x => Spec.inFrame x (Nat.repr i)).map Seen.shape)
      ((kwargs.map fun p => (p.1, Spec.inFrame p.2 p.1)).map fun p => (p.1, p.2.shape)) with
    | error e => rfl
    | ok t =>
      show eval ofNat sem _ _ t = eval ofNat sem _ _ t
      apply eval_congr
      · rintro k t rfl
        rfl
      · intro n _
        rfl
      · intro h
        exact absurd h (hc t ht).2
  rw [this]
  cases select ofNat sem F f (args.mapIdx fun i x => Spec.inFrame x (Nat.repr i)) (kwargs.map fun p => (p.1, Spec.inFrame p.2 p.1)) <;> rfl

/-- A library for the examples: `diff(a, b)` subtracts two columns, `rows(a)` is `pl.len()`. -/
def exSem : Bool → List (Ser ℤ) → Except String (Ser ℤ)
  | true, [a, b] => .ok ⟨a.name, List.zipWith (· - ·) a.vals b.vals⟩
  | _, _ => .error "ComputeError"

/-- The functions of the examples. -/
def exLib : String → Option (Func ℤ Bool ℤ)
  | "query_diff" => some fun _ _ => .ok (.app true 2 ![.slot (.inl 0), .slot (.inr "pred")])
  | "query_rows" => some fun _ _ => .ok .len
  | _ => none

theorem ex_part {s : Tmpl ℤ Bool} (h : Spec.Part s (.app true 2 ![.slot (.inl 0), .slot (.inr "pred")])) :
    s = .app true 2 ![.slot (.inl 0), .slot (.inr "pred")] ∨ s = .slot (.inl 0) ∨ s = .slot (.inr "pred") := by
  cases h with
  | self => exact .inl rfl
  | arg i h =>
    right
    fin_cases i
    · left
      simp at h
      cases h
      rfl
    · right
      simp at h
      cases h
      rfl

example :
    (call (fun n => (n : ℤ)) exSem exLib "query_diff" [.ndarray [5, 7]] [("pred", .series ⟨"p", [1, 2]⟩)]).map Ser.vals =
      (select (P := ℤ) (fun n => (n : ℤ)) exSem ⟨2, [⟨"0", [5, 7]⟩, ⟨"p", [1, 2]⟩]⟩
        (fun _ _ => .ok (.app true 2 ![.slot (.inl 0), .slot (.inr "pred")])) [.colExpr "0"] [("pred", .colExpr "p")]).map Ser.vals :=
  compat_eq_frame exLib "query_diff" [.ndarray [5, 7]] [("pred", .series ⟨"p", [1, 2]⟩)] ⟨2, [⟨"0", [5, 7]⟩, ⟨"p", [1, 2]⟩]⟩ _
    (by decide) rfl (by simp) (by
      intro i h
      have : i = 0 := by simpa using h
      subst this
      rfl) (by
      intro p hp
      rcases List.mem_singleton.1 hp with rfl
      rfl) (by
      intro t ht
      cases ht
      constructor
      · intro n h
        rcases ex_part h with h | h | h <;> simp at h
      · intro h
        rcases ex_part h with h | h | h <;> simp at h)

example : call (fun n => (n : ℤ)) exSem exLib "query_diff" [.ndarray [5, 7]] [("pred", .series ⟨"p", [1, 2]⟩)] =
    .ok ⟨"diff", [4, 5]⟩ := by decide +kernel

example : call (fun n => (n : ℤ)) exSem exLib "query_rows" [.ndarray [5, 7]] [] = .ok ⟨"rows", [0]⟩ := by decide +kernel

/-- **C165c.**  Calls that always fail: the six names, calls without a positional argument (all arguments by keyword), and calls whose
expression reads a column by name — a string where an array was meant, or `pl.col`. -/
theorem compat_rejects (lib : String → Option (Func V O P)) (name : String) (args : List (Arg V P)) (kwargs : List (String × Arg V P))
    (h : name ∈ ["frame", "str_to_expr", "pl", "annotations", "__version__", "warn_len_compare"] ∨ lib name = none ∨ args = [] ∨
      ∃ f t, lib name = some f ∧ f ((args.mapIdx fun i x => tryIntoSeries x (Nat.repr i)).map Seen.shape)
        ((kwargs.map fun p => (p.1, tryIntoSeries p.2 p.1)).map fun p => (p.1, p.2.shape)) = .ok t ∧
        ((∃ n, Spec.Part (.col n) t) ∨ ∃ i n, Spec.Part (.slot (.inl i)) t ∧ args[i]? = some (.colExpr n))) :
    ∃ e, call ofNat sem lib name args kwargs = .error e := by
  unfold call
  by_cases h1 : name ∈ cannotCall
  · exact ⟨_, if_pos h1⟩
  rw [if_neg h1]
  cases hf : lib name with
  | none => exact ⟨_, rfl⟩
  | some f =>
    simp only
    by_cases h2 : args.length ≤ 0
    · exact ⟨_, if_pos h2⟩
    rw [if_neg h2]
    rcases h with h | h | h | ⟨f', t, hf', ht, h⟩
    · exact absurd h h1
    · rw [hf] at h; simp at h
    · rw [h] at h2; simp at h2
    · rw [hf] at hf'
      cases hf'
      unfold select
      rw [ht]
      have : ∃ e, eval ofNat sem (noFrame V) (slotsOf (args.mapIdx fun i x => tryIntoSeries x (Nat.repr i))
          (kwargs.map fun p => (p.1, tryIntoSeries p.2 p.1))) t = .error e := by
        rcases h with ⟨n, h⟩ | ⟨i, n, h, hi⟩
        · exact eval_part_error _ _ h (e := "ColumnNotFoundError") rfl
        · refine eval_part_error _ _ h (e := "ColumnNotFoundError") ?_
          simp only [eval, slotsOf, List.getElem?_mapIdx, hi]
          rfl
      obtain ⟨e, he⟩ := this
      exact ⟨e, by show Except.map _ (eval _ _ _ _ t) = _; rw [he]; rfl⟩

example : ∃ e, call (fun n => (n : ℤ)) exSem exLib "query_diff" [.colExpr "x"] [("pred", .series ⟨"p", [1, 2]⟩)] = .error e :=
  compat_rejects exLib "query_diff" _ _ (.inr (.inr (.inr ⟨_, _, rfl, rfl, .inr ⟨0, "x", .arg 0 (.self _), rfl⟩⟩)))

example : ∃ e, call (fun n => (n : ℤ)) exSem exLib "query_diff" [] [("actual", .ndarray [1]), ("pred", .ndarray [1])] = .error e :=
  compat_rejects exLib "query_diff" _ _ (.inr (.inr (.inl rfl)))

/-! ## Names -/

theorem remove_prefix (pat l : List Char) (hp : pat ≠ []) : remove pat (pat ++ l) = remove pat l := by
  cases pat with
  | nil => exact absurd rfl hp
  | cons c cs =>
    rw [List.cons_append, remove, if_pos (by
      rw [List.isPrefixOf_iff_prefix, ← List.cons_append]
      exact List.prefix_append _ _)]
    simp

theorem remove_none (pat l : List Char) (h : ¬ pat <:+: l) : remove pat l = l := by
  induction l with
  | nil => rw [remove]
  | cons c cs ih =>
    rw [remove, if_neg (by
      rw [List.isPrefixOf_iff_prefix]
      exact fun hp => h hp.isInfix), ih fun hi => h (hi.trans (List.suffix_cons c cs).isInfix)]

/-- **C165d.**  The result has the name of the function without `query_`, and arrays get names that no two of them share: positions by their
number, keywords by their name. -/
theorem compat_names :
    (∀ rest : String, ¬ "query_".toList <:+: rest.toList → outName ("query_" ++ rest) = rest ∧ outName rest = rest) ∧
    (∀ i j : ℕ, Nat.repr i = Nat.repr j → i = j) ∧
    (∀ (i : ℕ) (k : String), (∃ c ∈ k.toList, c.isDigit = false) → Nat.repr i ≠ k) := by
  refine ⟨fun rest h => ⟨?_, ?_⟩, fun i j h => Nat.repr_injective h, fun i k ⟨c, hc, hd⟩ h => ?_⟩
  · unfold outName
    rw [String.toList_append, remove_prefix _ _ (by decide), remove_none _ _ h, String.ofList_toList]
  · unfold outName
    rw [remove_none _ _ h, String.ofList_toList]
  · subst h
    rw [Nat.toList_repr] at hc
    rw [Nat.isDigit_of_mem_toDigits (by decide) (by decide) hc] at hd
    simp at hd

example : outName "query_roc_auc" = "roc_auc" ∧ outName "lin_reg" = "lin_reg" := by decide +kernel

/-- **C165e (disagreement).**  polars columns keep their own names, and the regressions refuse two columns of one name: two unnamed polars
columns fail, two arrays do not. -/
theorem compat_same_name (a b : List V) (n : String) (l : List (Ser V)) :
    (∃ e, toFrame (⟨n, a⟩ :: ⟨n, b⟩ :: l) = .error e) ∧
    ∀ vs : List (List V), (∀ v ∈ vs, v.length = a.length) →
      ∃ F, toFrame ((⟨"target", a⟩ : Ser V) :: vs.mapIdx fun i v => ⟨Nat.repr i, v⟩) = .ok F ∧
        F.height = a.length ∧ ∀ i (h : i < vs.length), F.get (Nat.repr i) = .ok ⟨Nat.repr i, vs[i]⟩ := by
  constructor
  · refine ⟨"Duplicate", ?_⟩
    unfold toFrame
    rw [if_neg (by simp)]
  · intro vs hv
    have hd : ∀ i : ℕ, Nat.repr i ≠ "target" := fun i => compat_names.2.2 i _ ⟨'t', by decide, by decide⟩
    have hnd : ((vs.mapIdx fun i v => (⟨Nat.repr i, v⟩ : Ser V)).map Ser.name).Nodup := by
      rw [map_mapIdx]
      rw [List.nodup_iff_injective_get]
      rintro ⟨i, hi⟩ ⟨j, hj⟩ h
      simp only [List.get_eq_getElem, List.getElem_mapIdx] at h
      exact Fin.ext (Nat.repr_injective h)
    unfold toFrame
    rw [if_pos, if_pos]
    · refine ⟨_, rfl, rfl, fun i hi => ?_⟩
      have hfind : (((⟨"target", a⟩ : Ser V) :: vs.mapIdx fun i v => ⟨Nat.repr i, v⟩).find? fun s => s.name = Nat.repr i) =
          some ⟨Nat.repr i, vs[i]⟩ := by
        rw [List.find?_cons_of_neg (by simpa using fun h => hd i h.symm)]
        rw [List.find?_eq_some_iff_getElem]
        refine ⟨by simp, i, by simpa using hi, by simp, fun j hj => ?_⟩
        simp only [List.getElem_mapIdx, Bool.not_eq_true', decide_eq_false_iff_not]
        intro h
        exact absurd (Nat.repr_injective h) (by omega)
      unfold Frame.get
      simp only at hfind ⊢
      rw [hfind]
    · rw [List.all_eq_true]
      intro s hs
      rcases List.mem_cons.1 hs with rfl | hs
      · simp
      · rw [List.mem_mapIdx] at hs
        obtain ⟨i, hi, rfl⟩ := hs
        exact decide_eq_true ( hv _ (List.getElem_mem hi))
    · rw [List.map_cons, List.nodup_cons]
      refine ⟨?_, hnd⟩
      rw [map_mapIdx, List.mem_mapIdx]
      rintro ⟨i, hi, h⟩
      exact hd i h

example : ∃ e, toFrame [(⟨"", [1]⟩ : Ser ℤ), ⟨"", [2]⟩] = .error e := (compat_same_name [1] [2] "" []).1

example : ∃ F, toFrame [(⟨"target", [1, 2]⟩ : Ser ℤ), ⟨"0", [3, 4]⟩, ⟨"1", [5, 6]⟩] = .ok F :=
  let ⟨F, h, _⟩ := (compat_same_name ([1, 2] : List ℤ) [] "" []).2 [[3, 4], [5, 6]] (by simp)
  ⟨F, h⟩

/-! ## Functions that ask for the number of rows -/

section
variable {K : Type} [Field K] [LinearOrder K] [IsStrictOrderedRing K]

omit [IsStrictOrderedRing K] in
/-- **C165f (disagreement).**  `compat.query_auto_corr` is NaN for every series with a variance and every lag from 1 on; on a frame it is
the auto correlation. -/
theorem compat_auto_corr (c : Col K) (l ddof : ℕ) :
    autoCorrAt c.length c l ddof = TsFeat.autoCorr c l ddof ∧
    (1 ≤ l → autoCorrAt 0 c l ddof = (TsFeat.varD ddof c).map fun _ => .nan) := by
  refine ⟨rfl, fun hl => ?_⟩
  unfold autoCorrAt
  congr 1
  funext v
  rw [if_pos (by omega)]
  simp [Val.fdiv]

example : autoCorrAt 0 [some (1 : ℚ), some 2, some 4] 1 0 = some .nan ∧ TsFeat.autoCorr [some (1 : ℚ), some 2, some 4] 1 0 ≠ some .nan := by
  decide +kernel

/-- **C165g (disagreement).**  `compat.query_multi_roc_auc` with the default strategy divides by zero: when every class has an AUC the result
is never a number, though on a frame it is. -/
theorem compat_multi_auc (n : ℕ) (rows : List (Nat × List K)) (s : K)
    (hs : MultiMetrics.sumRes ((List.range n).map fun i =>
      MultiMetrics.scaleRes (MultiMetrics.classCount rows i : K) (MultiMetrics.classAuc rows i)) = .val s) (hr : rows ≠ []) :
    (∃ v, weightedAucAt rows.length s = .num v ∧ MultiMetrics.weightedAuc n rows = .val v) ∧
    ∀ v, weightedAucAt 0 s ≠ .num v := by
  constructor
  · have h0 : (rows.length : K) ≠ 0 := by
      have := List.length_pos_of_ne_nil hr
      exact Nat.cast_ne_zero.2 (by omega)
    refine ⟨s / rows.length, ?_, ?_⟩
    · unfold weightedAucAt
      simp [Val.fdiv, h0]
    · unfold MultiMetrics.weightedAuc
      rw [hs]
      simp only [MultiMetrics.scaleRes]
      congr 1
      ring
  · intro v
    unfold weightedAucAt
    simp only [Val.fdiv, Nat.cast_zero]
    split_ifs <;> simp

example : (∃ v, weightedAucAt 3 (2 : ℚ) = .num v) ∧ ∀ v, weightedAucAt 0 (2 : ℚ) ≠ .num v :=
  have h := compat_multi_auc 2 [(0, [(7 : ℚ), 3]), (1, [2, 8]), (0, [6, 4])] 3 (by decide +kernel) (by simp)
  ⟨⟨2 / 3, by decide +kernel⟩, fun v => by
    have := (compat_multi_auc 2 [(0, [(7 : ℚ), 3]), (1, [2, 8]), (0, [6, 4])] 3 (by decide +kernel) (by simp)).2
    unfold weightedAucAt
    simp [Val.fdiv]⟩

/-- **C165h (disagreement).**  `compat.random` gives an empty column, and `compat.random_null` fails on every series but those of length zero
(which stays) and one (which becomes empty). -/
theorem compat_random {σ α : Type} (r : Random.Rng K σ) (lo hi pct : K) (h : lo < hi) (hp : 0 < pct) (hp1 : pct < 1) (seed : Option ℕ)
    (col : List (Option α)) :
    Random.random r (.float lo) (.float hi) seed (.expr (.u32 (some 0))) = .ok [] ∧
    (2 ≤ col.length → ∃ e, randomNullAt 0 r col pct seed = .error e) ∧
    (col.length ≤ 1 → randomNullAt 0 r col pct seed = .ok []) ∧
    ∃ out, randomNullAt col.length r col pct seed = .ok out ∧ Random.randomNull r col pct seed = .ok out := by
  have hr : ∀ (lo hi : K) (n : ℕ), lo < hi → Random.random r (.float lo) (.float hi) seed (.expr (.u32 (some n))) =
      .ok (Random.take (r.unif lo hi) n (r.start seed)) := by
    intro lo hi n h
    unfold Random.random Random.plRandom
    simp [Random.litLen, Random.litF64, Random.Ser.asU32, Random.Ser.asF64, Random.unwrap, h, bind, Except.bind]
  have hlen : ∀ (f : σ → K × σ) (n : ℕ) (s : σ), (Random.take f n s).length = n := by
    intro f n
    induction n with
    | zero => intro s; rfl
    | succ n ih => intro s; simp [Random.take, ih]
  have hnp : ¬ (pct ≤ 0 ∨ 1 ≤ pct) := by
    rintro (h | h)
    · exact absurd hp (not_lt.2 h)
    · exact absurd hp1 (not_lt.2 h)
  refine ⟨hr lo hi 0 h, fun h2 => ?_, fun h1 => ?_, ?_⟩
  · unfold randomNullAt
    rw [if_neg hnp, hr 0 1 0 one_pos]
    match col, h2 with
    | a :: b :: l, _ => exact ⟨"ShapeError", by simp [whenNull, Random.take]⟩
  · unfold randomNullAt
    rw [if_neg hnp, hr 0 1 0 one_pos]
    match col, h1 with
    | [], _ => simp [whenNull, Random.take]
    | [a], _ => simp [whenNull, Random.take]
  · unfold randomNullAt Random.randomNull
    rw [if_neg hnp, if_neg hnp, hr 0 1 _ one_pos]
    simp only [whenNull, List.length_map, hlen, if_true]
    refine ⟨_, rfl, ?_⟩
    simp [Except.map, List.zipWith_map_left]

example (r : Random.Rng ℚ ℕ) : ∃ e, randomNullAt 0 r [some 1, none, some 3] (1 / 2) (some 7) = .error e :=
  (compat_random r 0 1 (1 / 2) (by norm_num) (by norm_num) (by norm_num) (some 7) [some 1, none, some 3]).2.1 (by simp)

/-- **C165h.**  In a frame of one row, a longer column loses all of its values or none. -/
theorem random_null_one_row {σ α : Type} (r : Random.Rng K σ) (pct : K) (hp : 0 < pct) (hp1 : pct < 1) (seed : Option ℕ)
    (col : List (Option α)) (h : col.length ≠ 1) :
    randomNullAt 1 r col pct seed = .ok col ∨ randomNullAt 1 r col pct seed = .ok (col.map fun _ => none) := by
  have hr : Random.random r (.float 0) (.float 1) seed (.expr (.u32 (some 1))) =
      .ok (Random.take (r.unif 0 1) 1 (r.start seed)) := by
    unfold Random.random Random.plRandom
    simp [Random.litLen, Random.litF64, Random.Ser.asU32, Random.Ser.asF64, Random.unwrap, bind, Except.bind]
  have hnp : ¬ (pct ≤ 0 ∨ 1 ≤ pct) := by
    rintro (h | h)
    · exact absurd hp (not_lt.2 h)
    · exact absurd hp1 (not_lt.2 h)
  unfold randomNullAt
  rw [if_neg hnp, hr]
  simp only [Random.take, List.map_cons, List.map_nil, whenNull, List.length_cons, List.length_nil]
  rw [if_neg (by omega)]
  by_cases hd : (r.unif 0 1 (r.start seed)).1 < pct
  · right; simp [hd]
  · left; simp [hd]

example (r : Random.Rng ℚ ℕ) : randomNullAt 1 r [some 1, some 2] (1 / 2) none = .ok [some 1, some 2] ∨
    randomNullAt 1 r [some 1, some 2] (1 / 2) none = .ok [none, none] :=
  random_null_one_row r (1 / 2) (by norm_num) (by norm_num) none [some 1, some 2] (by simp)

omit [Field K] [LinearOrder K] [IsStrictOrderedRing K] in
/-- **C165i (disagreement).**  `compat.query_transfer_entropy` hands on columns of different lengths: on a frame of the length of the series
all three lose `lag` rows. -/
theorem compat_transfer (x s : Col K) (lag : ℕ) (h1 : 1 ≤ lag) (hl : lag ≤ x.length) (hx : x.length + lag ≤ 2 ^ 32) (hs : s.length = x.length) :
    (transferColsAt 0 x s lag).1.length = x.length - lag ∧ (transferColsAt 0 x s lag).2.1.length = x.length ∧
    (transferColsAt 0 x s lag).2.2.length = x.length ∧
    transferColsAt x.length x s lag = PermEntropy.transferCols x s lag ∧
    (transferColsAt x.length x s lag).1.length = x.length - lag ∧ (transferColsAt x.length x s lag).2.1.length = x.length - lag ∧
    (transferColsAt x.length x s lag).2.2.length = x.length - lag := by
  have e0 : (0 + 2 ^ 32 - lag) % 2 ^ 32 = 2 ^ 32 - lag := by omega
  have e1 : (x.length + 2 ^ 32 - lag) % 2 ^ 32 = x.length - lag := by omega
  unfold transferColsAt
  rw [e0, e1]
  simp only [List.length_take, List.length_drop, hs]
  refine ⟨by omega, by omega, by omega, ?_, by omega, by omega, by omega⟩
  unfold PermEntropy.transferCols
  rw [e1]

example : (transferColsAt 0 [some (1 : ℚ), some 2, some 3] [some 4, some 5, some 6] 1).1.length = 2 ∧
    (transferColsAt 0 [some (1 : ℚ), some 2, some 3] [some 4, some 5, some 6] 1).2.1.length = 3 :=
  have h := compat_transfer [some (1 : ℚ), some 2, some 3] [some 4, some 5, some 6] 1 (by decide) (by decide) (by decide) rfl
  ⟨h.1, h.2.1⟩

end

end Verif.Compat
