import Verif.Model.LrNames
import Std.Data.String.ToNat
import Mathlib.Tactic.Linarith
import Mathlib.Tactic.NormNum
import Mathlib.Data.Rat.Defs
import Mathlib.Algebra.Field.Rat

/-!
# C166: column names in the regression expressions

A regression is about the values of its columns.  The comparison is with the model of C20, whose rows have no names.
-/

namespace Verif.LrNames
open Verif Verif.NullPolicy Verif.Online
variable {K : Type} [Field K]

namespace Spec

/-- A row of target and features as the row of a frame with the target first. -/
def flat {d : ℕ} {K : Type} (r : XRow d K) : List (Option K) := r.2 :: List.ofFn r.1

/-- Names without surprise: all different, and none is `literal` if a constant is added. -/
def Good (b : Bool) (names : List String) : Prop := names.Nodup ∧ (b = true → "literal" ∉ names)

end Spec
open Spec

omit [Field K] in
theorem full_flat {d : ℕ} (r : XRow d K) : full (flat r) = !hasNan r := by
  unfold full flat hasNan
  rw [Bool.eq_iff_iff]
  simp only [List.all_cons, Bool.and_eq_true, List.all_eq_true, List.mem_ofFn, Bool.not_eq_true', Bool.or_eq_false_iff,
    List.any_eq_false, List.mem_finRange, forall_const]
  constructor
  · rintro ⟨h1, h2⟩
    refine ⟨fun i => ?_, ?_⟩
    · have := h2 (r.1 i) ⟨i, rfl⟩
      cases h : r.1 i <;> simp_all
    · cases h : r.2 <;> simp_all
  · rintro ⟨h1, h2⟩
    refine ⟨?_, ?_⟩
    · cases h : r.2 <;> simp_all
    · rintro v ⟨i, rfl⟩
      have := h1 i
      cases h : r.1 i <;> simp_all

theorem flat_bias {d : ℕ} (r : XRow d K) : flat (addBias true r) = flat r ++ [some 1] := by
  unfold flat
  show r.2 :: List.ofFn (Fin.snoc (α := fun _ => Option K) r.1 (some 1)) = _
  rw [List.ofFn_succ']
  simp

theorem zip_filter {α β : Type} (f : α → Bool) (g : α → β) (l : List α) :
    ((l.map g).zip (l.map f)).filterMap (fun p => if p.2 then some p.1 else none) = (l.filter f).map g := by
  induction l with
  | nil => rfl
  | cons a l ih =>
    simp only [List.map_cons, List.zip_cons_cons, List.filterMap_cons, List.filter_cons]
    cases h : f a <;> simp [ih]

omit [Field K] in
theorem filterMask_map {α : Type} (f : α → Bool) (g : α → List (Option K)) (ns : List String) (l : List α) :
    filterMask (l.map f) ⟨ns, l.map g⟩ = ⟨ns, (l.filter f).map g⟩ := by
  unfold filterMask
  rw [zip_filter]

omit [Field K] in
theorem zipWith_fill (y : String) (x : K) (ns : List String) (h : y ∉ ns) (l : List (Option K)) (hl : ns.length = l.length) :
    List.zipWith (fun n v => if n = y then v else some (v.getD x)) ns l = l.map fun v => some (v.getD x) := by
  induction ns generalizing l with
  | nil => cases l <;> simp_all
  | cons n ns ih =>
    cases l with
    | nil => simp at hl
    | cons v l =>
      simp only [List.mem_cons, not_or] at h
      simp only [List.zipWith_cons_cons, List.map_cons]
      rw [if_neg (Ne.symm h.1), ih h.2 l (by simpa using hl)]

omit [Field K] in
theorem fill_flat {d : ℕ} (y : String) (x : K) (ns : List String) (h : y ∉ ns) (hl : ns.length = d) (r : XRow d K) :
    List.zipWith (fun n v => if n = y then v else some (v.getD x)) (y :: ns) (flat r) = flat (fillRow x r) := by
  unfold flat fillRow
  simp only [List.zipWith_cons_cons, if_true]
  rw [zipWith_fill y x ns h _ (by simpa using hl), List.map_ofFn]
  rfl

theorem fill_bias {d : ℕ} (b : Bool) (x : K) (r : XRow d K) : fillRow x (addBias b r) = addBias b (fillRow x r) := by
  cases b with
  | false => rfl
  | true =>
    unfold fillRow addBias
    simp only
    congr 1
    funext i
    refine Fin.lastCases ?_ (fun i => ?_) i
    · simp
    · simp

/-- **C166a.**  With names without surprise the matrix is that of the values (C20), for every null policy and with or without a constant. -/
theorem names_good {d : ℕ} (b : Bool) (p : Policy K) (names : List String) (hn : names.length = d + 1) (hg : Good b names)
    (rows : List (XRow d K)) :
    seriesToMat b p names (rows.map flat) =
      match NullPolicy.seriesToMat b p rows with
      | .ok (m, mask) => .ok (m.map flat, mask)
      | .error e => .error (.other e) := by
  obtain ⟨y, ns, rfl⟩ : ∃ y ns, names = y :: ns := by
    cases names with
    | nil => simp at hn
    | cons y ns => exact ⟨y, ns, rfl⟩
  have hns : ns.length = d := by simpa using hn
  have hy : y ∉ ns := (List.nodup_cons.1 hg.1).1
  have hy_null : ((rows.map flat).any fun r => (target r).isNone) = rows.any fun r => r.2.isNone := by
    rw [List.any_map]; rfl
  have hx_null : ((rows.map flat).any fun r => !full r) = rows.any hasNan := by
    rw [List.any_map]
    congr 1
    funext r
    show (!full (flat r)) = _
    rw [full_flat, Bool.not_not]
  have hmask : (rows.map flat).map full = rows.map fun r => !hasNan r := by
    rw [List.map_map]
    exact List.map_congr_left fun r _ => full_flat r
  have hinit : ((rows.map flat).map fun r => (target r).isSome) = rows.map fun r => r.2.isSome := by
    rw [List.map_map]; rfl
  -- the frame after adding the constant
  obtain ⟨ns', hns', hy', hF⟩ : ∃ ns', ns'.length = d + b.toNat ∧ y ∉ ns' ∧
      (if b then withOne ⟨y :: ns, rows.map flat⟩ else ⟨y :: ns, rows.map flat⟩ : Frame K) =
        ⟨y :: ns', (rows.map (addBias b)).map flat⟩ := by
    cases b with
    | false => exact ⟨ns, hns, hy, by simp [addBias]⟩
    | true =>
      have hl := hg.2 rfl
      refine ⟨ns ++ ["literal"], by simp [hns], ?_, ?_⟩
      · intro h
        rcases List.mem_append.1 h with h | h
        · exact hy h
        · exact hl (by simp [List.mem_singleton.1 h])
      · simp only [if_true]
        unfold withOne
        rw [if_neg hl]
        simp only [List.map_map, List.cons_append]
        congr 1
        exact List.map_congr_left fun r _ => (flat_bias r).symm
  have hfill : ∀ x, fillExcept y x (⟨y :: ns', (rows.map (addBias b)).map flat⟩ : Frame K) =
      ⟨y :: ns', ((rows.map (fillRow x)).map (addBias b)).map flat⟩ := by
    intro x
    unfold fillExcept
    simp only [List.map_map]
    congr 1
    apply List.map_congr_left
    intro r _
    show List.zipWith _ _ (flat (addBias b r)) = flat (addBias b (fillRow x r))
    rw [fill_flat y x ns' hy' hns', fill_bias]
  unfold seriesToMat NullPolicy.seriesToMat toFrame
  rw [if_pos hg.1]
  simp only [hy_null, hx_null, hmask, hinit, List.isEmpty_map, List.headD_cons, List.length_cons, Nat.add_sub_cancel, hns]
  rw [hF]
  by_cases he : rows.isEmpty = true
  · rw [if_pos he, if_pos he]
  rw [if_neg he, if_neg he]
  by_cases hh : rows.any hasNan = true
  · rw [if_pos hh, if_pos hh]
    cases p with
    | raise => rfl
    | ignore =>
      simp only [List.length_map]
      split_ifs <;> rfl
    | skipWindow =>
      simp only [List.length_map]
      split_ifs <;> rfl
    | skip =>
      rw [show ((rows.map (addBias b)).map flat) = rows.map fun r => flat (addBias b r) by rw [List.map_map]; rfl]
      simp only [filterMask_map]
      simp only [List.length_map]
      split_ifs
      · rfl
      · simp only [List.map_map]
        rfl
    | fill x =>
      simp only [hfill]
      by_cases hyn : (rows.any fun r => r.2.isNone) = true
      · rw [if_pos hyn, if_pos hyn]
        rw [show (((rows.map (fillRow x)).map (addBias b)).map flat) = rows.map fun r => flat (addBias b (fillRow x r)) by
          rw [List.map_map, List.map_map]; rfl]
        simp only [filterMask_map]
        have h2 : (rows.map (fillRow x)).filter (fun r => r.2.isSome) = (rows.filter fun r => r.2.isSome).map (fillRow x) := by
          rw [List.filter_map]; rfl
        rw [h2]
        simp only [List.length_map]
        split_ifs
        · rfl
        · simp only [List.map_map]
          rfl
      · rw [if_neg hyn, if_neg hyn]
        simp only [List.length_map]
        split_ifs <;> rfl
    | fillWindow x =>
      simp only [hfill]
      by_cases hyn : (rows.any fun r => r.2.isNone) = true
      · rw [if_pos hyn, if_pos hyn]
        simp only [List.length_map]
        split_ifs <;> rfl
      · rw [if_neg hyn, if_neg hyn]
        simp only [List.length_map]
        split_ifs <;> rfl
  · rw [if_neg hh, if_neg hh]
    simp only [List.length_map]
    split_ifs <;> rfl

example : seriesToMat true (.fill 0) ["y", "a", "b"] [[some (1 : ℚ), some 2, none], [some 3, some 4, some 5]] =
    .ok ([[some 1, some 2, some 0, some 1], [some 3, some 4, some 5, some 1]], [true]) := by decide +kernel

example : Good true ["y", "a", "b"] := ⟨by decide, by decide⟩

/-- **C166b.**  So the names do not matter, as long as they are without surprise. -/
theorem names_irrelevant {α : Type} {d : ℕ} (solve : List (List (Option K)) → List Bool → α) (b : Bool) (p : Policy K) (y y' : Arg)
    (x x' : List Arg) (hx : x.length = d) (hx' : x'.length = d) (hg : Good b ((y :: x).map Arg.name))
    (hg' : Good b ((y' :: x').map Arg.name)) (rows : List (XRow d K)) :
    linReg solve b p y x (rows.map flat) = linReg solve b p y' x' (rows.map flat) := by
  unfold linReg
  rw [names_good b p _ (by simp [hx]) hg, names_good b p _ (by simp [hx']) hg']

example : linReg (fun m _ => m) true .raise (.str "y") [.expr (.col "x")] [flat ((fun _ => some 2, some (1 : ℚ)) : XRow 1 ℚ)] =
    linReg (fun m _ => m) true .raise (.series "z") [.array] [flat ((fun _ => some 2, some (1 : ℚ)) : XRow 1 ℚ)] :=
  names_irrelevant (K := ℚ) (fun m _ => m) true .raise (.str "y") (.series "z") [.expr (.col "x")] [.array] rfl rfl ⟨by decide, by decide⟩
    ⟨by decide, by decide⟩ [(fun _ => some 2, some 1)]

/-- **C166c.**  Two columns of one name are an error, and nothing else is this error. -/
theorem names_duplicate {α : Type} (solve : List (List (Option K)) → List Bool → α) (b : Bool) (p : Policy K) (y : Arg)
    (x : List Arg) (rows : List (List (Option K))) :
    linReg solve b p y x rows = .error .duplicate ↔ ¬ ((y :: x).map Arg.name).Nodup := by
  unfold linReg
  constructor
  · intro h hn
    unfold seriesToMat toFrame at h
    rw [if_pos hn] at h
    simp only at h
    revert h
    by_cases he : rows.isEmpty = true
    · rw [if_pos he]; simp [Except.map]
    rw [if_neg he]
    by_cases hh : (rows.any fun r => !full r) = true
    · rw [if_pos hh]
      by_cases hy : (rows.any fun r => (target r).isNone) = true
      · simp only [hy, if_true]
        cases p <;> simp only <;> (repeat' split) <;> simp [Except.map]
      · simp only [hy]
        cases p <;> simp only [Bool.false_eq_true, if_false] <;> (repeat' split) <;> simp [Except.map]
    · rw [if_neg hh]
      simp only
      split_ifs <;> simp [Except.map]
  · intro h
    unfold seriesToMat toFrame
    rw [if_neg h]
    rfl

/-- **C166d (disagreement).**  The regressions say they take arrays, but an array has the empty name, so a call with two of them fails, target
included.  So does a column together with an expression that starts with it, such as `x` and `x ** 2`. -/
theorem arrays_fail {α : Type} (solve : List (List (Option K)) → List Bool → α) (b : Bool) (p : Policy K) (y : Arg) (x : List Arg)
    (rows : List (List (Option K))) :
    (Arg.array ∈ x → linReg solve b p .array x rows = .error .duplicate) ∧
    (2 ≤ x.count .array → linReg solve b p y x rows = .error .duplicate) ∧
    ∀ n, (Arg.str n ∈ x ∨ Arg.expr (.col n) ∈ x) → Arg.expr (.unary (.col n)) ∈ x → linReg solve b p y x rows = .error .duplicate := by
  simp only [names_duplicate]
  refine ⟨fun h => ?_, fun h => ?_, fun n h h' => ?_⟩
  · rw [List.map_cons, List.nodup_cons]
    exact fun hc => hc.1 (List.mem_map_of_mem h)
  · intro hc
    rw [List.map_cons, List.nodup_cons] at hc
    have := List.nodup_iff_count_le_one.1 hc.2 ""
    have h2 : x.count .array ≤ (x.map Arg.name).count "" := List.count_le_count_map (f := Arg.name) (x := Arg.array)
    omega
  · intro hc
    rw [List.map_cons, List.nodup_cons] at hc
    have inj := List.inj_on_of_nodup_map hc.2
    rcases h with h | h
    · have := inj h h' rfl
      simp at this
    · have := inj h h' rfl
      simp at this

example : linReg (fun m _ => m) false .raise .array [.array] [[some (1 : ℚ), some 2]] = .error .duplicate :=
  (arrays_fail _ false .raise .array [.array] _).1 (by simp)

example : linReg (fun m _ => m) false .raise (.str "y") [.str "x", .expr (.unary (.col "x"))] [[some (1 : ℚ), some 2, some 4]] =
    .error .duplicate :=
  (arrays_fail _ false .raise _ _ _).2.2 "x" (by simp) (by simp)

/-- **C166e.**  Aliases settle it: features with an alias go by it, whatever their expressions are. -/
theorem alias_names {α : Type} (solve : List (List (Option K)) → List Bool → α) (b : Bool) (p : Policy K) (y : Arg)
    (x : List (PlExpr × String)) (rows : List (List (Option K))) :
    linReg solve b p y (x.map fun e => .expr (.alias e.1 e.2)) rows = .error .duplicate ↔
      ¬ (y.name :: x.map Prod.snd).Nodup := by
  rw [names_duplicate, List.map_cons, List.map_map]
  rfl

example : linReg (fun m _ => m) false .raise (.str "y")
    [.expr (.alias (.col "x") "a"), .expr (.alias (.unary (.col "x")) "b")] [[some (1 : ℚ), some 2, some 4]] ≠
    .error .duplicate :=
  fun h => (alias_names (fun m _ => m) false .raise (.str "y") [(.col "x", "a"), (.unary (.col "x"), "b")]
    [[some (1 : ℚ), some 2, some 4]]).1 h (by decide)

omit [Field K] in
theorem full_modify (f : K → K) (r : List (Option K)) (j : ℕ) : full (r.modify j (Option.map f)) = full r := by
  unfold full
  induction r generalizing j with
  | nil => simp
  | cons a r ih =>
    cases j with
    | zero => simp
    | succ j => simp [ih]

omit [Field K] in
theorem target_modify (f : K → K) (r : List (Option K)) (j : ℕ) :
    (target (r.modify j (Option.map f))).isSome = (target r).isSome := by
  unfold target
  cases r with
  | nil => simp
  | cons a r => cases j <;> simp

/-- **C166e (disagreement).**  With a constant, a column called `literal` — the name polars gives to `1 - pl.col("y")` — is overwritten by
ones: its values do not matter, whether it is a feature or the target, and the matrix has no further constant column. -/
theorem literal_lost (p : Policy K) (names : List String) (h : "literal" ∈ names) (hd : names.Nodup) (rows : List (List (Option K))) :
    (∀ f : K → K, seriesToMat true p names (rows.map fun r => r.modify (names.idxOf "literal") (Option.map f)) =
      seriesToMat true p names rows) ∧
    ∀ m mask, (∀ r ∈ rows, r.length = names.length) → seriesToMat true p names rows = .ok (m, mask) →
      ∀ r ∈ m, r.length = names.length ∧ r[names.idxOf "literal"]? = some (some 1) := by
  constructor
  · intro f
    have h1 : ((rows.map fun r => r.modify (names.idxOf "literal") (Option.map f)).any fun r => (target r).isNone) =
        rows.any fun r => (target r).isNone := by
      rw [List.any_map]
      congr 1
      funext r
      show (target (r.modify _ _)).isNone = _
      have := target_modify f r (names.idxOf "literal")
      cases h' : target (r.modify (names.idxOf "literal") (Option.map f)) <;> cases h'' : target r <;> simp_all
    have h2 : ((rows.map fun r => r.modify (names.idxOf "literal") (Option.map f)).any fun r => !full r) = rows.any fun r => !full r := by
      rw [List.any_map]
      congr 1
      funext r
      show (!full (r.modify _ _)) = _
      rw [full_modify]
    have h3 : (rows.map fun r => r.modify (names.idxOf "literal") (Option.map f)).map full = rows.map full := by
      rw [List.map_map]
      exact List.map_congr_left fun r _ => full_modify f r _
    have h4 : ((rows.map fun r => r.modify (names.idxOf "literal") (Option.map f)).map fun r => (target r).isSome) =
        rows.map fun r => (target r).isSome := by
      rw [List.map_map]
      exact List.map_congr_left fun r _ => target_modify f r _
    have h5 : withOne (⟨names, rows.map fun r => r.modify (names.idxOf "literal") (Option.map f)⟩ : Frame K) = withOne ⟨names, rows⟩ := by
      unfold withOne
      rw [if_pos h, if_pos h]
      simp only [List.map_map]
      congr 1
      apply List.map_congr_left
      intro r _
      show (r.modify _ _).set _ _ = r.set _ _
      apply List.ext_getElem?
      intro i
      simp only [List.getElem?_set, List.length_modify, List.getElem?_modify]
      by_cases hi : names.idxOf "literal" = i
      · simp [hi]
      · simp [hi]
    unfold seriesToMat toFrame
    rw [if_pos hd, if_pos hd]
    simp only [h1, h2, h3, h4, List.isEmpty_map, if_true]
    rw [h5]
  · intro m mask hlen hm
    have key : ∀ r ∈ (withOne (⟨names, rows⟩ : Frame K)).rows, r.length = names.length ∧ r[names.idxOf "literal"]? = some (some 1) := by
      unfold withOne
      rw [if_pos h]
      intro r hr
      obtain ⟨s, hs, rfl⟩ := List.mem_map.1 hr
      have := List.idxOf_lt_length_of_mem h
      refine ⟨by simp [hlen s hs], ?_⟩
      rw [List.getElem?_set_self (by rw [hlen s hs]; exact this)]
    have hname : (withOne (⟨names, rows⟩ : Frame K)).names = names := by
      unfold withOne
      rw [if_pos h]
    have kfill : ∀ x, ∀ r ∈ (fillExcept (names.headD "") x (withOne (⟨names, rows⟩ : Frame K))).rows,
        r.length = names.length ∧ r[names.idxOf "literal"]? = some (some 1) := by
      intro x r hr
      unfold fillExcept at hr
      rw [hname] at hr
      obtain ⟨s, hs, rfl⟩ := List.mem_map.1 hr
      obtain ⟨k1, k2⟩ := key s hs
      refine ⟨by simp [k1], ?_⟩
      rw [List.getElem?_zipWith, k2, List.getElem?_eq_getElem (List.idxOf_lt_length_of_mem h)]
      simp
    have kmask : ∀ (F : Frame K) mk, ∀ r ∈ (filterMask mk F).rows, r ∈ F.rows := by
      intro F mk r hr
      unfold filterMask at hr
      obtain ⟨⟨a, c⟩, ha, hc⟩ := List.mem_filterMap.1 hr
      have := (List.of_mem_zip ha).1
      cases c with
      | false => simp at hc
      | true => simp at hc; rwa [← hc]
    unfold seriesToMat toFrame at hm
    rw [if_pos hd] at hm
    simp only [if_true] at hm
    by_cases he : rows.isEmpty = true
    · rw [if_pos he] at hm; simp at hm
    rw [if_neg he] at hm
    by_cases hh : (rows.any fun r => !full r) = true
    · rw [if_pos hh] at hm
      cases p with
      | raise => simp at hm
      | ignore =>
        simp only at hm
        split_ifs at hm
        simp only [Except.ok.injEq, Prod.mk.injEq] at hm
        rw [← hm.1]; exact key
      | skipWindow =>
        simp only at hm
        split_ifs at hm
        simp only [Except.ok.injEq, Prod.mk.injEq] at hm
        rw [← hm.1]; exact key
      | skip =>
        simp only at hm
        split_ifs at hm
        simp only [Except.ok.injEq, Prod.mk.injEq] at hm
        rw [← hm.1]; exact fun r hr => key r (kmask _ _ r hr)
      | fill x =>
        simp only at hm
        by_cases hy : (rows.any fun r => (target r).isNone) = true
        · rw [if_pos hy] at hm
          simp only at hm
          split_ifs at hm
          simp only [Except.ok.injEq, Prod.mk.injEq] at hm
          rw [← hm.1]; exact fun r hr => kfill x r (kmask _ _ r hr)
        · rw [if_neg hy] at hm
          simp only at hm
          split_ifs at hm
          simp only [Except.ok.injEq, Prod.mk.injEq] at hm
          rw [← hm.1]; exact kfill x
      | fillWindow x =>
        simp only at hm
        by_cases hy : (rows.any fun r => (target r).isNone) = true
        · rw [if_pos hy] at hm
          simp only at hm
          split_ifs at hm
          simp only [Except.ok.injEq, Prod.mk.injEq] at hm
          rw [← hm.1]; exact kfill x
        · rw [if_neg hy] at hm
          simp only at hm
          split_ifs at hm
          simp only [Except.ok.injEq, Prod.mk.injEq] at hm
          rw [← hm.1]; exact kfill x
    · rw [if_neg hh] at hm
      simp only at hm
      split_ifs at hm
      simp only [Except.ok.injEq, Prod.mk.injEq] at hm
      rw [← hm.1]; exact key

example : seriesToMat true .raise ["y", "literal"] [[some (1 : ℚ), some 2], [some 3, some 4]] =
    seriesToMat true .raise ["y", "literal"] [[some 1, some 20], [some 3, some 40]] := by
  rw [← (literal_lost .raise ["y", "literal"] (by decide) (by decide) [[some (1 : ℚ), some 2], [some 3, some 4]]).1 (10 * ·)]
  decide +kernel

/-- **C166f (disagreement).**  So `lin_reg("x", target=1 - pl.col("y"), add_bias=True)` gives the same for every `y`: the solver sees the
target 1 in every row and no constant. -/
theorem literal_target {α : Type} (solve : List (List (Option K)) → List Bool → α) (n x : String) (hx : x ≠ "literal") (ys xs : List K)
    (hl : xs.length = ys.length) (h0 : xs ≠ []) :
    linReg solve true .raise (.expr (.binary .lit (.col n))) [.str x] (List.zipWith (fun y v => [some y, some v]) ys xs) =
      .ok (solve (xs.map fun v => [some 1, some v]) [true]) := by
  have hz : ∀ (ys xs : List K), xs.length = ys.length →
      (List.zipWith (fun y v => [some y, some v]) ys xs).map (fun r => r.set 0 (some 1)) = xs.map fun v => [some (1 : K), some v] := by
    intro ys
    induction ys with
    | nil => intro xs h; cases xs <;> simp_all
    | cons y ys ih =>
      intro xs h
      cases xs with
      | nil => simp at h
      | cons v xs => simp [ih xs (by simpa using h)]
  have hf : ((List.zipWith (fun y v => [some y, some v]) ys xs).any fun r => !full r) = false := by
    rw [List.any_eq_false]
    intro r hr
    rw [List.mem_iff_getElem] at hr
    obtain ⟨i, hi, rfl⟩ := hr
    simp [full]
  have hlen : (List.zipWith (fun y v => [some y, some v]) ys xs).length = xs.length := by simp [hl]
  have hpos := List.length_pos_of_ne_nil h0
  unfold linReg seriesToMat toFrame
  simp only [List.map_cons, List.map_nil, Arg.name, PlExpr.outName]
  rw [if_pos (by simpa using Ne.symm hx)]
  simp only
  rw [if_neg (by rw [List.isEmpty_iff_length_eq_zero, hlen]; omega), hf]
  simp only [if_true, Bool.false_eq_true, if_false]
  unfold withOne
  simp only [List.mem_cons, true_or, if_true, List.idxOf_cons_self, List.length_map, hlen]
  rw [if_neg (by simp; omega), hz ys xs hl]
  rfl

example : linReg (fun m _ => m) true .raise (.expr (.binary .lit (.col "y"))) [.str "x"] [[some (5 : ℚ), some 2], [some 8, some 3]] =
    .ok [[some 1, some 2], [some 1, some 3]] := by decide +kernel

/-- **C166g.**  With several targets the names are `target_0`, `target_1`, …: they do not clash with each other, and the call fails exactly if two
features share a name or a feature has one of these names. -/
theorem multi_names (t : ℕ) (x : List Arg) :
    (multiNames t x).Nodup ↔ (x.map Arg.name).Nodup ∧ ∀ i < t, "target_" ++ Nat.repr i ∉ x.map Arg.name := by
  unfold multiNames
  rw [List.nodup_append]
  have h1 : ((List.range t).map fun i => "target_" ++ Nat.repr i).Nodup := by
    apply List.Nodup.map _ List.nodup_range
    intro i j h
    exact Nat.repr_injective (String.append_right_inj _ |>.1 h)
  constructor
  · rintro ⟨_, h2, h3⟩
    exact ⟨h2, fun i hi hm => h3 _ (List.mem_map.2 ⟨i, List.mem_range.2 hi, rfl⟩) _ hm rfl⟩
  · rintro ⟨h2, h3⟩
    refine ⟨h1, h2, ?_⟩
    rintro a ha c hc rfl
    obtain ⟨i, hi, rfl⟩ := List.mem_map.1 ha
    exact h3 i (List.mem_range.1 hi) hc

example : (multiNames 2 [.str "x", .str "z"]).Nodup ∧ ¬ (multiNames 2 [.str "x", .str "target_1"]).Nodup := by decide +kernel

end Verif.LrNames
