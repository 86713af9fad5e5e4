import Verif.Props.LrFrame

/-!
# `fit_df` and `predict_df` of `LR` and `ElasticNet`: theorems
-/
set_option linter.unusedSectionVars false

namespace Verif.LrFrame.Spec
variable {K : Type} [Field K]

/-- The linear prediction from named coefficients. -/
def linear (coef : String → K) (names : List String) (b : K) (value : String → K) : K :=
  (names.map fun c => coef c * value c).sum + b

end Verif.LrFrame.Spec

namespace Verif.LrFrame
open Verif.LrFrame.Spec
open Verif.LRObject (Obj)
variable {K : Type} [Field K] [LinearOrder K]

theorem filterMap_id_some {A : Type} (a : A) (l : List (Option A)) :
    List.filterMap id (some a :: l) = a :: List.filterMap id l := rfl

theorem filterMap_id_none {A : Type} (l : List (Option A)) : List.filterMap id (none :: l) = List.filterMap id l := rfl

theorem sumRow_known (names : List String) (cs : List K) (r : String → Option K) (value : String → K)
    (hr : ∀ c ∈ names, r c = some (value c)) :
    sumRow names cs r = (List.zipWith (fun c b => b * value c) names cs).sum := by
  unfold sumRow
  induction names generalizing cs with
  | nil => rfl
  | cons c names ih =>
    cases cs with
    | nil => rfl
    | cons b cs =>
      have ih' := ih cs fun c hc => hr c (by simp [hc])
      rw [List.zipWith_cons_cons, List.zipWith_cons_cons, hr c (by simp), Option.map_some, filterMap_id_some,
        List.sum_cons, List.sum_cons, ih']

theorem zip_coef (names : List String) (cs : List K) (value coef : String → K)
    (h : List.Forall₂ (fun c b => coef c = b) names cs) :
    (List.zipWith (fun c b => b * value c) names cs).sum = (names.map fun c => coef c * value c).sum := by
  induction h with
  | nil => rfl
  | cons h1 _ ih => rw [List.zipWith_cons_cons, List.sum_cons, List.map_cons, List.sum_cons, ih, h1]

/-- **C133 (`predict_df`), partial.** When the object has as many names as coefficients and the frame has these columns
without nulls, in whatever order and among whatever other columns, the prediction of a row is the sum of coefficient
times cell, matched by name, plus the bias.  Missing: rows with a null feature (`predict_df_null`) and objects whose
names and coefficients differ in number (`predict_df_short`). -/
theorem predict_df_partial (m : Model K) (df : Frame K) (cs : List K) (b : K) (coef : String → K)
    (hn : m.names ≠ []) (hc : LRObject.coeffsAsVec m.obj = .ok cs) (hb : LRObject.bias m.obj = .ok b)
    (hcoef : List.Forall₂ (fun c b => coef c = b) m.names cs) (hcols : ∀ c ∈ m.names, c ∈ df.cols)
    (value : Nat → String → K)
    (hval : ∀ (i : Nat) (hi : i < df.rows.length), ∀ c ∈ m.names, df.rows[i] c = some (value i c)) :
    ∃ out, predictDf df m = .ok out ∧ out.length = df.rows.length ∧
      ∀ i, i < df.rows.length → out[i]? = some (linear coef m.names b (value i)) := by
  have hall : ((m.names.zip cs).all fun p => decide (p.1 ∈ df.cols)) = true := by
    rw [List.all_eq_true]
    intro p hp
    exact decide_eq_true (hcols _ (List.of_mem_zip hp).1)
  refine ⟨_, by simp only [predictDf, if_neg hn, hc, hb, hall, if_true]; rfl, by simp, fun i hi => ?_⟩
  rw [List.getElem?_map, List.getElem?_eq_getElem hi, Option.map_some]
  have hs : sumRow m.names cs df.rows[i] = (m.names.map fun c => coef c * value i c).sum := by
    rw [sumRow_known _ _ _ _ (hval i hi), zip_coef _ _ _ _ hcoef]
  rw [hs]
  unfold linear
  by_cases h0 : b = 0
  · rw [if_neg (by simpa using h0), h0, add_zero]
  · rw [if_pos h0]

/-- `predict_df` on an example frame. -/
example : predictDf (K := ℚ) ⟨["y", "b", "a"], [fun c => if c = "a" then some 2 else if c = "b" then some 5 else none]⟩
    ⟨⟨some [3, 1, 7], true⟩, ["a", "b"]⟩ = .ok [18] := by decide +kernel

example : LRObject.coeffsAsVec (K := ℚ) ⟨some [3, 1, 7], true⟩ = .ok [3, 1] ∧
    LRObject.bias (K := ℚ) ⟨some [3, 1, 7], true⟩ = .ok 7 ∧
    List.Forall₂ (fun c b => (if c = "a" then (3 : ℚ) else 1) = b) ["a", "b"] [3, 1] :=
  ⟨by decide +kernel, by decide +kernel, by simp⟩

/-- **C133 (`predict_df` against `predict`).** On a frame with the named columns and no nulls, `predict_df` and
`predict` on the matrix of these columns differ at most by the `eps` below which `predict` drops the bias. -/
theorem predict_df_predict [IsStrictOrderedRing K] (eps : K) (heps : 0 ≤ eps) (m : Model K) (df : Frame K) (cs : List K)
    (b : K) (hn : m.names ≠ []) (hc : LRObject.coeffsAsVec m.obj = .ok cs) (hb : LRObject.bias m.obj = .ok b)
    (hlen : m.names.length = cs.length) (hcols : ∀ c ∈ m.names, c ∈ df.cols)
    (hval : ∀ r ∈ df.rows, ∀ c ∈ m.names, r c ≠ none) :
    ∃ out out', predictDf df m = .ok out ∧
      LRObject.predict eps m.obj m.names.length (df.rows.map fun r => m.names.map fun c => (r c).getD 0) = .ok out' ∧
      List.Forall₂ (fun p q => |p - q| ≤ eps) out out' := by
  have hall : ((m.names.zip cs).all fun p => decide (p.1 ∈ df.cols)) = true := by
    rw [List.all_eq_true]
    intro p hp
    exact decide_eq_true (hcols _ (List.of_mem_zip hp).1)
  have hco : LRObject.coefficients m.obj = .ok (some cs) := by
    unfold LRObject.coeffsAsVec at hc
    cases h : LRObject.coefficients m.obj with
    | error e => rw [h] at hc; cases hc
    | ok o =>
      cases o with
      | none => rw [h] at hc; cases hc
      | some l => rw [h] at hc; injection hc with hc; rw [hc]
  have hrow : ∀ r ∈ df.rows, sumRow m.names cs r = LRObject.rowDot (m.names.map fun c => (r c).getD 0) cs := by
    intro r hr
    rw [sumRow_known m.names cs r (fun c => (r c).getD 0)]
    · unfold LRObject.rowDot
      rw [List.zipWith_map_left]
      congr 2
      funext c b
      exact mul_comm _ _
    · intro c hcn
      cases h : r c with
      | none => exact absurd h (hval r hr c hcn)
      | some v => rfl
  have hout : predictDf df m = .ok (df.rows.map fun r => if b ≠ 0 then sumRow m.names cs r + b else sumRow m.names cs r) := by
    simp only [predictDf, if_neg hn, hc, hb, hall, if_true]
  have hb0 : m.obj.hasBias = false → b = 0 := by
    intro h
    unfold LRObject.bias at hb
    rw [h] at hb
    simpa using hb.symm
  by_cases hbig : m.obj.hasBias = true ∧ eps < |b|
  · refine ⟨_, (df.rows.map fun r => m.names.map fun c => (r c).getD 0).map fun r => LRObject.rowDot r cs + b, hout,
      ?_, ?_⟩
    · simp only [LRObject.predict, hco, Option.getD_some, hlen, ne_eq, not_true_eq_false, if_false, hb, if_pos hbig]
    · rw [List.map_map, List.forall₂_map_left_iff, List.forall₂_map_right_iff, List.forall₂_same]
      intro r hr
      have hb' : b ≠ 0 := by
        rintro rfl
        rw [abs_zero] at hbig
        exact absurd hbig.2 (not_lt.2 heps)
      rw [if_pos hb', hrow r hr, Function.comp_apply, sub_self, abs_zero]
      exact heps
  · refine ⟨_, (df.rows.map fun r => m.names.map fun c => (r c).getD 0).map fun r => LRObject.rowDot r cs, hout,
      ?_, ?_⟩
    · simp only [LRObject.predict, hco, Option.getD_some, hlen, ne_eq, not_true_eq_false, if_false, hb, if_neg hbig]
    · rw [List.map_map, List.forall₂_map_left_iff, List.forall₂_map_right_iff, List.forall₂_same]
      intro r hr
      have hle : |b| ≤ eps := by
        cases hh : m.obj.hasBias with
        | false => rw [hb0 hh, abs_zero]; exact heps
        | true => exact not_lt.1 fun h => hbig ⟨hh, h⟩
      rw [hrow r hr, Function.comp_apply]
      by_cases h0 : b = 0
      · rw [if_neg (by simpa using h0), sub_self, abs_zero]; exact heps
      · rw [if_pos h0, add_sub_cancel_left]; exact hle

example : LRObject.predict (K := ℚ) (1 / 1000) ⟨some [3, 1, 7], true⟩ 2 [[2, 5]] = .ok [18] := by decide +kernel

theorem sumRow_null (names : List String) (cs : List K) (r : String → Option K) :
    sumRow names cs r = sumRow names cs fun c => some ((r c).getD 0) := by
  unfold sumRow
  induction names generalizing cs with
  | nil => rfl
  | cons c names ih =>
    cases cs with
    | nil => rfl
    | cons b cs =>
      rw [List.zipWith_cons_cons, List.zipWith_cons_cons, Option.map_some]
      cases h : r c with
      | none =>
        rw [Option.map_none, filterMap_id_none, filterMap_id_some, List.sum_cons, ih cs,
          Option.getD_none, mul_zero, zero_add]
      | some v =>
        rw [Option.map_some, filterMap_id_some, filterMap_id_some, List.sum_cons, List.sum_cons,
          ih cs, Option.getD_some]

/-- **C133 (null features count as zero).** `predict_df` on any frame is `predict_df` on the frame with every null
replaced by 0: a row with a missing feature gets a number, not a null, whatever null policy the object was fitted
with. -/
theorem predict_df_null (df : Frame K) (m : Model K) :
    predictDf df m = predictDf ⟨df.cols, df.rows.map fun r c => some ((r c).getD 0)⟩ m := by
  unfold predictDf
  by_cases hn : m.names = []
  · rw [if_pos hn, if_pos hn]
  rw [if_neg hn, if_neg hn]
  cases LRObject.coeffsAsVec m.obj with
  | error e => rfl
  | ok cs =>
    cases LRObject.bias m.obj with
    | error e => rfl
    | ok b =>
      simp only [List.map_map]
      congr 2
      refine List.map_congr_left fun r _ => ?_
      simp only [Function.comp_apply]
      rw [sumRow_null]

example : predictDf (K := ℚ) ⟨["a"], [fun _ => none, fun _ => some 0]⟩ ⟨⟨some [3, 7], true⟩, ["a"]⟩ = .ok [7, 7] := by
  decide +kernel

theorem zipWith_take_left {A B C : Type} (f : A → B → C) (l : List A) (l' : List B) :
    List.zipWith f l l' = List.zipWith f l (l'.take l.length) := by
  induction l generalizing l' with
  | nil => simp
  | cons a l ih =>
    cases l' with
    | nil => rfl
    | cons b l' => rw [List.zipWith_cons_cons, ih, List.length_cons, List.take_succ_cons, List.zipWith_cons_cons]

/-- **C133 (too few names).** With fewer names than coefficients (after `set_input_features`, or after a fit on a wider
matrix) `predict_df` silently leaves the remaining coefficients out: it is the prediction of an object with the leading
coefficients only. -/
theorem predict_df_short (df : Frame K) (names : List String) (cs : List K) :
    predictDf df ⟨⟨some cs, false⟩, names⟩ = predictDf df ⟨⟨some (cs.take names.length), false⟩, names⟩ := by
  unfold predictDf
  by_cases hn : names = []
  · simp only [hn, if_true]
  simp only [if_neg hn, LRObject.coeffsAsVec, LRObject.coefficients, LRObject.bias, Bool.false_eq_true, if_false,
    ne_eq, not_true_eq_false, sumRow]
  have hz : names.zip cs = names.zip (cs.take names.length) := by
    unfold List.zip
    exact zipWith_take_left _ _ _
  rw [hz]
  congr 2
  refine List.map_congr_left fun r _ => ?_
  rw [zipWith_take_left]

example : predictDf (K := ℚ) ⟨["a"], [fun _ => some 2]⟩ (setInputFeatures (.list ["a"]) ⟨⟨some [3, 5], false⟩, []⟩) =
    .ok [6] := by decide +kernel

/-! ## Histories -/

theorem rawFit_ok {solve : Solve K} {wide : Bool} {n : Nat} {rows : List (NRow K)} {m m' : Model K}
    (h : rawFit solve wide n rows m = .ok m') :
    m'.names = m.names ∧ m'.obj.coefs = some (solve rows m.obj.hasBias) ∧ m'.obj.hasBias = m.obj.hasBias := by
  unfold rawFit at h
  by_cases hc : ((!wide && decide (rows.length < n)) || rows.isEmpty) = true
  · rw [if_pos hc] at h; cases h
  · rw [if_neg hc] at h
    injection h with h
    subst h
    exact ⟨rfl, rfl, rfl⟩

/-- **C133 (`fit_df`).** After a `fit_df` that raised nothing, with a list of its own as `features`, the object has the
names given and the coefficients of the solver on the rows left by the null policy, whatever it was fitted on and named
before. -/
theorem fit_df_state (parse : String → Option (V K)) (solve : Solve K) (wide report : Bool) (df : Frame (V K))
    (features : List String) (target s : String) (m m' : Model K)
    (h : fitDf parse solve wide report df (.list features) target s m = (m', none)) :
    m'.names = features ∧ m'.obj.hasBias = m.obj.hasBias ∧
      ∃ rows, handleDf parse s (df.rows.map fun r => (features.map r, r target)) = .ok rows ∧
        m'.obj.coefs = some (solve (rows.map toNumpy) m.obj.hasBias) := by
  unfold fitDf at h
  simp only at h
  by_cases c1 : (!selectOk df ((Feats.list features).read m ++ [target])) = true
  · rw [if_pos c1] at h; cases h
  rw [if_neg c1] at h
  by_cases c2 : (report && (handleDf parse "raise" (rowsOf df ((Feats.list features).read m) target)).toOption.isNone) = true
  · rw [if_pos c2] at h; cases h
  rw [if_neg c2] at h
  simp only [Feats.read, Feats.afterClear, rowsOf] at h
  cases hh : handleDf parse s (df.rows.map fun r => (features.map r, r target)) with
  | error e => rw [hh] at h; cases h
  | ok rows =>
    rw [hh] at h
    simp only at h
    cases hf : rawFit solve wide features.length (rows.map toNumpy) { m with names := features } with
    | error e => rw [hf] at h; cases h
    | ok m2 =>
      rw [hf] at h
      simp only [Prod.mk.injEq, and_true] at h
      subst h
      obtain ⟨h1, h2, h3⟩ := rawFit_ok hf
      exact ⟨h1, h3, rows, rfl, h2⟩

/-- A solver for one feature: the first target over the first feature. -/
def exSolve : Solve ℚ := fun rows _ => match rows with
  | ([.num x], .num y) :: _ => [y / x]
  | _ => [0]

example : (fitDf (K := ℚ) (fun _ => none) exSolve false false ⟨["a", "y"],
    [fun c => if c = "a" then none else some (.num 1), fun c => if c = "a" then some (.num 2) else some (.num 6)]⟩
    (.list ["a"]) "y" "skip" ⟨⟨none, false⟩, ["old"]⟩).1.obj.coefs = some [3] := by decide +kernel

/-- **C133 (failed calls), partial.** A `fit_df` that raises leaves the coefficients alone, and also the names unless
the solver itself raised.  Missing: the names after an error of the solver (`fit_df_failed_names`). -/
theorem fit_df_failed_partial (parse : String → Option (V K)) (solve : Solve K) (wide report : Bool) (df : Frame (V K))
    (f : Feats) (target s : String) (m m' : Model K) (e : Err)
    (h : fitDf parse solve wide report df f target s m = (m', some e)) :
    m'.obj = m.obj ∧ (e ≠ .notEnough → m' = m) := by
  unfold fitDf at h
  simp only at h
  by_cases c1 : (!selectOk df (f.read m ++ [target])) = true
  · rw [if_pos c1, Prod.mk.injEq] at h; rw [← h.1]; exact ⟨rfl, fun _ => rfl⟩
  rw [if_neg c1] at h
  by_cases c2 : (report && (handleDf parse "raise" (rowsOf df (f.read m) target)).toOption.isNone) = true
  · rw [if_pos c2, Prod.mk.injEq] at h; rw [← h.1]; exact ⟨rfl, fun _ => rfl⟩
  rw [if_neg c2] at h
  cases hh : handleDf parse s (rowsOf df (f.read m) target) with
  | error e => rw [hh] at h; simp only [Prod.mk.injEq] at h; rw [← h.1]; exact ⟨rfl, fun _ => rfl⟩
  | ok rows =>
    rw [hh] at h
    simp only at h
    cases hf : rawFit solve wide (f.read m).length (rows.map toNumpy) { m with names := f.afterClear } with
    | error e' =>
      rw [hf] at h
      simp only [Prod.mk.injEq, Option.some.injEq] at h
      obtain ⟨rfl, rfl⟩ := h
      refine ⟨rfl, fun hne => ?_⟩
      unfold rawFit at hf
      split at hf
      · injection hf with hf; exact absurd hf.symm hne
      · cases hf
    | ok m2 =>
      rw [hf] at h
      simp at h

/-- **C133 (a failed fit renames).** An object fitted on column "a" whose later `fit_df` on column "b" fails keeps the
coefficient of "a" and predicts with it from column "b". -/
theorem fit_df_failed_names :
    ∃ m' : Model ℚ, fitDf (fun _ => none) exSolve false false ⟨["b", "y"], [fun c => if c = "b" then none else some (.num 1)]⟩
        (.list ["b"]) "y" "skip" ⟨⟨some [3], false⟩, ["a"]⟩ = (m', some .notEnough) ∧
      predictDf ⟨["a", "b"], [fun c => if c = "a" then some 1 else some 100]⟩ m' = .ok [300] :=
  ⟨⟨⟨some [3], false⟩, ["b"]⟩, rfl, by decide +kernel⟩

example : predictDf (K := ℚ) ⟨["a", "b"], [fun c => if c = "a" then some 1 else some 100]⟩ ⟨⟨some [3], false⟩, ["a"]⟩ =
    .ok [3] := by decide +kernel

/-- **C133 (own names).** Passing the object its own list `feature_names_in_`, to `set_input_features` or to a `fit_df`
that succeeds, leaves it without names, so that `predict_df` raises. -/
theorem own_names_lost (parse : String → Option (V K)) (solve : Solve K) (wide report : Bool) (df : Frame (V K))
    (target s : String) (m m' : Model K) (h : fitDf parse solve wide report df .own target s m = (m', none))
    (df' : Frame K) :
    predictDf df' m' = .error .noNames ∧ predictDf df' (setInputFeatures .own m) = .error .noNames := by
  refine ⟨?_, by simp [predictDf, setInputFeatures, Feats.afterClear]⟩
  have hn : m'.names = [] := by
    unfold fitDf at h
    simp only at h
    by_cases c1 : (!selectOk df (Feats.own.read m ++ [target])) = true
    · rw [if_pos c1] at h; cases h
    rw [if_neg c1] at h
    by_cases c2 : (report && (handleDf parse "raise" (rowsOf df (Feats.own.read m) target)).toOption.isNone) = true
    · rw [if_pos c2] at h; cases h
    rw [if_neg c2] at h
    cases hh : handleDf parse s (rowsOf df (Feats.own.read m) target) with
    | error e => rw [hh] at h; cases h
    | ok rows =>
      rw [hh] at h
      simp only at h
      cases hf : rawFit solve wide (Feats.own.read m).length (rows.map toNumpy) { m with names := Feats.own.afterClear } with
      | error e => rw [hf] at h; cases h
      | ok m2 =>
        rw [hf] at h
        simp only [Prod.mk.injEq, and_true] at h
        subst h
        exact (rawFit_ok hf).1
  simp [predictDf, hn]

example : (fitDf (K := ℚ) (fun _ => none) exSolve false false ⟨["a", "y"],
    [fun c => if c = "a" then some (.num 2) else some (.num 6)]⟩ .own "y" "skip" ⟨⟨some [5], false⟩, ["a"]⟩).2 = none := by
  decide +kernel

/-- **C133 (`show_report`).** With `show_report` a null in a feature or the target makes `fit_df` raise, also under the
null policies that handle it: the report is asked for with its own policy "raise". -/
theorem report_raises (parse : String → Option (V K)) (solve : Solve K) (wide : Bool) (df : Frame (V K))
    (features : List String) (target s : String) (m : Model K)
    (hok : selectOk df (features ++ [target]) = true)
    (hnull : ∃ r ∈ df.rows, ∃ c ∈ features ++ [target], r c = none) :
    fitDf parse solve wide true df (.list features) target s m = (m, some .nulls) := by
  unfold fitDf
  simp only [Feats.read, hok, Bool.not_true, Bool.false_eq_true, if_false, Bool.true_and]
  have hr : handleDf parse "raise" (rowsOf df features target) = .error .nulls := by
    apply (fit_df_raise parse _).1
    obtain ⟨r, hr, c, hc, hn⟩ := hnull
    refine ⟨_, List.mem_map.2 ⟨r, hr, rfl⟩, ?_⟩
    rcases List.mem_append.1 hc with hc | hc
    · exact List.mem_cons_of_mem _ (List.mem_map.2 ⟨c, hc, hn⟩)
    · rw [List.mem_singleton] at hc
      subst hc
      rw [hn]
      exact List.mem_cons_self
  rw [hr]
  rfl

example : (fitDf (K := ℚ) (fun _ => none) exSolve false false ⟨["a", "y"],
    [fun c => if c = "a" then none else some (.num 1), fun c => if c = "a" then some (.num 2) else some (.num 6)]⟩
    (.list ["a"]) "y" "skip" ⟨⟨none, false⟩, []⟩).2 = none ∧
    (fitDf (K := ℚ) (fun _ => none) exSolve false true ⟨["a", "y"],
    [fun c => if c = "a" then none else some (.num 1), fun c => if c = "a" then some (.num 2) else some (.num 6)]⟩
    (.list ["a"]) "y" "skip" ⟨⟨none, false⟩, []⟩).2 = some .nulls := by decide +kernel

/-- **C133 (`fit_df` against `fit`).** On a frame without NaN and infinities, `fit_df` and `fit` on the matrix of the
same columns, with the same policy, end in the same coefficients and the same error. -/
theorem fit_df_fit (big : K) (parse : String → Option (V K)) (solve : Solve K) (wide : Bool) (df : Frame (V K))
    (features : List String) (target s : String) (m : Model K)
    (hok : selectOk df (features ++ [target]) = true)
    (hplain : ∀ r ∈ df.rows, ∀ c ∈ features ++ [target], Plain (r c)) :
    (fitDf parse solve wide false df (.list features) target s m).1.obj =
        (fit big parse solve wide features.length
          (df.rows.map fun r => (features.map fun c => (r c).getD .nan, (r target).getD .nan)) s m).1.obj ∧
      (fitDf parse solve wide false df (.list features) target s m).2 =
        (fit big parse solve wide features.length
          (df.rows.map fun r => (features.map fun c => (r c).getD .nan, (r target).getD .nan)) s m).2 := by
  have hrows : (df.rows.map fun r => (features.map fun c => (r c).getD .nan, (r target).getD .nan)) =
      (rowsOf df features target).map toNumpy := by
    simp only [rowsOf, List.map_map, toNumpy, Function.comp_def]
  rw [hrows]
  have hag := df_np_agree big parse s (rowsOf df features target) (by
    intro r hr c hc
    obtain ⟨r0, hr0, rfl⟩ := List.mem_map.1 hr
    rcases List.mem_cons.1 hc with rfl | hc
    · exact hplain r0 hr0 target (by simp)
    · obtain ⟨n, hn, rfl⟩ := List.mem_map.1 hc
      exact hplain r0 hr0 n (by simp [hn]))
  unfold fitDf fit
  simp only [Feats.read, hok, Bool.not_true, Bool.false_eq_true, if_false, Bool.false_and, Feats.afterClear, ← hag]
  cases hh : handleDf parse s (rowsOf df features target) with
  | error e => simp [Except.map, Except.bind]
  | ok rows =>
    simp only [Except.map, Except.bind]
    unfold rawFit
    by_cases hc : ((!wide && decide ((rows.map toNumpy).length < features.length)) || (rows.map toNumpy).isEmpty) = true
    · simp only [if_pos hc, and_self]
    · simp only [if_neg hc, and_self]

example : selectOk (C := V ℚ) ⟨["a", "y"], []⟩ (["a"] ++ ["y"]) = true := by decide +kernel

/-- **C133 (`fit`).** `fit` on a matrix keeps the names; it keeps the whole object if it raises, and otherwise the
coefficients are those of the solver on the rows left by the null policy. -/
theorem fit_state (big : K) (parse : String → Option (V K)) (solve : Solve K) (wide : Bool) (ncols : Nat)
    (rows : List (NRow K)) (s : String) (m : Model K) :
    (∀ m' e, fit big parse solve wide ncols rows s m = (m', some e) → m' = m) ∧
    (∀ m', fit big parse solve wide ncols rows s m = (m', none) → m'.names = m.names ∧
      m'.obj.hasBias = m.obj.hasBias ∧ ∃ out, handleNp big parse s rows = .ok out ∧
        m'.obj.coefs = some (solve out m.obj.hasBias)) := by
  unfold fit
  cases hh : handleNp big parse s rows with
  | error e =>
    simp only [Except.bind, Prod.mk.injEq]
    exact ⟨fun m' e' h => h.1.symm, fun m' h => by simp at h⟩
  | ok out =>
    simp only [Except.bind]
    cases hf : rawFit solve wide ncols out m with
    | error e =>
      simp only [Prod.mk.injEq]
      exact ⟨fun m' e' h => h.1.symm, fun m' h => by simp at h⟩
    | ok m2 =>
      simp only [Prod.mk.injEq]
      refine ⟨fun m' e' h => by simp at h, ?_⟩
      rintro m' ⟨rfl, -⟩
      obtain ⟨h1, h2, h3⟩ := rawFit_ok hf
      exact ⟨h1, h3, out, rfl, h2⟩

example : (fit (K := ℚ) 1000 (fun _ => none) exSolve false 1 [([.nan], .num 1)] "skip" ⟨⟨some [3], false⟩, ["a"]⟩) =
    (⟨⟨some [3], false⟩, ["a"]⟩, some .notEnough) ∧
    (fit (K := ℚ) 1000 (fun _ => none) exSolve false 1 [([.nan], .num 1), ([.num 2], .num 8)] "skip"
      ⟨⟨some [3], false⟩, ["a"]⟩).1.obj.coefs = some [4] := ⟨rfl, by decide +kernel⟩

/-- **C133 (names).** `fit_df` complains about the columns, and leaves the object as it was, exactly if a feature or the
target is not in the frame or a name is repeated, the target among the features included. -/
theorem fit_df_names (parse : String → Option (V K)) (solve : Solve K) (wide report : Bool) (df : Frame (V K))
    (features : List String) (target s : String) (m : Model K) :
    fitDf parse solve wide report df (.list features) target s m = (m, some .column) ↔
      (∃ c ∈ features, c ∉ df.cols) ∨ target ∉ df.cols ∨ ¬ features.Nodup ∨ target ∈ features := by
  have hsel : selectOk df (features ++ [target]) = false ↔
      (∃ c ∈ features, c ∉ df.cols) ∨ target ∉ df.cols ∨ ¬ features.Nodup ∨ target ∈ features := by
    rw [← Bool.not_eq_true, selectOk, Bool.and_eq_true, List.all_eq_true, decide_eq_true_eq, List.nodup_append]
    simp only [List.mem_append, List.mem_singleton, decide_eq_true_eq, List.nodup_singleton, true_and]
    constructor
    · intro h
      by_contra hc
      push Not at hc
      refine h ⟨?_, hc.2.2.1, ?_⟩
      · rintro c (hx | rfl)
        · exact hc.1 c hx
        · exact hc.2.1
      · rintro a ha b rfl rfl
        exact hc.2.2.2 ha
    · rintro (⟨c, h1, h2⟩ | h | h | h) ⟨g1, g2, g3⟩
      · exact h2 (g1 c (Or.inl h1))
      · exact h (g1 target (Or.inr rfl))
      · exact h g2
      · exact g3 _ h _ rfl rfl
  rw [← hsel]
  unfold fitDf
  simp only [Feats.read, Feats.afterClear]
  by_cases hs : selectOk df (features ++ [target]) = true
  · simp only [hs, Bool.not_true, Bool.false_eq_true, if_false, Bool.true_eq_false, iff_false]
    intro h
    by_cases c2 : (report && (handleDf parse "raise" (rowsOf df features target)).toOption.isNone) = true
    · simp [c2] at h
    rw [Bool.not_eq_true] at c2
    simp only [c2, Bool.false_eq_true, if_false] at h
    cases hh : handleDf parse s (rowsOf df features target) with
    | error e =>
      rw [hh] at h
      simp only [Prod.mk.injEq, Option.some.injEq, true_and] at h
      subst h
      unfold handleDf at hh
      split_ifs at hh
      all_goals try cases hh
      cases hp : parse s with
      | none => simp [hp] at hh
      | some v => cases v <;> simp [hp] at hh
    | ok rows =>
      rw [hh] at h
      simp only at h
      cases hf : rawFit solve wide features.length (rows.map toNumpy) { m with names := features } with
      | error e =>
        rw [hf] at h
        simp only [Prod.mk.injEq, Option.some.injEq] at h
        unfold rawFit at hf
        split_ifs at hf
        cases hf
        cases h.2
      | ok m2 =>
        rw [hf] at h
        simp at h
  · simp [hs]

example : fitDf (K := ℚ) (fun _ => none) exSolve false false ⟨["a", "y"], []⟩ (.list ["a", "a"]) "y" "skip"
    ⟨⟨some [3], false⟩, ["a"]⟩ = (⟨⟨some [3], false⟩, ["a"]⟩, some .column) :=
  (fit_df_names _ _ _ _ _ _ _ _ _).2 (by decide)

end Verif.LrFrame
