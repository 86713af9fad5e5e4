import Verif.Props.Online

/-!
# Recursive and rolling regression: theorems
-/
set_option linter.unusedSectionVars false

namespace Verif.Online
open Matrix Verif.LinReg Verif.LinReg.Spec Verif.Online.Spec
variable {K : Type} [Field K] [LinearOrder K] [IsStrictOrderedRing K] {d : Nat}

theorem FullRank.mono {a b : List ((Fin d → K) × K)} (h : FullRank a) (hs : ∀ r ∈ a, r ∈ b) : FullRank b :=
  fun v hv => h v fun r hr => hv r (hs r hr)

theorem update_complete (s : Option (State d K)) (r : (Fin d → K) × K) (c : K) :
    update s (complete r) c = s.bind fun s => woodburyStep s r.1 r.2 c := by
  unfold update
  rw [clean_complete]

theorem emit_complete (r : (Fin d → K) × K) (w : Fin d → K) :
    emit (complete r) (.val w) = .row w (some (dot r.1 w)) := by
  unfold emit
  simp only
  rw [if_neg (by simp [complete])]
  simp [complete, dot, dotProduct]

theorem normal_unit_perm {a b : List ((Fin d → K) × K)} (h : a.Perm b) (p : Fin d → K) :
    normal (unit a) p = normal (unit b) p := normal_perm (h.map _) p

/-! ## Recursive -/

theorem recursiveLoop_fits (p : Fin d → K) (rest : List ((Fin d → K) × K)) :
    ∀ (s : State d K) (pre : List ((Fin d → K) × K)), Fits s pre p →
      (∀ k ≤ rest.length, IsUnit (normal (unit (pre ++ rest.take k)) p).det) →
      (recursiveLoop (some s) (rest.map complete)).length = rest.length ∧
      ∀ k < rest.length, ∃ s', (recursiveLoop (some s) (rest.map complete))[k]? = some (.val s'.w) ∧
        Fits s' (pre ++ rest.take (k + 1)) p := by
  induction rest with
  | nil => intro s pre _ _; simp [recursiveLoop]
  | cons r rest ih =>
    intro s pre hf hu
    have h1 := hu 1 (by simp)
    have hp1 : (r :: pre).Perm (pre ++ [r]) := (List.perm_append_singleton r pre).symm
    have h1' : IsUnit (normal (unit (r :: pre)) p).det := by
      rw [normal_unit_perm hp1]
      simpa using h1
    obtain ⟨s', hs, hf'⟩ := hf.add r.1 r.2 h1'
    have hf' := Fits.perm hf' hp1
    have hupd : update (some s) (complete r) 1 = some s' := by rw [update_complete]; exact hs
    have hk := ih s' (pre ++ [r]) hf' (by
      intro k hk
      have := hu (k + 1) (by simp; omega)
      simpa [List.append_assoc] using this)
    rw [List.map_cons, recursiveLoop, hupd]
    refine ⟨by simp [hk.1], ?_⟩
    intro k hlt
    cases k with
    | zero => exact ⟨s', by simp [fitted], by simpa using hf'⟩
    | succ k =>
      obtain ⟨s2, e2, f2⟩ := hk.2 k (by simpa using hlt)
      refine ⟨s2, by simpa using e2, by simpa [List.append_assoc] using f2⟩

theorem recursive_fits (S : Solver K) (rows : List ((Fin d → K) × K)) (n : Nat) (hn : n ≤ rows.length) (lam : K)
    (hl : 0 ≤ lam) (h : 0 < lam ∨ FullRank (rows.take n)) :
    ∃ cs, recursiveLstsq S (rows.map complete) n lam = some cs ∧ cs.length = rows.length - n + 1 ∧
      ∀ k, k < rows.length - n + 1 → ∃ s, cs[k]? = some (.val s.w) ∧ Fits s (rows.take (n + k)) (pen lam d) := by
  have hu : ∀ k, IsUnit (normal (unit (rows.take (n + k))) (pen lam d)).det := by
    intro k
    apply ridge_unit _ _ hl
    rcases h with h | h
    · exact .inl h
    · exact .inr (FullRank.mono h fun r hr => (List.take_subset_take_left rows (by omega)) hr)
  have hf := qr_fits S (rows.take n) lam hl false (by rw [absDiff_zero]; exact hu 0)
  rw [absDiff_zero] at hf
  have hta : ∀ k, rows.take n ++ (rows.drop n).take k = rows.take (n + k) := fun k => List.take_add.symm
  have hL := recursiveLoop_fits (pen lam d) (rows.drop n) _ _ hf (by
    intro k _
    rw [hta]
    exact hu k)
  refine ⟨_, by
    unfold recursiveLstsq
    rw [if_neg (by rw [List.length_map]; omega), ← List.map_take, ← List.map_drop, fit_complete], ?_, ?_⟩
  · rw [List.length_cons, hL.1, List.length_drop]
  · intro k hk
    cases k with
    | zero => exact ⟨_, by simp [fitted], hf⟩
    | succ k =>
      obtain ⟨s, e, f⟩ := hL.2 k (by rw [List.length_drop]; omega)
      rw [hta] at f
      exact ⟨s, by simpa using e, f⟩

/-- Recursive regression without nulls: null before row `n - 1`, and from then on, on every row `i`, the ridge
solution of rows `0..i` (all columns penalised alike) with the prediction of row `i`. -/
theorem recursive_prefix_partial (S : Solver K) (rows : List ((Fin d → K) × K)) (n : Nat) (hn0 : 1 ≤ n) (hn : n ≤ rows.length)
    (lam : K) (hl : 0 ≤ lam) (h : 0 < lam ∨ FullRank (rows.take n)) :
    ∃ out, recursiveExpr S (rows.map complete) [true] n lam = some out ∧ out.length = rows.length ∧
      ∀ i (hi : i < rows.length),
        (i + 1 < n → out[i]? = some .null) ∧
        (n ≤ i + 1 → ∃ w, out[i]? = some (.row w (some (dot rows[i].1 w))) ∧ IsRidge (rows.take (i + 1)) lam w) := by
  obtain ⟨cs, e, hlen, hk⟩ := recursive_fits S rows n hn lam hl h
  have hm : absDiff n 1 = n - 1 := by unfold absDiff; omega
  refine ⟨_, by unfold recursiveExpr; rw [e]; simp only [List.any_cons, List.any_nil]; rfl, ?_, ?_⟩
  · rw [hm, List.length_append, List.length_replicate, List.length_zipWith, List.length_drop, List.length_map, hlen]
    omega
  · intro i hi
    rw [hm]
    refine ⟨fun hlt => ?_, fun hge => ?_⟩
    · rw [List.getElem?_append_left (by rw [List.length_replicate]; omega), List.getElem?_replicate, if_pos (by omega)]
    · obtain ⟨s, es, f⟩ := hk (i - (n - 1)) (by omega)
      refine ⟨s.w, ?_, ?_⟩
      · rw [List.getElem?_append_right (by rw [List.length_replicate]; omega), List.length_replicate,
          List.getElem?_zipWith, es, List.getElem?_drop]
        have : n - 1 + (i - (n - 1)) = i := by omega
        rw [this, List.getElem?_map, List.getElem?_eq_getElem hi]
        simp only [Option.map_some]
        rw [emit_complete]
      · have : n + (i - (n - 1)) = i + 1 := by omega
        rw [this] at f
        exact f.isRidge hl

/-! ## Rolling -/

theorem rollingLoop_fits (p : Fin d → K) (n' : Nat) (old : List ((Fin d → K) × K)) :
    ∀ (s : State d K), Fits s (old.take (n' + 1)) p →
      (∀ k, k + (n' + 1) < old.length → IsUnit (normal (unit ((old.drop (k + 1)).take n')) p).det ∧
        IsUnit (normal (unit ((old.drop (k + 1)).take (n' + 1))) p).det) →
      (rollingLoop (some s) (old.map complete) ((old.drop (n' + 1)).map complete)).length = old.length - (n' + 1) ∧
      ∀ k, k + (n' + 1) < old.length → ∃ s',
        (rollingLoop (some s) (old.map complete) ((old.drop (n' + 1)).map complete))[k]? = some (.val s'.w) ∧
        Fits s' ((old.drop (k + 1)).take (n' + 1)) p := by
  induction old with
  | nil => intro s _ _; simp [rollingLoop]
  | cons o old ih =>
    intro s hf hu
    rw [List.drop_succ_cons]
    cases hd : old.drop n' with
    | nil =>
      have hle : old.length ≤ n' := by
        have := congrArg List.length hd
        rw [List.length_drop, List.length_nil] at this
        omega
      constructor
      · simp [rollingLoop]; omega
      · intro k hk
        rw [List.length_cons] at hk
        omega
    | cons r new =>
      have hlt : n' < old.length := by
        have := congrArg List.length hd
        rw [List.length_drop, List.length_cons] at this
        omega
      have hr : old[n']? = some r := by
        have := congrArg (·[0]?) hd
        simpa using this
      have htk : old.take (n' + 1) = old.take n' ++ [r] := by
        rw [List.take_add_one, hr]; rfl
      have hd1 : old.drop (n' + 1) = new := by
        rw [← List.tail_drop, hd]; rfl
      obtain ⟨u1, u2⟩ := hu 0 (by rw [List.length_cons]; omega)
      rw [List.drop_succ_cons, List.drop_zero] at u1 u2
      rw [List.take_succ_cons] at hf
      obtain ⟨s1, e1, f1⟩ := Fits.remove o.1 o.2 hf u1
      have hperm : (r :: old.take n').Perm (old.take (n' + 1)) := by
        rw [htk]; exact (List.perm_append_singleton _ _).symm
      obtain ⟨s2, e2, f2⟩ := f1.add r.1 r.2 (by rw [normal_unit_perm hperm]; exact u2)
      have f2 := Fits.perm f2 hperm
      have hupd : update (update (some s) (complete o) (-1)) (complete r) 1 = some s2 := by
        rw [update_complete, update_complete]
        simp only [Option.bind_some]
        rw [e1]
        exact e2
      have hk := ih s2 f2 (by
        intro k hk
        have := hu (k + 1) (by rw [List.length_cons]; omega)
        rwa [List.drop_succ_cons] at this)
      rw [hd1] at hk
      rw [List.map_cons, List.map_cons, rollingLoop, hupd]
      constructor
      · rw [List.length_cons, hk.1, List.length_cons]; omega
      · intro k hlt'
        cases k with
        | zero => exact ⟨s2, by simp [fitted], by simpa using f2⟩
        | succ k =>
          obtain ⟨s3, e3, f3⟩ := hk.2 k (by rw [List.length_cons] at hlt'; omega)
          exact ⟨s3, by simpa using e3, by simpa using f3⟩

/-- Rolling regression without nulls: null before row `n - 1`, then on every row `i` the ridge solution of rows
`i-n+1..i` with the prediction of row `i`.  Without a penalty every `n - 1` consecutive rows after the first must
determine a solution, because the oldest row is removed before the next is added. -/
theorem rolling_window_partial (S : Solver K) (rows : List ((Fin d → K) × K)) (n minSize : Nat) (hn0 : 1 ≤ n)
    (hn : n ≤ rows.length) (lam : K) (hl : 0 ≤ lam)
    (h : 0 < lam ∨ (FullRank (rows.take n) ∧
      ∀ k, k + n < rows.length → FullRank ((rows.drop (k + 1)).take (n - 1)))) :
    ∃ out, rollingExpr S (rows.map complete) false n minSize lam = some out ∧ out.length = rows.length ∧
      ∀ i (hi : i < rows.length),
        (i + 1 < n → out[i]? = some .null) ∧
        (n ≤ i + 1 → ∃ w, out[i]? = some (.row w (some (dot rows[i].1 w))) ∧ IsRidge (window rows n i) lam w) := by
  obtain ⟨n', rfl⟩ : ∃ n', n = n' + 1 := ⟨n - 1, by omega⟩
  have hu0 : IsUnit (normal (unit (rows.take (n' + 1))) (pen lam d)).det :=
    ridge_unit _ _ hl (h.imp id fun h => h.1)
  have hf := qr_fits S (rows.take (n' + 1)) lam hl false (by rw [absDiff_zero]; exact hu0)
  rw [absDiff_zero] at hf
  have hL := rollingLoop_fits (pen lam d) n' rows _ hf (by
    intro k hk
    constructor
    · exact ridge_unit _ _ hl (h.imp id fun h => h.2 k hk)
    · refine ridge_unit _ _ hl (h.imp id fun h => FullRank.mono (h.2 k hk) fun r hr => ?_)
      exact (List.take_subset_take_left _ (by omega)) hr)
  have hcs : rollingLstsq S (rows.map complete) (n' + 1) lam = some (fitted (some (qrLstsqWithInv S
      (rows.take (n' + 1)) lam false)) :: rollingLoop (some (qrLstsqWithInv S (rows.take (n' + 1)) lam false))
      (rows.map complete) ((rows.drop (n' + 1)).map complete)) := by
    unfold rollingLstsq
    rw [if_neg (by rw [List.length_map]; omega), ← List.map_take, ← List.map_drop, fit_complete]
  have hk : ∀ k, k + (n' + 1) ≤ rows.length → ∃ s, (fitted (some (qrLstsqWithInv S
      (rows.take (n' + 1)) lam false)) :: rollingLoop (some (qrLstsqWithInv S (rows.take (n' + 1)) lam false))
      (rows.map complete) ((rows.drop (n' + 1)).map complete))[k]? = some (.val s.w) ∧
      Fits s ((rows.drop k).take (n' + 1)) (pen lam d) := by
    intro k hk
    cases k with
    | zero => exact ⟨qrLstsqWithInv S (rows.take (n' + 1)) lam false, by simp [fitted], by simpa using hf⟩
    | succ k =>
      obtain ⟨s, e, f⟩ := hL.2 k (by omega)
      exact ⟨s, by simpa using e, f⟩
  refine ⟨_, by unfold rollingExpr; simp only [Bool.false_eq_true, if_false]; rw [hcs]; rfl, ?_, ?_⟩
  · rw [List.length_append, List.length_replicate, List.length_zipWith, List.length_drop, List.length_map,
      List.length_cons, hL.1]
    omega
  · intro i hi
    refine ⟨fun hlt => ?_, fun hge => ?_⟩
    · rw [List.getElem?_append_left (by rw [List.length_replicate]; omega), List.getElem?_replicate, if_pos (by omega)]
    · obtain ⟨s, es, f⟩ := hk (i - n') (by omega)
      refine ⟨s.w, ?_, ?_⟩
      · rw [List.getElem?_append_right (by rw [List.length_replicate]; omega), List.length_replicate,
          List.getElem?_zipWith, show i - (n' + 1 - 1) = i - n' by omega, es, List.getElem?_drop,
          show n' + 1 - 1 + (i - n') = i by omega, List.getElem?_map, List.getElem?_eq_getElem hi]
        simp only [Option.map_some]
        rw [emit_complete]
      · unfold window
        rw [show i + 1 - (n' + 1) = i - n' by omega]
        exact f.isRidge hl

/-! ## Rolling with skipped rows -/

theorem update_fits_add {s : State d K} {rows : List ((Fin d → K) × K)} {p : Fin d → K} (hf : Fits s rows p)
    (r : XRow d K) (hu : IsUnit (normal (unit (rows ++ (clean r).toList)) p).det) :
    ∃ s', update (some s) r 1 = some s' ∧ Fits s' (rows ++ (clean r).toList) p := by
  unfold update
  cases hc : clean r with
  | none => exact ⟨s, rfl, by simpa using hf⟩
  | some a =>
    rw [hc] at hu
    have hp : (a :: rows).Perm (rows ++ [a]) := (List.perm_append_singleton _ _).symm
    obtain ⟨s', e, f⟩ := hf.add a.1 a.2 (by rw [normal_unit_perm hp]; exact hu)
    exact ⟨s', e, f.perm hp⟩

theorem update_fits_remove {s : State d K} {rows : List ((Fin d → K) × K)} {p : Fin d → K}
    (r : XRow d K) (hf : Fits s ((clean r).toList ++ rows) p) (hu : IsUnit (normal (unit rows) p).det) :
    ∃ s', update (some s) r (-1) = some s' ∧ Fits s' rows p := by
  unfold update
  cases hc : clean r with
  | none => rw [hc] at hf; exact ⟨s, rfl, by simpa using hf⟩
  | some a =>
    rw [hc] at hf
    exact Fits.remove a.1 a.2 hf hu

theorem clean_len (r : XRow d K) : (clean r).toList.length = if hasNan r then 0 else 1 := by
  unfold clean
  split <;> simp

theorem filterMap_cons' (r : XRow d K) (rs : List (XRow d K)) :
    (r :: rs).filterMap clean = (clean r).toList ++ rs.filterMap clean := by
  rw [List.filterMap_cons]
  cases clean r <;> rfl

theorem skippingLoop_fits (p : Fin d → K) (m n' : Nat) (old : List (XRow d K)) :
    ∀ (s : State d K), Fits s ((old.take (n' + 1)).filterMap clean) p →
      (∀ k, k + (n' + 1) < old.length →
        IsUnit (normal (unit (((old.drop (k + 1)).take n').filterMap clean)) p).det ∧
        IsUnit (normal (unit (((old.drop (k + 1)).take (n' + 1)).filterMap clean)) p).det) →
      (skippingLoop m (some s) ((old.take (n' + 1)).filterMap clean).length old (old.drop (n' + 1))).length =
        old.length - (n' + 1) ∧
      ∀ k, k + (n' + 1) < old.length → ∃ s',
        (skippingLoop m (some s) ((old.take (n' + 1)).filterMap clean).length old (old.drop (n' + 1)))[k]? =
          some (if m ≤ (((old.drop (k + 1)).take (n' + 1)).filterMap clean).length then .val s'.w else .null) ∧
        Fits s' (((old.drop (k + 1)).take (n' + 1)).filterMap clean) p := by
  induction old with
  | nil => intro s _ _; simp [skippingLoop]
  | cons o old ih =>
    intro s hf hu
    rw [List.drop_succ_cons]
    cases hd : old.drop n' with
    | nil =>
      have hle : old.length ≤ n' := by
        have := congrArg List.length hd
        rw [List.length_drop, List.length_nil] at this
        omega
      constructor
      · simp [skippingLoop]; omega
      · intro k hk
        rw [List.length_cons] at hk
        omega
    | cons r new =>
      have hlt : n' < old.length := by
        have := congrArg List.length hd
        rw [List.length_drop, List.length_cons] at this
        omega
      have hr : old[n']? = some r := by
        have := congrArg (·[0]?) hd
        simpa using this
      have htk : (old.take (n' + 1)).filterMap clean = (old.take n').filterMap clean ++ (clean r).toList := by
        rw [List.take_add_one, hr, List.filterMap_append]
        rfl
      have hd1 : old.drop (n' + 1) = new := by
        rw [← List.tail_drop, hd]; rfl
      obtain ⟨u1, u2⟩ := hu 0 (by rw [List.length_cons]; omega)
      rw [List.drop_succ_cons, List.drop_zero] at u1 u2
      rw [List.take_succ_cons, filterMap_cons'] at hf
      obtain ⟨s1, e1, f1⟩ := update_fits_remove o hf u1
      obtain ⟨s2, e2, f2⟩ := update_fits_add f1 r (by rw [← htk]; exact u2)
      rw [← htk] at f2
      have hk := ih s2 f2 (by
        intro k hk
        have := hu (k + 1) (by rw [List.length_cons]; omega)
        rwa [List.drop_succ_cons] at this)
      rw [hd1] at hk
      have hcnt : (if hasNan r then (if hasNan o then ((List.take (n' + 1) (o :: old)).filterMap clean).length
          else ((List.take (n' + 1) (o :: old)).filterMap clean).length - 1)
        else (if hasNan o then ((List.take (n' + 1) (o :: old)).filterMap clean).length
          else ((List.take (n' + 1) (o :: old)).filterMap clean).length - 1) + 1) =
          ((old.take (n' + 1)).filterMap clean).length := by
        rw [htk, List.take_succ_cons, filterMap_cons', List.length_append, List.length_append, clean_len, clean_len]
        split <;> split <;> omega
      rw [skippingLoop, hcnt, e1, e2]
      constructor
      · rw [List.length_cons, hk.1, List.length_cons]; omega
      · intro k hlt'
        cases k with
        | zero => exact ⟨s2, by simp [fitted], by simpa using f2⟩
        | succ k =>
          obtain ⟨s3, e3, f3⟩ := hk.2 k (by rw [List.length_cons] at hlt'; omega)
          exact ⟨s3, by simpa using e3, by simpa using f3⟩

theorem skippingInit_fits (S : Solver K) (lam : K) (hl : 0 ≤ lam) (m n' : Nat) (rows : List (XRow d K))
    (hu : ∀ k, k + (n' + 1) ≤ rows.length → m ≤ (((rows.drop k).take (n' + 1)).filterMap clean).length →
      IsUnit (normal (unit (((rows.drop k).take (n' + 1)).filterMap clean)) (pen lam d)).det)
    (hu2 : ∀ k, k + (n' + 1) < rows.length →
      (∃ j ≤ k, m ≤ (((rows.drop j).take (n' + 1)).filterMap clean).length) →
        IsUnit (normal (unit (((rows.drop (k + 1)).take n').filterMap clean)) (pen lam d)).det ∧
        IsUnit (normal (unit (((rows.drop (k + 1)).take (n' + 1)).filterMap clean)) (pen lam d)).det) :
    (skippingInit S (n' + 1) m lam rows).length = rows.length - n' ∧
    ∀ k, k + (n' + 1) ≤ rows.length →
      if m ≤ (((rows.drop k).take (n' + 1)).filterMap clean).length then
        ∃ s, (skippingInit S (n' + 1) m lam rows)[k]? = some (.val s.w) ∧
          Fits s (((rows.drop k).take (n' + 1)).filterMap clean) (pen lam d)
      else (skippingInit S (n' + 1) m lam rows)[k]? = some .null := by
  induction rows with
  | nil => simp [skippingInit]
  | cons r rs ih =>
    rw [skippingInit]
    by_cases hlen : (r :: rs).length < n' + 1
    · rw [if_pos hlen]
      constructor
      · rw [List.length_nil]; omega
      · intro k hk
        omega
    rw [if_neg hlen]
    simp only
    by_cases hm : m ≤ (((r :: rs).take (n' + 1)).filterMap clean).length
    · rw [if_pos hm]
      have hu0 := hu 0 (by omega) (by simpa using hm)
      rw [List.drop_zero] at hu0
      have hf := qr_fits S (((r :: rs).take (n' + 1)).filterMap clean) lam hl false (by rw [absDiff_zero]; exact hu0)
      rw [absDiff_zero] at hf
      have hL := skippingLoop_fits (pen lam d) m n' (r :: rs) _ hf (by
        intro k hk
        exact hu2 k hk ⟨0, by omega, by simpa using hm⟩)
      constructor
      · rw [List.length_cons, hL.1]; omega
      · intro k hk
        cases k with
        | zero =>
          rw [List.drop_zero, if_pos hm]
          exact ⟨_, by simp [fitted], hf⟩
        | succ k =>
          obtain ⟨s, e, f⟩ := hL.2 k (by omega)
          split
          · rename_i h
            rw [if_pos h] at e
            exact ⟨s, by simpa using e, f⟩
          · rename_i h
            rw [if_neg h] at e
            simpa using e
    · rw [if_neg hm]
      have hI := ih
        (by
          intro k hk hmk
          have := hu (k + 1) (by rw [List.length_cons]; omega)
          rw [List.drop_succ_cons] at this
          exact this hmk)
        (by
          intro k hk ⟨j, hj, hmj⟩
          have := hu2 (k + 1) (by rw [List.length_cons]; omega) ⟨j + 1, by omega, by
            rw [List.drop_succ_cons]; exact hmj⟩
          rw [List.drop_succ_cons] at this
          exact this)
      constructor
      · rw [List.length_cons, hI.1, List.length_cons]
        rw [List.length_cons] at hlen
        omega
      · intro k hk
        cases k with
        | zero =>
          rw [List.drop_zero, if_neg hm]
          simp
        | succ k =>
          have := hI.2 k (by rw [List.length_cons] at hk; omega)
          rw [List.drop_succ_cons]
          simpa using this

/-- The prediction of a row is NaN exactly when one of its features is missing. -/
theorem emit_val (r : XRow d K) (w : Fin d → K) :
    (∃ i, r.1 i = none) ∧ emit r (.val w) = .row w none ∨
    ∃ x, (∀ i, r.1 i = some (x i)) ∧ emit r (.val w) = .row w (some (dot x w)) := by
  unfold emit
  simp only
  by_cases h : (List.finRange d).any (fun i => (r.1 i).isNone) = true
  · left
    rw [if_pos h]
    simp at h
    exact ⟨h, rfl⟩
  · right
    rw [if_neg h]
    simp at h
    refine ⟨fun i => (r.1 i).getD 0, ?_, by simp [dot, dotProduct]⟩
    intro i
    cases hx : r.1 i with
    | none => exact absurd hx (h i)
    | some a => simp [hx]

/-- Rolling regression with skipped rows: on row `i` null if the window `i-n+1..i` has fewer than `m` complete
rows (or is not full), otherwise the ridge solution of its complete rows.  With a positive penalty this holds for
every null pattern.  Without one, every `n - 1` consecutive rows must contain complete rows that determine a
solution. -/
theorem rolling_skip_partial (S : Solver K) (rows : List (XRow d K)) (n m : Nat) (hn0 : 1 ≤ n)
    (hn : n ≤ rows.length + 1) (lam : K) (hl : 0 ≤ lam)
    (h : 0 < lam ∨ (∀ k, k + (n - 1) ≤ rows.length → FullRank (valid ((rows.drop k).take (n - 1))))) :
    ∃ out, rollingExpr S rows true n m lam = some out ∧ out.length = rows.length ∧
      ∀ i (hi : i < rows.length),
        ((i + 1 < n ∨ (valid (window rows n i)).length < m) → out[i]? = some .null) ∧
        (n ≤ i + 1 → m ≤ (valid (window rows n i)).length → ∃ w, IsRidge (valid (window rows n i)) lam w ∧
          ((∃ j, rows[i].1 j = none) ∧ out[i]? = some (.row w none) ∨
          ∃ x, (∀ j, rows[i].1 j = some (x j)) ∧ out[i]? = some (.row w (some (dot x w))))) := by
  obtain ⟨n', rfl⟩ : ∃ n', n = n' + 1 := ⟨n - 1, by omega⟩
  simp only [Nat.add_sub_cancel] at h ⊢
  simp only [valid_eq] at h ⊢
  have key : ∀ k, k + n' ≤ rows.length →
      IsUnit (normal (unit (((rows.drop k).take n').filterMap clean)) (pen lam d)).det ∧
      IsUnit (normal (unit (((rows.drop k).take (n' + 1)).filterMap clean)) (pen lam d)).det := by
    intro k hk
    constructor
    · exact ridge_unit _ _ hl (h.imp id fun h => h k hk)
    · refine ridge_unit _ _ hl (h.imp id fun h => FullRank.mono (h k hk) fun r hr => ?_)
      exact (List.Sublist.filterMap clean (List.take_sublist_take_left (by omega))).subset hr
  have hI := skippingInit_fits S lam hl m n' rows (fun k hk _ => (key k (by omega)).2)
    (fun k hk _ => key (k + 1) (by omega))
  refine ⟨_, by
    unfold rollingExpr skippingLstsq
    simp only [if_true]
    rw [if_neg (by omega)]
    rfl, ?_, ?_⟩
  · rw [List.length_append, List.length_replicate, List.length_zipWith, List.length_drop, hI.1]
    omega
  · intro i hi
    have hget : n' ≤ i → ∀ c, (skippingInit S (n' + 1) m lam rows)[i - n']? = some c →
        (List.replicate (n' + 1 - 1) (Out.null : Out d K) ++
          List.zipWith emit (rows.drop (n' + 1 - 1)) (skippingInit S (n' + 1) m lam rows))[i]? = some (emit rows[i] c) := by
      intro hni c hc
      rw [List.getElem?_append_right (by rw [List.length_replicate]; omega), List.length_replicate,
        List.getElem?_zipWith, show i - (n' + 1 - 1) = i - n' by omega, hc, List.getElem?_drop,
        show n' + 1 - 1 + (i - n') = i by omega, List.getElem?_eq_getElem hi]
    have hw : window rows (n' + 1) i = (rows.drop (i - n')).take (n' + 1) := by
      unfold window
      rw [show i + 1 - (n' + 1) = i - n' by omega]
    rw [hw]
    refine ⟨fun hor => ?_, fun hge hmv => ?_⟩
    · by_cases hlt : i + 1 < n' + 1
      · rw [List.getElem?_append_left (by rw [List.length_replicate]; omega), List.getElem?_replicate, if_pos (by omega)]
      · have hmv := hor.resolve_left hlt
        have := hI.2 (i - n') (by omega)
        rw [if_neg (by omega)] at this
        exact hget (by omega) _ this
    · have := hI.2 (i - n') (by omega)
      rw [if_pos hmv] at this
      obtain ⟨s, e, f⟩ := this
      refine ⟨s.w, f.isRidge hl, ?_⟩
      rw [hget (by omega) _ e]
      rcases emit_val rows[i] s.w with ⟨h1, h2⟩ | ⟨x, h1, h2⟩
      · left; exact ⟨h1, by rw [h2]⟩
      · right; exact ⟨x, h1, by rw [h2]⟩

/-! ## Recursive with dropped rows -/

theorem firstIdx_spec (n : Nat) (mask : List Bool) : ∀ cnt, cnt < n → n ≤ cnt + mask.count true →
    firstIdx n mask cnt < mask.length ∧ cnt + (mask.take (firstIdx n mask cnt)).count true + 1 = n ∧
    mask[firstIdx n mask cnt]? = some true := by
  induction mask with
  | nil => intro cnt h1 h2; simp at h2; omega
  | cons v vs ih =>
    intro cnt h1 h2
    rw [firstIdx]
    by_cases h : n ≤ cnt + v.toNat
    · rw [if_pos h]
      cases v with
      | false => simp at h; omega
      | true =>
        simp at h ⊢
        omega
    · rw [if_neg h]
      have hv : ((v :: vs).count true) = v.toNat + vs.count true := by
        cases v
        · simp
        · simp; omega
      obtain ⟨a, b, c⟩ := ih (cnt + v.toNat) (by omega) (by omega)
      refine ⟨by simp; omega, ?_, ?_⟩
      · rw [Nat.add_comm 1, List.take_succ_cons]
        have hv' : ((v :: vs.take (firstIdx n vs (cnt + v.toNat))).count true) =
            v.toNat + (vs.take (firstIdx n vs (cnt + v.toNat))).count true := by
          cases v
          · simp
          · simp; omega
        omega
      · rw [Nat.add_comm 1]
        simpa using c

theorem maskLoop_spec (ms : List Bool) : ∀ (cs : List (Coef d K)) (rs : List (XRow d K)),
    ms.count true ≤ cs.length → ms.count true ≤ rs.length →
    ∃ out, maskLoop ms cs rs = some out ∧ out.length = ms.length ∧ ∀ i, i < ms.length →
      (ms[i]? = some false → out[i]? = some .null) ∧
      (ms[i]? = some true → ∃ r c, rs[(ms.take i).count true]? = some r ∧ cs[(ms.take i).count true]? = some c ∧
        out[i]? = some (emit r c)) := by
  induction ms with
  | nil => intro cs rs _ _; exact ⟨[], rfl, rfl, by simp⟩
  | cons v ms ih =>
    intro cs rs h1 h2
    cases v with
    | false =>
      obtain ⟨out, e, hl, hi⟩ := ih cs rs (by simpa using h1) (by simpa using h2)
      refine ⟨.null :: out, by rw [maskLoop, e]; rfl, by simp [hl], ?_⟩
      intro i hlt
      cases i with
      | zero => simp
      | succ i =>
        have := hi i (by simpa using hlt)
        simpa using this
    | true =>
      cases cs with
      | nil => simp at h1
      | cons c cs =>
        cases rs with
        | nil => simp at h2
        | cons r rs =>
          obtain ⟨out, e, hl, hi⟩ := ih cs rs (by simpa using h1) (by simpa using h2)
          refine ⟨emit r c :: out, by rw [maskLoop, e]; rfl, by simp [hl], ?_⟩
          intro i hlt
          cases i with
          | zero => simp
          | succ i =>
            have := hi i (by simpa using hlt)
            simpa using this

/-- Recursive regression with dropped rows.  `rows` are the kept rows, in order, and `mask` tells where they were.
On a dropped row, and before `n` rows were kept, the output is null.  On the `c`-th kept row (`c ≥ n`) the
coefficients are the ridge solution of the first `c` kept rows, and the prediction is theirs for kept row
`c - n` (counting from zero).  What is missing: the prediction should be for the row itself, which is kept row
`c - 1`; that is so only for `n = 1`. -/
theorem recursive_skip_partial (S : Solver K) (rows : List ((Fin d → K) × K)) (mask : List Bool) (n : Nat)
    (hn0 : 1 ≤ n) (hn : n ≤ rows.length) (hmask : mask.count true = rows.length) (hnull : false ∈ mask)
    (lam : K) (hl : 0 ≤ lam) (h : 0 < lam ∨ FullRank (rows.take n)) :
    ∃ out, recursiveExpr S (rows.map complete) mask n lam = some out ∧ out.length = mask.length ∧
      ∀ i, i < mask.length →
        ((mask[i]? = some false ∨ (mask.take (i + 1)).count true < n) → out[i]? = some .null) ∧
        (mask[i]? = some true → n ≤ (mask.take (i + 1)).count true → ∃ w r,
          IsRidge (rows.take ((mask.take (i + 1)).count true)) lam w ∧
          rows[(mask.take (i + 1)).count true - n]? = some r ∧ out[i]? = some (.row w (some (dot r.1 w)))) := by
  obtain ⟨cs, e, hlen, hk⟩ := recursive_fits S rows n hn lam hl h
  obtain ⟨f1, f2, f3⟩ := firstIdx_spec n mask 0 (by omega) (by omega)
  set m := firstIdx n mask 0 with hm
  have hsplit : (mask.take m).count true + (mask.drop m).count true = mask.count true := by
    rw [← List.count_append, List.take_append_drop]
  obtain ⟨out, eo, ol, oi⟩ := maskLoop_spec (mask.drop m) cs (rows.map complete) (by omega)
    (by rw [List.length_map]; omega)
  have hany : mask.any (fun b => !b) = true := by
    rw [List.any_eq_true]
    exact ⟨false, hnull, rfl⟩
  refine ⟨List.replicate m .null ++ out, by
    unfold recursiveExpr
    rw [e]
    simp only
    rw [if_pos hany, ← hm, eo]
    rfl, by rw [List.length_append, List.length_replicate, ol, List.length_drop]; omega, ?_⟩
  intro i hi
  have hcount : ∀ i, m ≤ i → (mask.take i).count true = n - 1 + ((mask.drop m).take (i - m)).count true := by
    intro i hmi
    have : mask.take i = mask.take m ++ (mask.drop m).take (i - m) := by
      rw [← List.take_add]
      congr 1
      omega
    rw [this, List.count_append]
    omega
  have hmono : i < m → (mask.take (i + 1)).count true < n := by
    intro hlt
    have : (mask.take (i + 1)).count true ≤ (mask.take m).count true :=
      List.Sublist.count_le _ (List.take_sublist_take_left (by omega))
    omega
  by_cases hlt : i < m
  · refine ⟨fun _ => ?_, fun _ hge => absurd (hmono hlt) (by omega)⟩
    rw [List.getElem?_append_left (by rw [List.length_replicate]; omega), List.getElem?_replicate, if_pos hlt]
  · have hi' := oi (i - m) (by rw [List.length_drop]; omega)
    rw [List.getElem?_drop, show m + (i - m) = i by omega] at hi'
    have hg : (List.replicate m (Out.null : Out d K) ++ out)[i]? = out[i - m]? := by
      rw [List.getElem?_append_right (by rw [List.length_replicate]; omega), List.length_replicate]
    rw [hg]
    have hstep : mask[i]? = some true → (mask.take (i + 1)).count true = (mask.take i).count true + 1 := by
      intro ht
      rw [List.take_add_one, ht, List.count_append]
      rfl
    refine ⟨fun hor => ?_, fun ht hge => ?_⟩
    · rcases hor with hor | hor
      · exact hi'.1 hor
      · cases hb : mask[i]? with
        | none => rw [List.getElem?_eq_none_iff] at hb; omega
        | some b =>
          cases b with
          | false => exact hi'.1 hb
          | true =>
            have := hstep hb
            have := hcount i (by omega)
            omega
    · obtain ⟨r, c, hr, hc, ho⟩ := hi'.2 ht
      have h1 := hstep ht
      have h2 := hcount i (by omega)
      have hcb : (mask.take (i + 1)).count true ≤ mask.count true := (List.take_sublist _ _).count_le _
      obtain ⟨s, es, fs⟩ := hk (((mask.drop m).take (i - m)).count true) (by omega)
      rw [hc] at es
      injection es with es
      subst es
      rw [List.getElem?_map] at hr
      cases hrr : rows[((mask.drop m).take (i - m)).count true]? with
      | none => rw [hrr] at hr; cases hr
      | some r' =>
        rw [hrr] at hr
        injection hr with hr
        subst hr
        refine ⟨s.w, r', ?_, ?_, by rw [ho, emit_complete]⟩
        · have := fs.isRidge hl
          rwa [show n + ((mask.drop m).take (i - m)).count true = (mask.take (i + 1)).count true by omega] at this
        · rw [show (mask.take (i + 1)).count true - n = ((mask.drop m).take (i - m)).count true by omega]
          exact hrr

end Verif.Online
