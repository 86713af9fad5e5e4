import Verif.Props.Rolling

/-!
# Online regression: scaled updates, examples, and where the code departs from its description
-/
set_option linter.unusedSectionVars false

namespace Verif.Online
open Matrix Verif.LinReg Verif.LinReg.Spec Verif.Online.Spec
variable {K : Type} [Field K] [LinearOrder K] [IsStrictOrderedRing K] {d : Nat}

theorem run_tracks (p : Fin d → K) (hp : ∀ i, 0 ≤ p i) (calls : List (((Fin d → K) × K) × K)) :
    ∀ (s : State d K) (rows : List (WRow d K)), (∀ r ∈ rows, 0 ≤ r.1) → Identifiable rows p →
      Tracks s (normal rows p) (rhs rows) → (∀ e ∈ calls, 0 < e.2) →
      ∃ s', runUpdates (some s) (calls.map fun e => (complete e.1, e.2)) = some s' ∧
        Tracks s' (normal (calls.reverse.map (fun e => (e.2⁻¹, e.1)) ++ rows) p)
          (rhs (calls.reverse.map (fun e => (e.2⁻¹, e.1)) ++ rows)) ∧
        Identifiable (calls.reverse.map (fun e => (e.2⁻¹, e.1)) ++ rows) p := by
  induction calls with
  | nil => intro s rows _ hid ht _; exact ⟨s, rfl, by simpa using ht, by simpa using hid⟩
  | cons e es ih =>
    intro s rows hw hid ht hc
    have he := hc e (by simp)
    have hw' : ∀ r ∈ (e.2⁻¹, e.1.1, e.1.2) :: rows, 0 ≤ r.1 := by
      intro r hr
      rcases List.mem_cons.1 hr with rfl | hr
      · exact (inv_pos.2 he).le
      · exact hw r hr
    have hid' : Identifiable ((e.2⁻¹, e.1.1, e.1.2) :: rows) p :=
      fun v h1 h2 => hid v (fun r hr => h1 r (List.mem_cons_of_mem _ hr)) h2
    obtain ⟨s1, e1, t1⟩ := woodbury_tracks ht e.1.1 e.1.2 e.2 he.ne' (by
      rw [← normal_cons _ _ e.1.2]
      exact normal_isUnit _ _ hw' hp hid')
    rw [← normal_cons _ _ e.1.2, ← rhs_cons] at t1
    obtain ⟨s2, e2, t2⟩ := ih s1 _ hw' hid' t1 (fun x hx => hc x (by simp [hx]))
    refine ⟨s2, ?_, ?_⟩
    · rw [List.map_cons, runUpdates, update_complete]
      simp only [Option.bind_some]
      rw [e1]
      exact e2
    · simpa [List.map_append, List.append_assoc] using t2

/-- Updates with a positive scale `c`: the model afterwards is the ridge fit in which the row counts with weight
`1 / c` (not `c`). -/
theorem online_scale (S : Solver K) (rows : List ((Fin d → K) × K)) (lam : K) (hl : 0 ≤ lam)
    (h : 0 < lam ∨ FullRank rows) (calls : List (((Fin d → K) × K) × K)) (hc : ∀ e ∈ calls, 0 < e.2)
    (b : Fin d → K) :
    ∃ s, runUpdates (fit S (rows.map complete) lam) (calls.map fun e => (complete e.1, e.2)) = some s ∧
      ridge rows lam s.w + wsse (calls.map fun e => (1 / e.2, e.1)) s.w ≤
        ridge rows lam b + wsse (calls.map fun e => (1 / e.2, e.1)) b := by
  have he : effLam lam = lam := by simp [effLam, hl]
  have hp : ∀ i : Fin d, 0 ≤ pen lam d i := by
    intro i
    have := pen_nonneg' (d := d) lam d i
    rwa [he] at this
  have hid : Identifiable (unit rows) (pen lam d) := identifiable_of_unit _ _ (ridge_unit rows lam hl h)
  have hf := qr_fits S rows lam hl false (by rw [absDiff_zero]; exact ridge_unit rows lam hl h)
  rw [absDiff_zero] at hf
  obtain ⟨s, e, t, hid'⟩ := run_tracks (pen lam d) hp calls _ (unit rows) (unit_nonneg _) hid hf hc
  refine ⟨s, by rw [fit_complete]; exact e, ?_⟩
  have hw' : ∀ r ∈ calls.reverse.map (fun e => (e.2⁻¹, e.1)) ++ unit rows, 0 ≤ r.1 := by
    intro r hr
    rcases List.mem_append.1 hr with hr | hr
    · obtain ⟨x, hx, rfl⟩ := List.mem_map.1 hr
      exact (inv_pos.2 (hc x (List.mem_reverse.1 hx))).le
    · exact unit_nonneg _ r hr
  have ho := (obj_optimal _ _ _ hw' hp hid' t.w b).1
  have hob : ∀ b : Fin d → K, obj (calls.reverse.map (fun e => (e.2⁻¹, e.1)) ++ unit rows) (pen lam d) b =
      ridge rows lam b + wsse (calls.map fun e => (1 / e.2, e.1)) b := by
    intro b
    have h1 := obj_pen rows lam hl d (le_refl _) b
    rw [he] at h1
    rw [← h1]
    unfold obj wsse
    rw [List.map_append, List.sum_append, List.map_reverse, List.map_reverse, List.sum_reverse, List.map_map,
      List.map_map]
    simp only [Function.comp_def, one_div]
    ring
  rwa [hob, hob] at ho

/-! ## Examples -/

instance {d : Nat} : DecidableEq (Out d ℚ)
  | .null, .null => isTrue rfl
  | .nan, .nan => isTrue rfl
  | .row w p, .row w' p' => decidable_of_iff (w = w' ∧ p = p') (by simp)
  | .null, .nan => isFalse (by simp)
  | .null, .row _ _ => isFalse (by simp)
  | .nan, .null => isFalse (by simp)
  | .nan, .row _ _ => isFalse (by simp)
  | .row _ _, .null => isFalse (by simp)
  | .row _ _, .nan => isFalse (by simp)

def exO : List ((Fin 1 → ℚ) × ℚ) := [(![1], 2), (![2], 3)]

theorem exO_rank : FullRank exO := by
  intro v hv
  have := hv (![1], 2) (by simp [exO])
  funext i
  fin_cases i
  simpa [dot] using this

theorem single_rank (x y : ℚ) (hx : x ≠ 0) (rest : List ((Fin 1 → ℚ) × ℚ)) : FullRank ((![x], y) :: rest) := by
  intro v hv
  have := hv (![x], y) (by simp)
  funext i
  fin_cases i
  simpa [dot, hx] using this

/-- Add a row, ignore one with a missing target, remove the first one. -/
def exCalls : List (XRow 1 ℚ × ℚ) :=
  [(complete (![3], 7), 1), ((![some 5], none), 1), (complete (![1], 2), -1)]

example : ∃ s, runUpdates (fit cramerSolver (exO.map complete) 0) exCalls = some s ∧
    fit cramerSolver (([(![3], 7), (![2], 3)] : List ((Fin 1 → ℚ) × ℚ)).map complete) 0 = some s ∧
    IsRidge [(![3], 7), (![2], 3)] 0 s.w ∧ ridgeMatrix [(![3], 7), (![2], 3)] 0 * s.inv = 1 := by
  refine online_refit cramerSolver cramerSolver exO _ 0 (le_refl _) exCalls (.inr exO_rank) ?_
  refine .cons _ _ _ _ _ (.add (![3], 7) exO) (.inr (single_rank _ _ (by norm_num) _)) ?_
  refine .cons _ _ _ _ _ (.ignored _ _ _ _ (.inr rfl)) (.inr (single_rank _ _ (by norm_num) _)) ?_
  refine .cons _ _ _ _ _ (.remove (![1], 2) _ [(![3], 7), (![2], 3)] ?_)
    (.inr (single_rank _ _ (by norm_num) _)) (.nil _)
  exact List.Perm.swap _ _ _

example : (runUpdates (fit cramerSolver (exO.map complete) 0) exCalls).map (fun s => s.w 0) = some (27 / 13) := by
  decide +kernel

/-- With a bias and a positive penalty, removing all but one row. -/
example : ∃ s, runUpdatesBias (fitBias cramerSolver (exO.map complete) 1) [(complete (![1], 2), -1)] = some s ∧
    fitBias cramerSolver (([(![2], 3)] : List ((Fin 1 → ℚ) × ℚ)).map complete) 1 = some s ∧
    IsRidgeBias [(![2], 3)] 1 (fun i => s.w i.castSucc) (s.w (Fin.last 1)) := by
  refine online_refit_bias cramerSolver cramerSolver exO _ 1 (by norm_num) _ (.inl ⟨by norm_num, by simp [exO]⟩) ?_
  exact .cons _ _ _ _ _ (.remove (![1], 2) _ [(![2], 3)] (List.Perm.refl _)) (.inl ⟨by norm_num, by simp⟩) (.nil _)

def exState : State 1 ℚ := ⟨!![1], ![5]⟩

example : ((woodburyStep exState ![2] 3 1).map fun s => (s.inv 0 0, s.w 0)) = some (1 / 5, 11 / 5) := by
  decide +kernel

example (s' : State 1 ℚ) (h : woodburyStep exState ![2] 3 1 = some s') : woodburyStep s' ![2] 3 (-1) = some exState :=
  online_add_remove _ _ _ _ 1 one_ne_zero h

/-- Scale 4 gives weight 1/4. -/
example : (runUpdates (fit cramerSolver (exO.map complete) 0) [(complete (![2], 9), 4)]).map (fun s => s.w 0) =
    some ((8 + 18 / 4) / (5 + 1)) := by decide +kernel

def exR : List ((Fin 1 → ℚ) × ℚ) := [(![1], 2), (![2], 3), (![3], 7), (![0], 1), (![1], 1)]

example : recursiveExpr cramerSolver (exR.map complete) [true] 2 0 =
    some [.null, .row ![8 / 5] (some (16 / 5)), .row ![29 / 14] (some (87 / 14)), .row ![29 / 14] (some 0),
      .row ![2] (some 2)] := by decide +kernel

example : ∃ out, recursiveExpr cramerSolver (exR.map complete) [true] 2 0 = some out ∧ out.length = 5 := by
  obtain ⟨out, h, hl, _⟩ := recursive_prefix_partial cramerSolver exR 2 (by norm_num) (by simp [exR]) 0 (le_refl _)
    (.inr (single_rank 1 2 (by norm_num) _))
  exact ⟨out, h, hl⟩

example : rollingExpr cramerSolver (exR.map complete) false 3 1 0 =
    some [.null, .null, .row ![29 / 14] (some (87 / 14)), .row ![27 / 13] (some 0),
      .row ![11 / 5] (some (11 / 5))] := by decide +kernel

example : ∃ out, rollingExpr cramerSolver (exR.map complete) false 3 1 0 = some out ∧ out.length = 5 := by
  obtain ⟨out, h, hl, _⟩ := rolling_window_partial cramerSolver exR 3 1 (by norm_num) (by simp [exR]) 0 (le_refl _)
    (.inr ⟨by simpa [exR] using single_rank 1 2 (by norm_num) _, by
      intro k hk
      have : k = 0 ∨ k = 1 := by simp [exR] at hk; omega
      rcases this with rfl | rfl
      · simpa [exR] using single_rank 2 3 (by norm_num) _
      · simpa [exR] using single_rank 3 7 (by norm_num) _⟩)
  exact ⟨out, h, hl⟩

def exSkip : List (XRow 1 ℚ) :=
  [(![some 1], some 2), (![none], some 3), (![some 3], none), (![some 2], some 5), (![some 1], some 1)]

example : rollingExpr cramerSolver exSkip true 2 1 1 =
    some [.null, .row ![1] none, .null, .row ![2] (some 4), .row ![11 / 6] (some (11 / 6))] := by decide +kernel

example : ∃ out, rollingExpr cramerSolver exSkip true 2 1 1 = some out ∧ out.length = 5 := by
  obtain ⟨out, h, hl, _⟩ := rolling_skip_partial cramerSolver exSkip 2 1 (by norm_num) (by simp [exSkip]) 1
    (by norm_num) (.inl (by norm_num))
  exact ⟨out, h, hl⟩

/-! ## Departures -/

/-- Rolling with window size equal to the number of features and no penalty: every window determines its
solution, yet from the second window on the output is not a number. -/
theorem rolling_square_window_fails :
    ∃ rows : List ((Fin 2 → ℚ) × ℚ), rows.length = 3 ∧ FullRank (window rows 2 1) ∧ FullRank (window rows 2 2) ∧
      rollingExpr cramerSolver (rows.map complete) false 2 2 0 =
        some [.null, .row ![1, 2] (some 2), .nan] := by
  refine ⟨[(![1, 0], 1), (![0, 1], 2), (![1, 1], 5)], rfl, ?_, ?_, by decide +kernel⟩
  · intro v hv
    have h1 := hv (![1, 0], 1) (by simp [window])
    have h2 := hv (![0, 1], 2) (by simp [window])
    simp [dot, Fin.sum_univ_two] at h1 h2
    funext i
    fin_cases i
    · exact h1
    · exact h2
  · intro v hv
    have h1 := hv (![0, 1], 2) (by simp [window])
    have h2 := hv (![1, 1], 5) (by simp [window])
    simp [dot, Fin.sum_univ_two] at h1 h2
    rw [h1, add_zero] at h2
    funext i
    fin_cases i
    · exact h2
    · exact h1

/-- Rolling with skipped rows and no penalty: once a window has run out of complete rows, a later window that
has enough of them still gives non-finite coefficients. -/
theorem rolling_skip_no_recovery :
    ∃ rows : List (XRow 1 ℚ), rows.length = 4 ∧ valid (window rows 2 3) = [(![2], 5)] ∧
      FullRank (valid (window rows 2 3)) ∧
      rollingExpr cramerSolver rows true 2 1 0 = some [.null, .row ![2] none, .null, .nan] := by
  refine ⟨[(![some 1], some 2), (![none], some 3), (![none], some 1), (![some 2], some 5)], rfl, ?_, ?_, by
    decide +kernel⟩
  · rw [valid_eq]; decide +kernel
  · rw [valid_eq]
    rw [show (window ([(![some 1], some 2), (![none], some 3), (![none], some 1), (![some 2], some 5)] :
      List (XRow 1 ℚ)) 2 3).filterMap clean = [(![2], 5)] by decide +kernel]
    exact single_rank _ _ (by norm_num) _

/-- With a bias column and a positive penalty, the recursive (and rolling) expressions penalise the bias, unlike
`lin_reg`: same data, different coefficients. -/
theorem recursive_penalises_bias :
    recursiveExpr cramerSolver ((exO.map rowOne).map complete) [true] 2 1 =
      some [.null, .row ![1, 2 / 3] (some (8 / 3))] ∧
    (fun i => linRegBias cramerSolver (exO.map fun r => (r.1, fun _ : Fin 1 => r.2)) 1 "qr" i 0) = ![1 / 3, 2] ∧
    rollingExpr cramerSolver ((exO.map rowOne).map complete) false 2 1 1 =
      some [.null, .row ![1, 2 / 3] (some (8 / 3))] := by
  decide +kernel

/-- With a dropped row the prediction of the third row is the one for the first row. -/
theorem recursive_pred_wrong_row :
    recursiveExpr cramerSolver (exO.map complete) [true, false, true] 2 0 =
      some [.null, .null, .row ![8 / 5] (some (8 / 5))] ∧ dot (exO[1]).1 ![8 / 5] = 16 / 5 := by
  constructor
  · decide +kernel
  · simp [exO, dot]; norm_num

example : ∃ out, recursiveExpr cramerSolver (exO.map complete) [true, false, true] 2 0 = some out ∧ out.length = 3 := by
  obtain ⟨out, h, hl, _⟩ := recursive_skip_partial cramerSolver exO [true, false, true] 2 (by norm_num)
    (by simp [exO]) (by decide) (by simp) 0 (le_refl _) (.inr exO_rank)
  exact ⟨out, h, hl⟩

/-- Asking for more rows than there are is a crash. -/
theorem recursive_rolling_panic (S : Solver K) (rows : List (XRow d K)) (mask : List Bool) (n m : Nat) (lam : K)
    (h : rows.length < n) :
    recursiveExpr S rows mask n lam = none ∧ rollingExpr S rows false n m lam = none := by
  unfold recursiveExpr rollingExpr recursiveLstsq rollingLstsq
  simp [h]

example : recursiveExpr cramerSolver (exO.map complete) [true] 3 0 = none :=
  (recursive_rolling_panic cramerSolver _ [true] 3 0 0 (by simp [exO])).1

/-- With the `ignore` policy and a null anywhere, the recursive expression returns one row whatever the length
of the input. -/
theorem recursive_ignore_length (S : Solver K) (rows : List (XRow d K)) (n : Nat) (hn0 : 1 ≤ n)
    (hn : n ≤ rows.length) (lam : K) : recursiveExpr S rows [false] n lam = some [.null] := by
  unfold recursiveExpr recursiveLstsq
  rw [if_neg (by omega)]
  simp only [List.any_cons, Bool.not_false, Bool.true_or, if_true]
  have : firstIdx n [false] 0 = 1 := by
    rw [firstIdx, if_neg (by simp; omega), firstIdx]
  rw [this]
  rfl

example : recursiveExpr cramerSolver exSkip [false] 2 0 = some [.null] :=
  recursive_ignore_length _ _ 2 (by norm_num) (by simp [exSkip]) 0

end Verif.Online
