import Verif.Model.LinPlot
import Verif.Props.SimpleLr
import Verif.Props.Split
import Mathlib.Data.Real.Basic

/-!
# C146: the regression plot
-/

namespace Verif.LinPlot
open Verif.Pl Verif.SimpleLr Verif.SimpleLr.Spec

namespace Spec

/-- The rows of a frame as x, target and the height of the line at x. -/
noncomputable def onLine (b a : ℝ) : List (Option (Obs ℝ)) → List Point :=
  List.map fun r => (r.map Obs.x, r.map Obs.y, r.map fun o => a + b * o.x)

/-- The line `y = b x + a` is strictly better than any other line that is allowed. -/
def Best (bias : Bool) (data : List (Obs ℝ)) (b a : ℝ) : Prop :=
  (bias = false → a = 0) ∧
    ∀ b' a', (bias = false → a' = 0) → (b', a') ≠ (b, a) → loss data b a < loss data b' a'

/-- The data determine a line. -/
def Determined (bias : Bool) (data : List (Obs ℝ)) : Prop :=
  if bias then ∃ o ∈ data, ∃ o' ∈ data, o.w ≠ 0 ∧ o'.w ≠ 0 ∧ o.x ≠ o'.x else ∃ o ∈ data, o.w ≠ 0 ∧ o.x ≠ 0

/-- The number an equation shows for the constant. -/
noncomputable def shown : Option (Bool × ℝ) → ℝ
  | none => 0
  | some (true, v) => v
  | some (false, v) => -v

end Spec

open Spec

theorem line_best (bias weighted : Bool) (rows : List (Option (Obs ℝ))) (h : Weights weighted rows)
    (hd : Determined bias (present rows)) :
    ∃ b a, line bias (wcol weighted rows) (colX rows) (colY rows) = some (b, a) ∧ Best bias (present rows) b a := by
  cases bias
  · have hd' := (simple_fit_plain_optimal weighted rows h).2.2 (by simpa [Determined] using hd)
    have hopt := (simple_fit_plain_optimal weighted rows h).1
    unfold coeffs at hd' hopt
    simp only [Bool.false_eq_true, if_false] at hd' hopt
    unfold line
    simp only [Bool.false_eq_true, if_false]
    cases hf : fitPlain (wcol weighted rows) (colX rows) (colY rows) with
    | none => rw [hf] at hd'; simp at hd'
    | some b =>
      rw [hf] at hopt
      refine ⟨b, 0, rfl, fun _ => rfl, fun b' a' ha' hne => ?_⟩
      rw [ha' rfl] at hne ⊢
      exact hopt b rfl b' (by simpa using hne)
  · have hd' := (simple_fit_bias_isSome weighted rows h).2 (by simpa [Determined] using hd)
    have hopt := simple_fit_bias_optimal weighted rows h
    unfold coeffs at hd' hopt
    simp only [if_true] at hd' hopt
    unfold line
    simp only [if_true]
    cases hf : fitBias (wcol weighted rows) (colX rows) (colY rows) with
    | none => rw [hf] at hd'; simp at hd'
    | some c =>
      rw [hf] at hopt
      exact ⟨c.1, c.2, rfl, by simp, fun b' a' _ hne => hopt c.1 c.2 rfl b' a' hne⟩

theorem needed_eq (b a : ℝ) (rows : List (Option (Obs ℝ))) : needed b a (colX rows) (colY rows) = onLine b a rows := by
  unfold needed pred onLine colX colY map1
  induction rows with
  | nil => rfl
  | cons r t ih =>
    simp only [List.map_cons, List.zip_cons_cons, ih, List.cons.injEq, and_true]
    cases r
    · rfl
    · simp [mul_comm, add_comm]

/-- **C146.**  The names are distinct and not `y_pred`, each row is complete or null throughout, the weights are not negative,
and the data determine a line.  Then the plot shows the line that fits all complete rows best, also if only some rows are drawn;
the drawn rows are rows of the frame in their order with their point on the line, all of them or exactly `max_points`; and the
equation has the slope and the constant of that line. -/
theorem plot_line (xName yName : String) (wName : Option String) (rows : List (Option (Obs ℝ)))
    (hxy : xName ≠ yName) (hwn : ∀ n ∈ wName, n ≠ xName ∧ n ≠ yName) (hx : xName ≠ "y_pred") (hy : yName ≠ "y_pred")
    (h : Weights wName.isSome rows) (bias : Bool) (hd : Determined bias (present rows)) (maxPoints : ℕ) (showEq : Bool)
    (ids : List ℕ) (hids : ids.Perm (List.range rows.length)) :
    ∃ c b a, plotLinReg xName yName (wName.map fun n => (n, colW rows)) (colX rows) (colY rows) bias maxPoints showEq ids =
        .chart c ∧
      Best bias (present rows) b a ∧ c.points.Sublist (onLine b a rows) ∧ c.points.length = min maxPoints rows.length ∧
      (rows.length ≤ maxPoints → c.points = onLine b a rows) ∧ (c.equation.isSome ↔ showEq = true) ∧
      (∀ e ∈ c.equation, e.slope = b ∧ shown e.const = a ∧ ∀ p ∈ e.const, 0 < p.2) := by
  obtain ⟨b, a, hl, hb⟩ := line_best bias wName.isSome rows h hd
  have hw : (wName.map fun n => (n, colW rows)).map Prod.snd = wcol wName.isSome rows := by
    cases wName <;> rfl
  have hdup : ¬ (xName = yName ∨
      ((wName.map fun n => (n, colW rows)).any fun p => decide (p.1 = xName ∨ p.1 = yName)) = true) := by
    rintro (h1 | h1)
    · exact hxy h1
    · cases hn : wName with
      | none => rw [hn] at h1; simp at h1
      | some n =>
        rw [hn] at h1
        have := hwn n (by rw [hn]; rfl)
        simp [this] at h1
  have hlen : (onLine b a rows).length = rows.length := by unfold onLine; simp
  have hs := Split.sample_size maxPoints ids (onLine b a rows) (by rw [hlen]; exact hids)
  refine ⟨⟨if (onLine b a rows).length > maxPoints then Split.sample maxPoints ids (onLine b a rows) else onLine b a rows,
    if showEq then some (equation bias b a (Metrics.r2 (colY rows) (pred b a (colX rows)))) else none⟩, b, a, ?_, hb, ?_⟩
  · unfold plotLinReg
    rw [if_neg hdup, if_neg (by push Not; exact ⟨hx, hy⟩), hw, hl]
    simp only [needed_eq]
  · dsimp only
    rw [hlen]
    refine ⟨?_, ?_, fun hle => by rw [if_neg (by omega)], ?_, ?_⟩
    · split
      · exact hs.2
      · exact List.Sublist.refl _
    · split
      · rw [hs.1, hlen]
      · rw [hlen]; omega
    · cases showEq <;> simp
    · intro e he
      cases showEq
      · simp at he
      · simp only [if_true, Option.mem_def, Option.some.injEq] at he
        subst he
        unfold equation
        split
        · next hc => exact ⟨rfl, rfl, by intro p hp; simp at hp; subst hp; exact hc.2⟩
        · split
          · next hc =>
            refine ⟨rfl, ?_, ?_⟩
            · simp [shown, abs_of_neg hc.2]
            · intro p hp
              simp at hp
              subst hp
              exact abs_pos.2 hc.2.ne
          · next h1 h2 =>
            refine ⟨rfl, ?_, by simp⟩
            cases bias
            · exact (hb.1 rfl).symm
            · simp only [true_and, not_lt, gt_iff_lt] at h1 h2
              exact le_antisymm h2 h1

example : ∃ c b a, plotLinReg "x" "y" none (colX [some ⟨0, 1, 1⟩, none, some ⟨1, -1, 1⟩]) (colY [some ⟨0, 1, 1⟩, none, some ⟨1, -1, 1⟩])
      true 2 true [2, 0, 1] = .chart c ∧ Best true [⟨0, 1, 1⟩, ⟨1, -1, 1⟩] b a ∧ c.points.length = 2 := by
  obtain ⟨c, b, a, h1, h2, _, h3, _⟩ := plot_line "x" "y" none [some ⟨0, 1, 1⟩, none, some ⟨1, -1, 1⟩] (by decide) (by simp)
    (by decide) (by decide) (by intro o ho; simp [present] at ho; rcases ho with rfl | rfl <;> rfl) true (by
      refine ⟨⟨0, 1, 1⟩, by simp [present], ⟨1, -1, 1⟩, by simp [present], by norm_num, by norm_num, by norm_num⟩) 2 true
    [2, 0, 1] (by decide)
  exact ⟨c, b, a, h1, h2, h3⟩

/-! ### R2 in the equation -/

theorem r2_rows (b a : ℝ) (rows : List (Option (Obs ℝ))) (hu : ∀ o ∈ present rows, o.w = 1) (v : ℝ)
    (h : Metrics.r2 (colY rows) (pred b a (colX rows)) = some v) :
    ∃ m, 0 < loss (present rows) 0 m ∧ v = 1 - loss (present rows) b a / loss (present rows) 0 m := by
  unfold Metrics.r2 at h
  cases hm : mean (colY rows) with
  | none => rw [hm] at h; simp at h
  | some m =>
    rw [hm] at h
    have e1 : dot (Metrics.diff (colY rows) (pred b a (colX rows))) (Metrics.diff (colY rows) (pred b a (colX rows))) =
        loss (present rows) b a := by
      unfold Metrics.diff pred colX colY
      rw [map1_col, map2_col, dot_col]
      unfold loss
      congr 1
      exact List.map_congr_left fun o ho => by rw [hu o ho]; ring
    have e2 : dot (map1 (fun x => x - m) (colY rows)) (map1 (fun x => x - m) (colY rows)) = loss (present rows) 0 m := by
      unfold colY
      rw [map1_col, dot_col]
      unfold loss
      congr 1
      exact List.map_congr_left fun o ho => by rw [hu o ho]; ring
    simp only [e1, e2] at h
    split at h
    · simp at h
    · next hne =>
      refine ⟨m, lt_of_le_of_ne ?_ (Ne.symm hne), by simpa using h.symm⟩
      unfold loss
      refine List.sum_nonneg fun v hv => ?_
      obtain ⟨o, ho, rfl⟩ := List.mem_map.mp hv
      rw [hu o ho]
      positivity

/-- **C146.**  With a constant and without weights, the R2 in the equation lies between zero and one, and it is one exactly if all
points lie on the line. -/
theorem plot_r2_range (rows : List (Option (Obs ℝ))) (hu : ∀ o ∈ present rows, o.w = 1) (b a v : ℝ)
    (hb : Best true (present rows) b a) (h : Metrics.r2 (colY rows) (pred b a (colX rows)) = some v) :
    0 ≤ v ∧ v ≤ 1 ∧ (v = 1 ↔ ∀ o ∈ present rows, o.y = b * o.x + a) := by
  obtain ⟨m, hm, rfl⟩ := r2_rows b a rows hu v h
  have h0 : 0 ≤ loss (present rows) b a := by
    unfold loss
    refine List.sum_nonneg fun v hv => ?_
    obtain ⟨o, ho, rfl⟩ := List.mem_map.mp hv
    rw [hu o ho]
    positivity
  have h1 : loss (present rows) b a ≤ loss (present rows) 0 m := by
    by_cases he : ((0 : ℝ), m) = (b, a)
    · simp only [Prod.mk.injEq] at he
      rw [he.1, he.2]
    · exact (hb.2 0 m (by simp) he).le
  have h2 := div_nonneg h0 hm.le
  have h3 : loss (present rows) b a / loss (present rows) 0 m ≤ 1 := by
    rw [div_le_one hm]
    exact h1
  refine ⟨by linarith, by linarith, ?_⟩
  have key : 1 - loss (present rows) b a / loss (present rows) 0 m = 1 ↔ loss (present rows) b a = 0 := by
    rw [sub_eq_self, div_eq_zero_iff]
    constructor
    · rintro (e | e)
      · exact e
      · exact absurd e hm.ne'
    · exact Or.inl
  rw [key]
  constructor
  · intro e o ho
    have hz := tot_zero (data := present rows) (f := fun o => o.w * (o.y - (b * o.x + a)) ^ 2) (by
      intro o ho
      rw [hu o ho]
      positivity) e o ho
    rw [hu o ho, one_mul] at hz
    have := pow_eq_zero_iff two_ne_zero |>.1 hz
    linarith
  · intro e
    unfold loss
    apply List.sum_eq_zero
    intro v hv
    obtain ⟨o, ho, rfl⟩ := List.mem_map.mp hv
    rw [e o ho]
    ring

theorem vals_some (v : ℝ) (l : Col ℝ) : vals (some v :: l) = v :: vals l := rfl
theorem vals_none (l : Col ℝ) : vals (none :: l) = vals l := rfl
theorem vals_nil : vals ([] : Col ℝ) = [] := rfl

/-- Two rows on the line y = x. -/
example : (0 : ℝ) ≤ 1 ∧ (1 : ℝ) ≤ 1 ∧ ((1 : ℝ) = 1 ↔ ∀ o ∈ present [some (⟨0, 0, 1⟩ : Obs ℝ), none, some ⟨1, 1, 1⟩], o.y = 1 * o.x + 0) := by
  have hp : present [some (⟨0, 0, 1⟩ : Obs ℝ), none, some ⟨1, 1, 1⟩] = [⟨0, 0, 1⟩, ⟨1, 1, 1⟩] := rfl
  refine plot_r2_range [some ⟨0, 0, 1⟩, none, some ⟨1, 1, 1⟩] (by rw [hp]; simp) 1 0 1 ⟨by simp, fun b' a' _ hne => ?_⟩ ?_
  · rw [hp]
    simp only [loss, List.map_cons, List.map_nil, List.sum_cons, List.sum_nil]
    by_cases ha : a' = 0
    · have hb : b' - 1 ≠ 0 := fun hb => hne (by rw [ha, sub_eq_zero.1 hb])
      have : 0 < (b' - 1) ^ 2 := by positivity
      rw [ha]
      nlinarith
    · have : 0 < a' ^ 2 := by positivity
      nlinarith [sq_nonneg (1 - (b' * 1 + a'))]
  · norm_num [Metrics.r2, mean, count, vals_some, vals_none, vals_nil, Pl.sum, Metrics.diff, dot, map2, opt2, pred, map1, colX, colY]

/-- **C146 (disagreement).**  Without a constant the R2 of the best line can be negative: y is 1 at x = 1 and 2 at x = -1, the
best line through the origin is y = -x/2, and R2 is -8. -/
theorem plot_r2_negative :
    line false none [some 1, some (-1)] [some 1, some 2] = some (-1 / 2, 0) ∧
    Metrics.r2 [some 1, some 2] (pred (-1 / 2) 0 [some 1, some (-1)]) = some (-8) := by
  constructor
  · norm_num [line, fitPlain, quot, dot, map2, opt2, Pl.sum, vals_some, vals_nil]
  · norm_num [Metrics.r2, mean, count, vals_some, vals_nil, Pl.sum, Metrics.diff, dot, map2, opt2, pred, map1]

/-- **C146 (disagreement).**  With weights the R2 shown is that of the unweighted residuals: a weight of zero for the third
row leaves the perfect line y = x through the others, and the R2 shown is 5/14 instead of one. -/
theorem plot_r2_unweighted :
    line true (some [some 1, some 1, some 0]) [some 0, some 1, some 2] [some 0, some 1, some 5] = some (1, 0) ∧
    Metrics.r2 [some 0, some 1, some 5] (pred 1 0 [some 0, some 1, some 2]) = some (5 / 14) := by
  constructor
  · norm_num [line, fitBias, means, slopeBiasW, quot, dot, map1, map2, opt2, Pl.sum, vals_some, vals_nil]
  · norm_num [Metrics.r2, mean, count, vals_some, vals_nil, Pl.sum, Metrics.diff, dot, map2, opt2, pred, map1]

/-- **C146 (errors).**  A column used twice is an error, and so is a column called `y_pred`. -/
theorem plot_names (xName yName : String) (w : Option (String × Col ℝ)) (x y : Col ℝ) (bias : Bool) (maxPoints : ℕ)
    (showEq : Bool) (ids : List ℕ)
    (h : xName = yName ∨ xName = "y_pred" ∨ yName = "y_pred" ∨ ∃ p ∈ w, p.1 = xName ∨ p.1 = yName) :
    plotLinReg xName yName w x y bias maxPoints showEq ids = .duplicate := by
  unfold plotLinReg
  split
  · rfl
  · next h1 =>
    rw [if_pos]
    push Not at h1
    rcases h with h | h | h | ⟨p, hp, h⟩
    · exact absurd h h1.1
    · exact Or.inl h
    · exact Or.inr h
    · have := h1.2
      rw [Option.mem_def.1 hp] at this
      simp at this
      tauto

example (x y : Col ℝ) : plotLinReg "x" "y_pred" none x y true 10 true [] = .duplicate :=
  plot_names "x" "y_pred" none x y true 10 true [] (Or.inr (Or.inr (Or.inl rfl)))

end Verif.LinPlot
