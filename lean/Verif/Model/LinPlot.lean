import Verif.Model.SimpleLr
import Verif.Model.Metrics
import Verif.Model.Split

/-!
# `plot_lin_reg` (`python/polars_ds/eda/plots.py:198-295`)

Real numbers instead of floats.  The chart is what is handed to Altair: the drawn rows and the axis title.
-/

namespace Verif.LinPlot
open Verif.Pl

/-- The line (`plots.py:243-263`).  The formulas are those of `simple_lin_reg`, which the code repeats; `none` when a
coefficient is null or not finite. -/
noncomputable def line (bias : Bool) (w : Option (Col ℝ)) (x y : Col ℝ) : Option (ℝ × ℝ) :=
  if bias then SimpleLr.fitBias w x y else (SimpleLr.fitPlain w x y).map fun b => (b, 0)

/-- The text below the axis (`plots.py:283-293`): slope, the constant with its sign if shown, R2.  Rounding to four digits
is left out. -/
structure Equation where
  slope : ℝ
  const : Option (Bool × ℝ)
  r2 : Option ℝ

/-- A drawn row: x, target, prediction. -/
abbrev Point := Option ℝ × Option ℝ × Option ℝ

structure Chart where
  points : List Point
  equation : Option Equation

/-- `duplicate` is polars' error on repeated names; `degenerate` stands for all charts without a line. -/
inductive Out where
  | duplicate
  | degenerate
  | chart (c : Chart)

/-- The text (`plots.py:284-291`). -/
noncomputable def equation (bias : Bool) (b a : ℝ) (r2 : Option ℝ) : Equation :=
  if bias = true ∧ a > 0 then ⟨b, some (true, a), r2⟩
  else if bias = true ∧ a < 0 then ⟨b, some (false, |a|), r2⟩
  else ⟨b, none, r2⟩

/-- `xx * beta + alpha` (`plots.py:269, 279`). -/
noncomputable def pred (b a : ℝ) (x : Col ℝ) : Col ℝ := map1 (fun v => v * b + a) x

/-- The rows of the frame `df_need` (`plots.py:276-280`). -/
noncomputable def needed (b a : ℝ) (x y : Col ℝ) : List Point := x.zip (y.zip (pred b a x))

/-- `plot_lin_reg` (`plots.py:198-301`); `ids` are the shuffled row numbers of `sample`. -/
noncomputable def plotLinReg (xName yName : String) (w : Option (String × Col ℝ)) (x y : Col ℝ) (bias : Bool)
    (maxPoints : ℕ) (showEq : Bool) (ids : List ℕ) : Out :=
  if xName = yName ∨ w.any (fun p => decide (p.1 = xName ∨ p.1 = yName)) then .duplicate
  else if xName = "y_pred" ∨ yName = "y_pred" then .duplicate
  else
    match line bias (w.map Prod.snd) x y with
    | none => .degenerate
    | some (b, a) =>
      let rows := needed b a x y
      .chart ⟨if rows.length > maxPoints then Split.sample maxPoints ids rows else rows,
        if showEq then some (equation bias b a (Metrics.r2 y (pred b a x))) else none⟩

end Verif.LinPlot
