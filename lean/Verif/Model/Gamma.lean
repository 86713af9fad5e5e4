import Verif.Model.LnGamma

/-!
# Survival function of the gamma distribution (`src/stats_utils/gamma.rs`)

`f64` arithmetic is real arithmetic; `ln_gamma` is the function of `Verif.Model.LnGamma`.  The two `loop`s have no bound in the code: here they
take fuel, and `none` stands for a loop that has not finished within it.
-/

namespace Verif.Gamma

/-- `eps` (`src/stats_utils/gamma.rs:86`, `:176`). -/
noncomputable def eps : ℝ := 1 / 10 ^ 15

/-- `PREC_ACC` (`src/stats_utils/mod.rs:21`). -/
noncomputable def precAcc : ℝ := 11102230246251565 / 10 ^ 31

/-- The exponent below which the result is rounded to 0 or 1 (`src/stats_utils/gamma.rs:98`, `:185`). -/
noncomputable def minLog : ℝ := -(70978271289338399 / 10 ^ 14)

/-- `big` (`src/stats_utils/gamma.rs:87`, `:177`). -/
noncomputable def big : ℝ := 4503599627370496

/-- `big_inv` (`src/stats_utils/gamma.rs:88`, `:178`). -/
noncomputable def bigInv : ℝ := 222044604925031308085 / 10 ^ 36

/-- The loop of the series for the lower function (`src/stats_utils/gamma.rs:108-116`); the result is `ans2`. -/
noncomputable def series (x : ℝ) : ℕ → ℝ → ℝ → ℝ → Option ℝ
  | 0, _, _, _ => none
  | fuel + 1, r2, c2, ans2 =>
    let r2 := r2 + 1
    let c2 := c2 * (x / r2)
    let ans2 := ans2 + c2
    if c2 / ans2 ≤ eps then some ans2 else series x fuel r2 c2 ans2

/-- The state of the continued fraction loop. -/
structure CF where
  y : ℝ
  z : ℝ
  c : ℝ
  p2 : ℝ
  q2 : ℝ
  p1 : ℝ
  q1 : ℝ
  ans : ℝ

/-- The loop of the continued fraction (`src/stats_utils/gamma.rs:198-227`, and `:130-160` with other names); the
result is `ans`.  A comparison with NaN, the quotient by a zero convergent, is false. -/
noncomputable def fraction : ℕ → CF → Option ℝ
  | 0, _ => none
  | fuel + 1, s =>
    let y := s.y + 1
    let z := s.z + 2
    let c := s.c + 1
    let yc := y * c
    let pk := s.p1 * z - s.p2 * yc
    let qk := s.q1 * z - s.q2 * yc
    let k := if big < |pk| then bigInv else 1
    if qk = 0 then fraction fuel ⟨y, z, c, s.p1 * k, s.q1 * k, pk * k, qk * k, s.ans⟩
    else if pk / qk ≠ 0 ∧ |(s.ans - pk / qk) / (pk / qk)| ≤ eps then some (pk / qk)
    else fraction fuel ⟨y, z, c, s.p1 * k, s.q1 * k, pk * k, qk * k, pk / qk⟩

/-- The state before the loop (`src/stats_utils/gamma.rs:190-197`). -/
noncomputable def start (a x : ℝ) : CF :=
  ⟨1 - a, x + (1 - a) + 1, 0, 1, x, x + 1, (x + (1 - a) + 1) * x, (x + 1) / ((x + (1 - a) + 1) * x)⟩

/-- `checked_gamma_lr` (`src/stats_utils/gamma.rs:75-162`) for a real `x`: the inner `none` is the error.  The
branches for NaN and infinity cannot be taken by a real number. -/
noncomputable def lower (fuel : ℕ) (a x : ℝ) : Option (Option ℝ) :=
  if a ≤ 0 then some none
  else if x ≤ 0 then some none
  else if |a| < precAcc then some (some 1)
  else if |x| < precAcc then some (some 0)
  else
    let ax := a * Real.log x - x - LnGamma.lnGamma a
    if ax < minLog then (if a < x then some (some 1) else some (some 0))
    else if x ≤ 1 ∨ x ≤ a then (series x fuel a 1 1).map fun s => some (Real.exp ax * s / a)
    else (fraction fuel (start a x)).map fun f => some (1 - Real.exp ax * f)

/-- `checked_gamma_ur` (`src/stats_utils/gamma.rs:165-229`) for a real `x`. -/
noncomputable def upper (fuel : ℕ) (a x : ℝ) : Option (Option ℝ) :=
  if a ≤ 0 then some none
  else if x ≤ 0 then some none
  else if x < 1 ∨ x ≤ a then (lower fuel a x).map fun r => r.map fun l => 1 - l
  else
    let ax := a * Real.log x - x - LnGamma.lnGamma a
    if ax < minLog then (if a < x then some (some 0) else some (some 1))
    else (fraction fuel (start a x)).map fun f => some (f * Real.exp ax)

/-- `sf` (`src/stats_utils/gamma.rs:32-44`) for a real `x` and rate. -/
noncomputable def sf (fuel : ℕ) (x shape rate : ℝ) : Option (Option ℝ) :=
  if x ≤ 0 then some (some 1) else upper fuel shape (x * rate)

/-- `_chi2_pvalue` (`src/stats/chi2.rs:59-69`); `none` as the statistic is NaN, and so is an inner-most `none` in the
result. -/
noncomputable def chi2P (fuel : ℕ) (stat : Option ℝ) (dof : ℕ) : Option (Option (Option ℝ)) :=
  match stat with
  | none => some (some none)
  | some s => (sf fuel s ((dof : ℝ) / 2) (1 / 2)).map fun r => r.map some

end Verif.Gamma
