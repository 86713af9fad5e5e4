import Mathlib.Analysis.SpecialFunctions.Complex.Circle
import Mathlib.Data.Complex.BigOperators

/-!
# Real FFT expression (`src/num_ext/fft.rs`, `python/polars_ds/exprs/num.py:940-962`)

The transform itself is the crate `realfft`; its documented contract is used: for `N` real inputs the output
vector has `N / 2 + 1` entries, the leading entries of the discrete Fourier transform.
-/

namespace Verif.Fft

/-- Coefficient `k` of the discrete Fourier transform of `x` (contract of `realfft`, `fft.rs:37-41`). -/
noncomputable def dft (x : List ℝ) (k : ℕ) : ℂ :=
  ∑ j ∈ Finset.range x.length,
    (x.getD j 0 : ℂ) * Complex.exp (-(2 * Real.pi * Complex.I * (j * k / x.length)))

/-- Outcome of the expression. -/
inductive Out (α : Type) where
  | err
  | ok (a : α)

/-- `to_vec_null_aware` (`fft.rs:23-28`): nulls are an error. -/
def noNulls : List (Option ℝ) → Option (List ℝ)
  | [] => some []
  | none :: _ => none
  | some a :: t => (noNulls t).map (a :: ·)

/-- Pad with zeros or truncate to `n` points (`fft.rs:30-34`). -/
def resize (x : List ℝ) (n : ℕ) : List ℝ :=
  if n > x.length then x ++ List.replicate (n - x.length) 0 else x.take n

/-- `r2c.process` (`fft.rs:37-41`): the leading `N / 2 + 1` coefficients. -/
noncomputable def spectrum (x : List ℝ) : List ℂ := (List.range (x.length / 2 + 1)).map (dft x)

/-- A complex number as the two-element array of the output (`fft.rs:54`). -/
def pair (c : ℂ) : ℝ × ℝ := (c.re, c.im)

/-- A mirrored entry (`fft.rs:59`, `fft.rs:64`). -/
def pairConj (c : ℂ) : ℝ × ℝ := (c.re, -c.im)

/-- The entries appended for `return_full` (`fft.rs:56-66`); `abs_diff(1)` of `N / 2` is written out. -/
noncomputable def mirror (x : List ℝ) : List (ℝ × ℝ) :=
  if x.length % 2 = 0 then
    (((spectrum x).reverse.drop 1).take (if 1 ≤ x.length / 2 then x.length / 2 - 1 else 1)).map pairConj
  else ((spectrum x).reverse.take (x.length / 2)).map pairConj

/-- `pl_rfft` (`fft.rs:14-74`) with the argument check of `num.py:956-957` (`n <= 1` raises). -/
noncomputable def rfft (s : List (Option ℝ)) (n : Option ℕ) (full : Bool) : Out (List (ℝ × ℝ)) :=
  if n.any (· ≤ 1) then .err
  else
    match noNulls s with
    | none => .err
    | some v =>
      let x := resize v (n.getD s.length)
      .ok (if full then (spectrum x).map pair ++ mirror x else (spectrum x).map pair)

end Verif.Fft
