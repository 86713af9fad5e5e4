import Verif.Lemmas.NormalTail

/-!
# The branches of `erf_impl` for `z >= 1/2`

Each branch is first examined with its constant `b` rounded to single precision, which is what the coefficients were
fitted to; the constants written in the source differ from those by up to `1.03e-10` of the value.
-/

namespace Verif.Normal
open Set Filter Topology Real
open Verif.ListPoly Verif.GaussTail

/-- The constant of `pieceB` in single precision. -/
def f32B : ℚ := 11543537 / 33554432

/-- The constant of `pieceC` in single precision. -/
def f32C : ℚ := 14092557 / 33554432

/-- The constant of `pieceD` in single precision. -/
def f32D : ℚ := 8218529 / 16777216

/-- The constant of `pieceE` in single precision. -/
def f32E : ℚ := 2230267 / 4194304

/-- The constant of `pieceF` in single precision. -/
def f32F : ℚ := 9210647 / 16777216

/-- The constant of `pieceG` in single precision. -/
def f32G : ℚ := 4673915 / 8388608

/-- The constant of `pieceH` in single precision. -/
def f32H : ℚ := 588231 / 1048576

/-- The constant of `pieceI` in single precision. -/
def f32I : ℚ := 4719845 / 8388608

/-- The constant of `pieceJ` in single precision. -/
def f32J : ℚ := 9453287 / 16777216

/-- The constant of `pieceK` in single precision. -/
def f32K : ℚ := 2364949 / 4194304

/-- The constant of `pieceL` in single precision. -/
def f32L : ℚ := 2365809 / 4194304

/-- The constant of `pieceM` in single precision. -/
def f32M : ℚ := 4732273 / 8388608

/-- The constant of `pieceN` in single precision. -/
def f32N : ℚ := 591563 / 1048576

theorem certB : cert pieceB f32B (1/4) 1e-16 = true := by decide +kernel

theorem certC : cert pieceC f32C (1/2) 1e-16 = true := by decide +kernel

theorem certD : cert pieceD f32D (1) 1e-16 = true := by decide +kernel

theorem certE : cert pieceE f32E (5/4) 1e-16 = true := by decide +kernel

theorem certF : cert pieceF f32F (7/4) 1e-16 = true := by decide +kernel

theorem certG : cert pieceG f32G (11/4) 1e-16 = true := by decide +kernel

theorem certH : cert pieceH f32H (7/2) 1e-16 = true := by decide +kernel

theorem certI : cert pieceI f32I (11/2) 1e-16 = true := by decide +kernel

theorem certJ : cert pieceJ f32J (7) 1e-16 = true := by decide +kernel

theorem certK : cert pieceK f32K (14) 1e-16 = true := by decide +kernel

theorem certL : cert pieceL f32L (22) 1e-16 = true := by decide +kernel

theorem certM : cert pieceM f32M (25) 1e-16 = true := by decide +kernel

theorem nearN (z : ℝ) (h : 85 ≤ z) : Near pieceN f32N 1.7e-13 z := by
  refine near_last pieceN f32N 1.6e-13 (by decide +kernel) 10 (by decide +kernel) (by decide +kernel) (by decide +kernel)
    (by decide +kernel) (by decide +kernel) _ (by norm_num) z ?_
  simpa [pieceN] using h

theorem nearM (z : ℝ) (h1 : 60 ≤ z) (h2 : z ≤ 85) : Near pieceM f32M (1.7e-13 + 1 * 1e-19) z := by
  have hj := near_join pieceM pieceN f32M f32N (85) (by norm_num) 1.7e-13
    (nearN _ (by norm_num)) (by decide +kernel)
  refine near_step pieceM f32M (25) 1e-16 (by norm_num) (by norm_num [pieceM]) certM _ (by norm_num) ?_ z
    (by norm_num [pieceM]; exact h1) (by norm_num [pieceM]; exact h2)
  have e : ((pieceM.lo : ℝ) + ((25 : ℚ) : ℝ)) = ((85 : ℚ) : ℝ) := by norm_num [pieceM]
  rw [e]
  convert hj using 1
  norm_num

theorem nearL (z : ℝ) (h1 : 38 ≤ z) (h2 : z ≤ 60) : Near pieceL f32L (1.7e-13 + 2 * 1e-19) z := by
  have hj := near_join pieceL pieceM f32L f32M (60) (by norm_num) (1.7e-13 + 1 * 1e-19)
    (nearM _ (by norm_num) (by norm_num)) (by decide +kernel)
  refine near_step pieceL f32L (22) 1e-16 (by norm_num) (by norm_num [pieceL]) certL _ (by norm_num) ?_ z
    (by norm_num [pieceL]; exact h1) (by norm_num [pieceL]; exact h2)
  have e : ((pieceL.lo : ℝ) + ((22 : ℚ) : ℝ)) = ((60 : ℚ) : ℝ) := by norm_num [pieceL]
  rw [e]
  convert hj using 1
  norm_num

theorem nearK (z : ℝ) (h1 : 24 ≤ z) (h2 : z ≤ 38) : Near pieceK f32K (1.7e-13 + 3 * 1e-19) z := by
  have hj := near_join pieceK pieceL f32K f32L (38) (by norm_num) (1.7e-13 + 2 * 1e-19)
    (nearL _ (by norm_num) (by norm_num)) (by decide +kernel)
  refine near_step pieceK f32K (14) 1e-16 (by norm_num) (by norm_num [pieceK]) certK _ (by norm_num) ?_ z
    (by norm_num [pieceK]; exact h1) (by norm_num [pieceK]; exact h2)
  have e : ((pieceK.lo : ℝ) + ((14 : ℚ) : ℝ)) = ((38 : ℚ) : ℝ) := by norm_num [pieceK]
  rw [e]
  convert hj using 1
  norm_num

theorem nearJ (z : ℝ) (h1 : 17 ≤ z) (h2 : z ≤ 24) : Near pieceJ f32J (1.7e-13 + 4 * 1e-19) z := by
  have hj := near_join pieceJ pieceK f32J f32K (24) (by norm_num) (1.7e-13 + 3 * 1e-19)
    (nearK _ (by norm_num) (by norm_num)) (by decide +kernel)
  refine near_step pieceJ f32J (7) 1e-16 (by norm_num) (by norm_num [pieceJ]) certJ _ (by norm_num) ?_ z
    (by norm_num [pieceJ]; exact h1) (by norm_num [pieceJ]; exact h2)
  have e : ((pieceJ.lo : ℝ) + ((7 : ℚ) : ℝ)) = ((24 : ℚ) : ℝ) := by norm_num [pieceJ]
  rw [e]
  convert hj using 1
  norm_num

theorem nearI (z : ℝ) (h1 : 23 / 2 ≤ z) (h2 : z ≤ 17) : Near pieceI f32I (1.7e-13 + 5 * 1e-19) z := by
  have hj := near_join pieceI pieceJ f32I f32J (17) (by norm_num) (1.7e-13 + 4 * 1e-19)
    (nearJ _ (by norm_num) (by norm_num)) (by decide +kernel)
  refine near_step pieceI f32I (11 / 2) 1e-16 (by norm_num) (by norm_num [pieceI]) certI _ (by norm_num) ?_ z
    (by norm_num [pieceI]; exact h1) (by norm_num [pieceI]; exact h2)
  have e : ((pieceI.lo : ℝ) + ((11 / 2 : ℚ) : ℝ)) = ((17 : ℚ) : ℝ) := by norm_num [pieceI]
  rw [e]
  convert hj using 1
  norm_num

theorem nearH (z : ℝ) (h1 : 8 ≤ z) (h2 : z ≤ 23 / 2) : Near pieceH f32H (1.7e-13 + 6 * 1e-19) z := by
  have hj := near_join pieceH pieceI f32H f32I (23 / 2) (by norm_num) (1.7e-13 + 5 * 1e-19)
    (nearI _ (by norm_num) (by norm_num)) (by decide +kernel)
  refine near_step pieceH f32H (7 / 2) 1e-16 (by norm_num) (by norm_num [pieceH]) certH _ (by norm_num) ?_ z
    (by norm_num [pieceH]; exact h1) (by norm_num [pieceH]; exact h2)
  have e : ((pieceH.lo : ℝ) + ((7 / 2 : ℚ) : ℝ)) = ((23 / 2 : ℚ) : ℝ) := by norm_num [pieceH]
  rw [e]
  convert hj using 1
  norm_num

theorem nearG (z : ℝ) (h1 : 21 / 4 ≤ z) (h2 : z ≤ 8) : Near pieceG f32G (1.7e-13 + 7 * 1e-19) z := by
  have hj := near_join pieceG pieceH f32G f32H (8) (by norm_num) (1.7e-13 + 6 * 1e-19)
    (nearH _ (by norm_num) (by norm_num)) (by decide +kernel)
  refine near_step pieceG f32G (11 / 4) 1e-16 (by norm_num) (by norm_num [pieceG]) certG _ (by norm_num) ?_ z
    (by norm_num [pieceG]; exact h1) (by norm_num [pieceG]; exact h2)
  have e : ((pieceG.lo : ℝ) + ((11 / 4 : ℚ) : ℝ)) = ((8 : ℚ) : ℝ) := by norm_num [pieceG]
  rw [e]
  convert hj using 1
  norm_num

theorem nearF (z : ℝ) (h1 : 7 / 2 ≤ z) (h2 : z ≤ 21 / 4) : Near pieceF f32F (1.7e-13 + 8 * 1e-19) z := by
  have hj := near_join pieceF pieceG f32F f32G (21 / 4) (by norm_num) (1.7e-13 + 7 * 1e-19)
    (nearG _ (by norm_num) (by norm_num)) (by decide +kernel)
  refine near_step pieceF f32F (7 / 4) 1e-16 (by norm_num) (by norm_num [pieceF]) certF _ (by norm_num) ?_ z
    (by norm_num [pieceF]; exact h1) (by norm_num [pieceF]; exact h2)
  have e : ((pieceF.lo : ℝ) + ((7 / 4 : ℚ) : ℝ)) = ((21 / 4 : ℚ) : ℝ) := by norm_num [pieceF]
  rw [e]
  convert hj using 1
  norm_num

theorem nearE (z : ℝ) (h1 : 9 / 4 ≤ z) (h2 : z ≤ 7 / 2) : Near pieceE f32E (1.7e-13 + 9 * 1e-19) z := by
  have hj := near_join pieceE pieceF f32E f32F (7 / 2) (by norm_num) (1.7e-13 + 8 * 1e-19)
    (nearF _ (by norm_num) (by norm_num)) (by decide +kernel)
  refine near_step pieceE f32E (5 / 4) 1e-16 (by norm_num) (by norm_num [pieceE]) certE _ (by norm_num) ?_ z
    (by norm_num [pieceE]; exact h1) (by norm_num [pieceE]; exact h2)
  have e : ((pieceE.lo : ℝ) + ((5 / 4 : ℚ) : ℝ)) = ((7 / 2 : ℚ) : ℝ) := by norm_num [pieceE]
  rw [e]
  convert hj using 1
  norm_num

theorem nearD (z : ℝ) (h1 : 5 / 4 ≤ z) (h2 : z ≤ 9 / 4) : Near pieceD f32D (1.7e-13 + 10 * 1e-19) z := by
  have hj := near_join pieceD pieceE f32D f32E (9 / 4) (by norm_num) (1.7e-13 + 9 * 1e-19)
    (nearE _ (by norm_num) (by norm_num)) (by decide +kernel)
  refine near_step pieceD f32D (1) 1e-16 (by norm_num) (by norm_num [pieceD]) certD _ (by norm_num) ?_ z
    (by norm_num [pieceD]; exact h1) (by norm_num [pieceD]; exact h2)
  have e : ((pieceD.lo : ℝ) + ((1 : ℚ) : ℝ)) = ((9 / 4 : ℚ) : ℝ) := by norm_num [pieceD]
  rw [e]
  convert hj using 1
  norm_num

theorem nearC (z : ℝ) (h1 : 3 / 4 ≤ z) (h2 : z ≤ 5 / 4) : Near pieceC f32C (1.7e-13 + 11 * 1e-19) z := by
  have hj := near_join pieceC pieceD f32C f32D (5 / 4) (by norm_num) (1.7e-13 + 10 * 1e-19)
    (nearD _ (by norm_num) (by norm_num)) (by decide +kernel)
  refine near_step pieceC f32C (1 / 2) 1e-16 (by norm_num) (by norm_num [pieceC]) certC _ (by norm_num) ?_ z
    (by norm_num [pieceC]; exact h1) (by norm_num [pieceC]; exact h2)
  have e : ((pieceC.lo : ℝ) + ((1 / 2 : ℚ) : ℝ)) = ((5 / 4 : ℚ) : ℝ) := by norm_num [pieceC]
  rw [e]
  convert hj using 1
  norm_num

theorem nearB (z : ℝ) (h1 : 1 / 2 ≤ z) (h2 : z ≤ 3 / 4) : Near pieceB f32B (1.7e-13 + 12 * 1e-19) z := by
  have hj := near_join pieceB pieceC f32B f32C (3 / 4) (by norm_num) (1.7e-13 + 11 * 1e-19)
    (nearC _ (by norm_num) (by norm_num)) (by decide +kernel)
  refine near_step pieceB f32B (1 / 4) 1e-16 (by norm_num) (by norm_num [pieceB]) certB _ (by norm_num) ?_ z
    (by norm_num [pieceB]; exact h1) (by norm_num [pieceB]; exact h2)
  have e : ((pieceB.lo : ℝ) + ((1 / 4 : ℚ) : ℝ)) = ((3 / 4 : ℚ) : ℝ) := by norm_num [pieceB]
  rw [e]
  convert hj using 1
  norm_num

end Verif.Normal
