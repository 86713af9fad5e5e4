import Verif.Lemmas.BetaRate
import Mathlib.Algebra.Order.BigOperators.Ring.Finset

/-! # Certificates for the number of rounds

`b` lies between `lo / 2` and `hi / 2`. Products are kept as whole numbers over `10 ^ 60`, rounded up.
-/

namespace Verif.BetaFrac

/-- Largest `2 |b - m - 3|`. -/
def gn (lo hi m : ℕ) : ℕ := max (hi - (2 * m + 6)) (2 * m + 6 - lo)

/-- The product of the bounds for the rounds after the first. -/
def prodN (num den : ℕ → ℕ) (lo hi : ℕ) : ℕ → ℕ
  | 0 => 10 ^ 60
  | n + 1 => prodN num den lo hi n * (gn lo hi n * num n) / (2 * (n + 4) * den n) + 1

/-- Largest `n` with `n^2 M < t`. -/
def bs (t M : ℕ) : ℕ → ℕ → ℕ
  | 0, n => n
  | i + 1, n => if (n + 2 ^ i) ^ 2 * M < t then bs t M i (n + 2 ^ i) else bs t M i n

/-- A lower bound for `6 (1 - x) (a + k)` with `k = m + 2`. -/
def mm (lo m : ℕ) : ℕ := min (3 * lo + 6) (2 * lo + 2 * m + 6)

def nA (lo m : ℕ) : ℕ := bs (384 * (m + 3)) (mm lo m) 10 0 + 1

/-- Numerator and denominator of a bound for `q / (1 + q)`. -/
def numA (lo m : ℕ) : ℕ := if 384 * (m + 3) ≤ nA lo m ^ 2 * mm lo m then nA lo m else nA lo m + 8

def denA (lo m : ℕ) : ℕ := nA lo m + 8

/-- Sixty-four times a lower bound for the square root of `1 - x`. -/
def sS (lo : ℕ) : ℕ := bs (64 ^ 2 * (lo + 2)) (lo + 204) 6 0

def numS (lo : ℕ) : ℕ :=
  if sS lo ^ 2 * (lo + 204) ≤ 64 ^ 2 * (lo + 2) then 202 * 64 ^ 2 else (204 + lo) * (64 + sS lo) ^ 2

def denS (lo : ℕ) : ℕ := (204 + lo) * (64 + sS lo) ^ 2

/-- Bound for eight times the error before the rounds times the rate of the first. -/
def first (lo hi : ℕ) : ℕ := max 2 hi * max (hi - 2) (2 - lo)

/-- The intervals. -/
def grid : List (ℕ × ℕ) :=
  [(1, 2), (2, 3), (3, 4), (4, 6), (6, 8), (8, 12), (12, 16), (16, 24), (24, 32), (32, 48), (48, 64), (64, 96),
    (96, 128), (128, 200), (200, 280), (280, 400)]

theorem table_A : ∀ g ∈ grid.take 14,
    first g.1 g.2 * prodN (numA g.1) (denA g.1) g.1 g.2 139 * 10 ^ 13 ≤ 16 * 10 ^ 60 := by decide +kernel

theorem table_B : first 1 200 * prodN (fun _ => 271) (fun _ => 1000) 1 200 139 * 10 ^ 13 ≤ 16 * 10 ^ 60 := by
  decide +kernel

theorem table_S : ∀ g ∈ grid,
    first g.1 g.2 * prodN (fun _ => numS g.1) (fun _ => denS g.1) g.1 g.2 139 * 10 ^ 13 ≤ 16 * 10 ^ 60 := by
  decide +kernel

/-- The same for large `b`. -/
def prodL : ℕ → ℕ
  | 0 => 10 ^ 120
  | n + 1 => prodL n * (101 ^ 2 * 304) / ((n + 4) * (102 + n) * 1000) + 1

theorem table_L : 10 ^ 40 * prodL 139 * 10 ^ 13 ≤ 2 * 10 ^ 120 := by decide +kernel

end Verif.BetaFrac
