import Verif.Model.FloatBits

/-!
# Numbers of a binary interchange format (IEEE 754)
-/

namespace Verif.FloatBits

namespace Spec

/-- The number of finite magnitude bits (IEEE 754): subnormal below `2 ^ frac`, else an implicit leading one. -/
noncomputable def mag (F : Fmt) (m : ℕ) : ℝ :=
  if m / 2 ^ F.frac = 0 then (m % 2 ^ F.frac : ℕ) * (2 : ℝ) ^ F.low
  else ((2 ^ F.frac + m % 2 ^ F.frac : ℕ) : ℝ) * (2 : ℝ) ^ (F.low + (m / 2 ^ F.frac : ℕ) - 1)

/-- The number of magnitude bits up to those of infinity. -/
noncomputable def magE (F : Fmt) (m : ℕ) : EReal := if m < (2 ^ F.expo - 1) * 2 ^ F.frac then (mag F m : EReal) else ⊤

/-- The number of a float: its sign bit and its magnitude. -/
noncomputable def num (F : Fmt) (b : ℕ) : EReal :=
  if b / 2 ^ (F.expo + F.frac) % 2 = 0 then magE F (b % 2 ^ (F.expo + F.frac)) else -magE F (b % 2 ^ (F.expo + F.frac))

/-- The bits are those of a number (or an infinity), not of a NaN. -/
def IsNum (F : Fmt) (b : ℕ) : Prop :=
  b < 2 ^ (1 + F.expo + F.frac) ∧ b % 2 ^ (F.expo + F.frac) ≤ (2 ^ F.expo - 1) * 2 ^ F.frac

/-- `c` is the number of the format next above `b`. -/
def IsNext (F : Fmt) (b c : ℕ) : Prop :=
  IsNum F c ∧ num F b < num F c ∧ ∀ d, IsNum F d → num F b < num F d → num F c ≤ num F d

/-- `c` is the number of the format next below `b`. -/
def IsPrev (F : Fmt) (b c : ℕ) : Prop :=
  IsNum F c ∧ num F c < num F b ∧ ∀ d, IsNum F d → num F d < num F b → num F d ≤ num F c

end Spec

end Verif.FloatBits
