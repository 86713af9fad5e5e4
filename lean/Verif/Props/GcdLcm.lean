import Verif.Model.GcdLcm
import Mathlib.Tactic.Ring
import Mathlib.Tactic.Linarith
import Mathlib.Data.Int.GCD

/-!
# gcd and lcm: theorems
-/

namespace Verif.GcdLcm.Spec

/-- `x` is an `i32`. -/
def I32 (x : Int) : Prop := -2 ^ 31 ≤ x ∧ x < 2 ^ 31

/-- `g` is the greatest common divisor: a non-negative common divisor that every common divisor divides. -/
def IsGcd (a b g : Int) : Prop := 0 ≤ g ∧ g ∣ a ∧ g ∣ b ∧ ∀ d, d ∣ a → d ∣ b → d ∣ g

/-- `l` is the least common multiple: a non-negative common multiple that divides every common multiple. -/
def IsLcm (a b l : Int) : Prop := 0 ≤ l ∧ a ∣ l ∧ b ∣ l ∧ ∀ m, a ∣ m → b ∣ m → l ∣ m

end Verif.GcdLcm.Spec

namespace Verif.GcdLcm
open Verif.GcdLcm.Spec

theorem wrap32_eq (x : Int) (h : I32 x) : wrap32 x = x := by
  unfold wrap32
  obtain ⟨h1, h2⟩ := h
  rw [Int.emod_eq_of_lt] <;> omega

theorem gcd_le (a b : Int) (ha : I32 a) (hb : I32 b) : Int.gcd a b ≤ 2 ^ 31 := by
  obtain ⟨a1, a2⟩ := ha
  obtain ⟨b1, b2⟩ := hb
  by_cases h : a = 0
  · subst h
    rw [Int.gcd_zero_left]
    omega
  · have := Nat.le_of_dvd (by omega) (Int.gcd_dvd_natAbs_left a b)
    omega

theorem isGcd_gcd (a b : Int) : IsGcd a b (Int.gcd a b) :=
  ⟨by omega, Int.gcd_dvd_left a b, Int.gcd_dvd_right a b, fun _ h1 h2 => Int.dvd_coe_gcd h1 h2⟩

theorem isLcm_lcm (a b : Int) : IsLcm a b (Int.lcm a b) :=
  ⟨by omega, Int.dvd_lcm_left a b, Int.dvd_lcm_right a b, fun _ h1 h2 => Int.coe_lcm_dvd h1 h2⟩

theorem gcd_eq_pow (a b : Int) (ha : I32 a) (hb : I32 b) :
    Int.gcd a b = 2 ^ 31 ↔ (a = 0 ∨ a = -2 ^ 31) ∧ (b = 0 ∨ b = -2 ^ 31) ∧ ¬ (a = 0 ∧ b = 0) := by
  obtain ⟨a1, a2⟩ := ha
  obtain ⟨b1, b2⟩ := hb
  constructor
  · intro h
    have e1 : (2 ^ 31 : Int) ∣ a := by
      have := Int.gcd_dvd_left a b
      rw [h] at this
      exact_mod_cast this
    have e2 : (2 ^ 31 : Int) ∣ b := by
      have := Int.gcd_dvd_right a b
      rw [h] at this
      exact_mod_cast this
    obtain ⟨c, hc⟩ := e1
    obtain ⟨d, hd⟩ := e2
    refine ⟨by omega, by omega, ?_⟩
    rintro ⟨rfl, rfl⟩
    simp at h
  · rintro ⟨h1, h2, h3⟩
    rcases h1 with rfl | rfl <;> rcases h2 with rfl | rfl
    · exact absurd ⟨rfl, rfl⟩ h3
    all_goals decide

/-- `gcd` returns the greatest common divisor, except when it would be `2^31`: then one argument is `-2^31` and the other
is 0 or `-2^31`, and the result is `-2^31`. -/
theorem gcd_correct (a b : Int) (ha : I32 a) (hb : I32 b) :
    (¬ ((a = 0 ∨ a = -2 ^ 31) ∧ (b = 0 ∨ b = -2 ^ 31) ∧ ¬ (a = 0 ∧ b = 0)) → IsGcd a b (gcd32 a b)) ∧
    ((a = 0 ∨ a = -2 ^ 31) ∧ (b = 0 ∨ b = -2 ^ 31) ∧ ¬ (a = 0 ∧ b = 0) → gcd32 a b = -2 ^ 31) := by
  have hle := gcd_le a b ha hb
  have hiff := gcd_eq_pow a b ha hb
  constructor
  · intro h
    have : Int.gcd a b ≠ 2 ^ 31 := fun he => h (hiff.1 he)
    unfold gcd32
    rw [wrap32_eq _ ⟨by omega, by omega⟩]
    exact isGcd_gcd a b
  · intro h
    unfold gcd32
    rw [hiff.2 h]
    decide

/-- `lcm` returns the least common multiple whenever that is an `i32`. -/
theorem lcm_correct (a b : Int) (ha : I32 a) (hb : I32 b) (l : Int) (hl : IsLcm a b l) (hr : I32 l) :
    lcm32 a b = l := by
  have hl' : l = Int.lcm a b := by
    have h1 : l ∣ Int.lcm a b := hl.2.2.2 _ (Int.dvd_lcm_left a b) (Int.dvd_lcm_right a b)
    have h2 : ((Int.lcm a b : Nat) : Int) ∣ l := Int.coe_lcm_dvd hl.2.1 hl.2.2.1
    exact Int.dvd_antisymm hl.1 (by omega) h1 h2
  subst hl'
  by_cases h0 : a = 0 ∧ b = 0
  · obtain ⟨rfl, rfl⟩ := h0
    rfl
  unfold lcm32
  rw [if_neg h0]
  simp only []
  -- one argument zero
  by_cases ha0 : a = 0
  · subst ha0
    rw [Int.zero_mul]
    simp [wrap32]
  by_cases hb0 : b = 0
  · subst hb0
    rw [Int.zero_tdiv]
    simp [wrap32]
  have hgne : Int.gcd a b ≠ 2 ^ 31 := by
    intro he
    obtain ⟨h1, h2, _⟩ := (gcd_eq_pow a b ha hb).1 he
    have e1 : a = -2 ^ 31 := by omega
    have e2 : b = -2 ^ 31 := by omega
    subst e1 e2
    exact absurd hr.2 (by decide)
  have hgle := gcd_le a b ha hb
  have hg : gcd32 a b = Int.gcd a b := wrap32_eq _ ⟨by omega, by omega⟩
  rw [hg]
  have hgpos : 0 < Int.gcd a b := Int.gcd_pos_of_ne_zero_left _ ha0
  obtain ⟨c, hc⟩ := Int.gcd_dvd_right a b
  have hq : b.tdiv (Int.gcd a b) = c := by
    rw [show b.tdiv (Int.gcd a b) = ((Int.gcd a b : Int) * c).tdiv (Int.gcd a b) from
      congrArg (fun t => Int.tdiv t (Int.gcd a b)) hc]
    exact Int.mul_tdiv_cancel_left _ (by omega)
  rw [hq]
  have hc32 : I32 c := by
    have hcb : c.natAbs ≤ b.natAbs := by
      rw [hc, Int.natAbs_mul]
      exact Nat.le_mul_of_pos_left _ (by omega)
    obtain ⟨b1, b2⟩ := hb
    by_cases hm : c.natAbs = 2 ^ 31
    · -- then b = -2^31 and the gcd is 1
      have hbm : b = -2 ^ 31 := by omega
      have hg1 : Int.gcd a b = 1 := by
        have : b.natAbs = Int.gcd a b * c.natAbs := by
          conv_lhs => rw [hc, Int.natAbs_mul]
          simp
        have hb' : b.natAbs = 2 ^ 31 := by omega
        rw [hm, hb'] at this
        omega
      constructor
      · omega
      · rw [hg1] at hc; omega
    · constructor <;> omega
  rw [wrap32_eq c hc32]
  have hac : (a * c).natAbs = Int.lcm a b := by
    have h1 := Int.gcd_mul_lcm a b
    have h2 : Int.gcd a b * (a * c).natAbs = Int.gcd a b * Int.lcm a b := by
      have hbn : b.natAbs = Int.gcd a b * c.natAbs := by
        conv_lhs => rw [hc, Int.natAbs_mul]
        rfl
      rw [h1, hbn, Int.natAbs_mul]
      ring
    exact Nat.eq_of_mul_eq_mul_left hgpos h2
  obtain ⟨r1, r2⟩ := hr
  rw [wrap32_eq (a * c) ⟨by omega, by omega⟩, hac, wrap32_eq _ ⟨r1, r2⟩]

/-- The product of the two results is `|a*b|` when the least common multiple is an `i32`. -/
theorem gcd_mul_lcm (a b : Int) (ha : I32 a) (hb : I32 b) (hab : a ≠ 0 ∧ b ≠ 0) (l : Int) (hl : IsLcm a b l)
    (hr : I32 l) : gcd32 a b * lcm32 a b = (a * b).natAbs := by
  have e := lcm_correct a b ha hb l hl hr
  have e' := lcm_correct a b ha hb (Int.lcm a b) (isLcm_lcm a b)
  have hll : l = Int.lcm a b := by
    have h1 : l ∣ Int.lcm a b := hl.2.2.2 _ (Int.dvd_lcm_left a b) (Int.dvd_lcm_right a b)
    have h2 : ((Int.lcm a b : Nat) : Int) ∣ l := Int.coe_lcm_dvd hl.2.1 hl.2.2.1
    exact Int.dvd_antisymm hl.1 (by omega) h1 h2
  have hgne : Int.gcd a b ≠ 2 ^ 31 := by
    intro he
    obtain ⟨h1, h2, _⟩ := (gcd_eq_pow a b ha hb).1 he
    have e1 : a = -2 ^ 31 := by omega
    have e2 : b = -2 ^ 31 := by omega
    subst e1 e2
    rw [hll] at hr
    exact absurd hr.2 (by decide)
  have hgle := gcd_le a b ha hb
  have hg : gcd32 a b = Int.gcd a b := wrap32_eq _ ⟨by omega, by omega⟩
  rw [e, hg, hll, ← Nat.cast_mul, Int.gcd_mul_lcm, Int.natAbs_mul]

/-- If the least common multiple is not an `i32` the result is another number: `lcm` wraps silently. -/
theorem lcm_wraps : lcm32 65536 65535 = 65536 ∧ IsLcm 65536 65535 (65536 * 65535) := by
  refine ⟨by decide, ?_⟩
  have := isLcm_lcm 65536 65535
  exact this

/-- Columns of equal length (not 1): row by row, null when either is null. -/
theorem binary_rows (f : Int → Int → Int) (a b : List (Option Int)) (h : a.length = b.length) (h1 : b.length ≠ 1) :
    ∃ out, binaryCol f a b = .ok out ∧ out.length = a.length ∧
      ∀ (i : Nat) (x y : Option Int), a[i]? = some x → b[i]? = some y →
        out[i]? = some (x.bind fun u => y.map fun v => f u v) := by
  refine ⟨(a.zip b).map (rowOp f), ?_, ?_, ?_⟩
  · unfold binaryCol
    rw [if_neg h1, if_pos h]
  · rw [List.length_map, List.length_zip, ← h, Nat.min_self]
  · intro i x y hx hy
    rw [List.getElem?_map, List.zip, List.getElem?_zipWith, hx, hy]
    cases x <;> cases y <;> rfl

/-- A scalar on the right is used for every row; a null scalar panics; other lengths are an error. -/
theorem binary_scalar (f : Int → Int → Int) (a b : List (Option Int)) :
    (∀ y, b = [some y] → binaryCol f a b = .ok (a.map fun x => x.map fun u => f u y)) ∧
    (b = [none] → binaryCol f a b = .panic) ∧
    (b.length ≠ 1 → a.length ≠ b.length → binaryCol f a b = .shapeMismatch) := by
  refine ⟨?_, ?_, ?_⟩
  · rintro y rfl; rfl
  · rintro rfl; rfl
  · intro h1 h2
    unfold binaryCol
    rw [if_neg h1, if_neg h2]

/-- The column functions give these numbers: on columns of equal length a row is null if either side is null, and
otherwise the greatest common divisor (`gcd`) or the least common multiple (`lcm`) of the row, when that is an `i32`. -/
theorem columns_value (a b : List (Option Int)) (h : a.length = b.length) (h1 : b.length ≠ 1)
    (ha : ∀ x, some x ∈ a → I32 x) (hb : ∀ x, some x ∈ b → I32 x) :
    ∃ g l, plGcd a b = .ok g ∧ plLcm a b = .ok l ∧ g.length = a.length ∧ l.length = a.length ∧
      ∀ (i : Nat) (x y : Option Int), a[i]? = some x → b[i]? = some y →
        (x = none ∨ y = none → g[i]? = some none ∧ l[i]? = some none) ∧
        ∀ u v, x = some u → y = some v →
          (∀ d, IsGcd u v d → I32 d → g[i]? = some (some d)) ∧ (∀ m, IsLcm u v m → I32 m → l[i]? = some (some m)) := by
  obtain ⟨g, g1, g2, g3⟩ := binary_rows gcd32 a b h h1
  obtain ⟨l, l1, l2, l3⟩ := binary_rows lcm32 a b h h1
  refine ⟨g, l, g1, l1, g2, l2, ?_⟩
  intro i x y hx hy
  rw [g3 i x y hx hy, l3 i x y hx hy]
  refine ⟨?_, ?_⟩
  · rintro (rfl | rfl)
    · exact ⟨rfl, rfl⟩
    · cases x <;> exact ⟨rfl, rfl⟩
  · rintro u v rfl rfl
    have hu := ha u (List.mem_of_getElem? hx)
    have hv := hb v (List.mem_of_getElem? hy)
    refine ⟨?_, fun m hm hr => by simp [lcm_correct u v hu hv m hm hr]⟩
    intro d hd hr
    have hdd : d = Int.gcd u v := by
      have e := isGcd_gcd u v
      exact Int.dvd_antisymm hd.1 e.1 (e.2.2.2 d hd.2.1 hd.2.2.1) (hd.2.2.2 _ e.2.1 e.2.2.1)
    have : gcd32 u v = d := by
      unfold gcd32
      rw [hdd]
      exact wrap32_eq _ (hdd ▸ hr)
    simp [this]

example : plGcd [some 12, none, some (-18)] [some 18, some 3, some 12] = .ok [some 6, none, some 6] := by decide
example : plLcm [some 4, some 0] [some 6] = .ok [some 12, some 0] := by decide
example : IsGcd 12 18 (gcd32 12 18) := (gcd_correct 12 18 ⟨by decide, by decide⟩ ⟨by decide, by decide⟩).1 (by decide)
example : gcd32 (-2 ^ 31) 0 = -2 ^ 31 :=
  (gcd_correct (-2 ^ 31) 0 ⟨by decide, by decide⟩ ⟨by decide, by decide⟩).2 (by decide)
example : gcd32 4 6 * lcm32 4 6 = 24 :=
  gcd_mul_lcm 4 6 ⟨by decide, by decide⟩ ⟨by decide, by decide⟩ (by decide) 12 (isLcm_lcm 4 6) ⟨by decide, by decide⟩
example : lcm32 (-2 ^ 30) 2 = 2 ^ 30 :=
  lcm_correct _ _ ⟨by decide, by decide⟩ ⟨by decide, by decide⟩ (2 ^ 30) (isLcm_lcm (-2 ^ 30) 2) ⟨by decide, by decide⟩
example : ∃ out, plGcd [some 12, none] [some 18, some 3] = .ok out ∧ out.length = 2 :=
  have ⟨out, h1, h2, _⟩ := binary_rows gcd32 [some 12, none] [some 18, some 3] (by decide) (by decide)
  ⟨out, h1, h2⟩
example : plLcm [some 4] [none] = .panic := (binary_scalar lcm32 [some 4] [none]).2.1 rfl

end Verif.GcdLcm
