import Mathlib.MeasureTheory.Measure.Lebesgue.VolumeOfBalls
import Mathlib.NumberTheory.Harmonic.GammaDeriv
import Verif.Lemmas.DigammaSmall
import Verif.Props.Entropy

/-!
# C142: the digamma function and the value of the nearest neighbor entropy
-/

open Real

namespace Verif.Digamma
open Verif Verif.Confusion

/-! ### Near an integer -/

theorem two_sub_le (m : ℕ) : 2 * (1 - ((2 : ℝ) ^ m)⁻¹) ≤ m := by
  rcases m with _ | _ | m
  · norm_num
  · norm_num
  · have : (0 : ℝ) < ((2 : ℝ) ^ (m + 2))⁻¹ := by positivity
    push_cast
    have hm : (0 : ℝ) ≤ m := Nat.cast_nonneg m
    linarith

theorem bits_close {y Y : ℝ} (hy : 0 < y) (hyY : y ≤ Y) (h1 : 1 ≤ Y) (h : bits Y - bits y ≤ 4) :
    Y - y ≤ 5 / 2 ^ 52 * Y := by
  have hY : 0 < Y := by linarith
  have hlog : Int.log 2 y ≤ Int.log 2 Y := Int.log_mono_right hy hyY
  have hE0 : 0 ≤ Int.log 2 Y := (Int.zpow_le_iff_le_log (b := 2) (by norm_num) hY).1 (by simpa using h1)
  have hE : max (Int.log 2 Y) (-1022) = Int.log 2 Y := by omega
  have hYA := Int.zpow_log_le_self (b := 2) (by norm_num) hY
  have hya := Int.lt_zpow_succ_log_self (b := 2) (by norm_num) y
  unfold bits at h
  rw [hE] at h
  obtain ⟨e, he⟩ : ∃ e : ℤ, e = max (Int.log 2 y) (-1022) := ⟨_, rfl⟩
  obtain ⟨E, hEd⟩ : ∃ E : ℤ, E = Int.log 2 Y := ⟨_, rfl⟩
  have heE : e ≤ E := by omega
  rw [← he, ← hEd] at h
  rw [← hEd] at hYA
  have hye : y < (2 : ℝ) ^ (e + 1) := by
    refine lt_of_lt_of_le hya ?_
    push_cast
    exact zpow_le_zpow_right₀ (by norm_num) (by omega)
  obtain ⟨m, hm⟩ : ∃ m : ℕ, E = e + m := ⟨(E - e).toNat, by omega⟩
  have f1 := Int.lt_floor_add_one (Y / (2 : ℝ) ^ (E - 52))
  have f2 := Int.floor_le (y / (2 : ℝ) ^ (e - 52))
  have h' : ((E + 1022) * 2 ^ 52 + ⌊Y / (2 : ℝ) ^ (E - 52)⌋ - ((e + 1022) * 2 ^ 52 + ⌊y / (2 : ℝ) ^ (e - 52)⌋) : ℝ) ≤ 4 := by
    exact_mod_cast h
  have hA : (0 : ℝ) < (2 : ℝ) ^ e := by positivity
  have eE : (2 : ℝ) ^ E = (2 : ℝ) ^ e * 2 ^ m := by rw [hm, zpow_add₀ (by norm_num), zpow_natCast]
  have d1' : Y / (2 : ℝ) ^ (E - 52) = 2 ^ 52 * (Y / ((2 : ℝ) ^ e * 2 ^ m)) := by
    rw [zpow_sub₀ (by norm_num), eE]
    have : ((2 : ℝ) ^ (52 : ℤ)) = 2 ^ 52 := by norm_cast
    rw [this]
    field_simp
  have d2' : y / (2 : ℝ) ^ (e - 52) = 2 ^ 52 * (y / (2 : ℝ) ^ e) := by
    rw [zpow_sub₀ (by norm_num)]
    have : ((2 : ℝ) ^ (52 : ℤ)) = 2 ^ 52 := by norm_cast
    rw [this]
    field_simp
  rw [d1'] at f1 h'
  rw [d2'] at f2 h'
  have hyr : y / (2 : ℝ) ^ e < 2 := by
    rw [div_lt_iff₀ hA]
    rw [zpow_add₀ (by norm_num), zpow_one] at hye
    linarith
  have hmE : (E : ℝ) = e + m := by rw [hm]; push_cast; ring
  rw [hmE] at h'
  have hP : (0 : ℝ) < 2 ^ m := by positivity
  have key : y / (2 : ℝ) ^ e * (1 - ((2 : ℝ) ^ m)⁻¹) ≤ m := by
    have c : 0 ≤ 1 - ((2 : ℝ) ^ m)⁻¹ := by
      have : ((2 : ℝ) ^ m)⁻¹ ≤ 1 := inv_le_one_of_one_le₀ (one_le_pow₀ (by norm_num))
      linarith
    have := mul_le_mul_of_nonneg_right hyr.le c
    linarith [two_sub_le m]
  have split : (Y - y) / ((2 : ℝ) ^ e * 2 ^ m) = Y / ((2 : ℝ) ^ e * 2 ^ m) - y / (2 : ℝ) ^ e +
      y / (2 : ℝ) ^ e * (1 - ((2 : ℝ) ^ m)⁻¹) := by
    field_simp
    ring
  have fin : (Y - y) / ((2 : ℝ) ^ e * 2 ^ m) ≤ 5 / 2 ^ 52 := by
    rw [split, le_div_iff₀ (by positivity)]
    generalize Y / ((2 : ℝ) ^ e * 2 ^ m) = u at *
    generalize y / (2 : ℝ) ^ e * (1 - ((2 : ℝ) ^ m)⁻¹) = w at *
    generalize y / (2 : ℝ) ^ e = v at *
    generalize ⌊(2 : ℝ) ^ 52 * u⌋ = a at f1 h'
    generalize ⌊(2 : ℝ) ^ 52 * v⌋ = b at f2 h'
    linarith
  rw [div_le_iff₀ (by positivity)] at fin
  refine fin.trans ?_
  have : ((2 : ℝ) ^ e * 2 ^ m) ≤ Y := by
    rw [← eE]
    push_cast at hYA
    exact hYA
  gcongr

theorem atInteger_close {x : ℝ} (h : atInteger x) : x - ⌊x⌋ ≤ 5 / 2 ^ 52 * (1 + |x|) := by
  rcases h with h | ⟨h0, h⟩
  · have h1 := (abs_le.1 h).1
    have h2 := abs_nonneg x
    have h3 : (5 : ℝ) / 2 ^ 52 * 1 ≤ 5 / 2 ^ 52 * (1 + |x|) := by gcongr; linarith
    have h4 : ((2⁻¹ : ℝ)) ^ 52 ≤ 5 / 2 ^ 52 * 1 := by norm_num
    linarith
  · have hf : ⌊x⌋ ≤ -1 := by
      have : ⌊x⌋ < 0 := Int.floor_lt.2 (by simpa using h0)
      omega
    have hf' : (⌊x⌋ : ℝ) ≤ -1 := by exact_mod_cast hf
    have h1 := bits_close (y := -x) (Y := -⌊x⌋) (by linarith) (by linarith [Int.floor_le x]) (by linarith)
      (abs_le.1 h).2
    have h2 := Int.lt_floor_add_one x
    have h3 : (5 : ℝ) / 2 ^ 52 * -⌊x⌋ ≤ 5 / 2 ^ 52 * (1 + |x|) := by
      gcongr
      rw [abs_of_neg h0]
      linarith
    linarith

/-! ### Accuracy -/

theorem digammaNonneg_large {x : ℝ} (hx : 1 / 10 ^ 6 < x) :
    ∃ v, digammaNonneg x = .num v ∧ |v - psi x| ≤ 3 / 10 ^ 15 := by
  have h0 : 0 < x := lt_trans (by norm_num) hx
  refine ⟨climb 0 x, ?_, ?_⟩
  · unfold digammaNonneg
    rw [if_neg (fun h => absurd h.1 (not_le.2 h0)), if_neg (not_le.2 hx)]
  · have h := climb_accuracy 0 x h0
    have hb : bound 12 ≤ 3 / 10 ^ 15 := by unfold bound; norm_num
    rw [abs_le]
    constructor <;> linarith [h.1, h.2]

/-- **C142.**  For every positive argument the digamma expression is a number within `4e-12` of the derivative of the
logarithm of the gamma function, and within `3e-15` when the argument exceeds `1e-6`. -/
theorem digamma_positive (x : ℝ) (hx : 0 < x) : ∃ v, digamma (.num x) = .num v ∧
    |v - deriv (fun t => log (Gamma t)) x| ≤ 4 / 10 ^ 12 ∧
    (1 / 10 ^ 6 < x → |v - deriv (fun t => log (Gamma t)) x| ≤ 3 / 10 ^ 15) := by
  have e : digamma (.num x) = digammaNonneg x := by
    simp only [digamma]
    rw [if_neg (fun h => absurd h.1 (not_le.2 hx)), if_neg (not_lt.2 hx.le)]
  rw [e]
  by_cases h : x ≤ 1 / 10 ^ 6
  · refine ⟨d1 - 1 / x + d2 * x, ?_, small_formula hx h, fun h' => absurd h (not_le.2 h')⟩
    unfold digammaNonneg
    rw [if_neg (fun h => absurd h.1 (not_le.2 hx)), if_pos h]
  · obtain ⟨v, h1, h2⟩ := digammaNonneg_large (not_le.1 h)
    refine ⟨v, h1, h2.trans ?_, fun _ => h2⟩
    norm_num

example : ∃ v, digamma (.num (1 / 10 ^ 7)) = .num v ∧ |v - deriv (fun t => log (Gamma t)) (1 / 10 ^ 7)| ≤ 4 / 10 ^ 12 := by
  obtain ⟨v, h1, h2, _⟩ := digamma_positive (1 / 10 ^ 7) (by norm_num)
  exact ⟨v, h1, h2⟩

/-- **C142 (negative arguments).**  For every number below zero that is not an integer the result is within `3e-15` of the
derivative of `log |Γ|`, or it is minus infinity and the number is within about five units in the last place above an
integer. -/
theorem digamma_negative_partial (x : ℝ) (hx : x < 0) (hint : ∀ n : ℤ, x ≠ n) :
    (∃ v, digamma (.num x) = .num v ∧ |v - deriv (fun t => log (Gamma t)) x| ≤ 3 / 10 ^ 15) ∨
    (digamma (.num x) = .inf false ∧ x - ⌊x⌋ ≤ 5 / 2 ^ 52 * (1 + |x|)) := by
  by_cases h : atInteger x
  · right
    refine ⟨?_, atInteger_close h⟩
    simp only [digamma]
    rw [if_pos ⟨hx.le, h⟩]
  · left
    obtain ⟨v, h1, h2⟩ := digammaNonneg_large (x := 1 - x) (by norm_num; linarith)
    refine ⟨v + π / tan (-π * x), ?_, ?_⟩
    · simp only [digamma]
      rw [if_neg (fun h' => h h'.2), if_pos hx, h1]
      rfl
    · have h3 := psi_reflect hint
      unfold psi at h3 h2
      rw [h3]
      have : v + π / tan (-π * x) - (deriv (fun t => log (Gamma t)) (1 - x) + π / tan (-π * x)) =
        v - deriv (fun t => log (Gamma t)) (1 - x) := by ring
      rw [this]
      exact h2

/-- At `-5/2` the first case holds: the number is not near an integer. -/
example : ∃ v, digamma (.num (-5 / 2)) = .num v ∧ |v - deriv (fun t => log (Gamma t)) (-5 / 2)| ≤ 3 / 10 ^ 15 := by
  have hf : ⌊(-5 / 2 : ℝ)⌋ = -3 := by
    rw [Int.floor_eq_iff]
    norm_num
  rcases digamma_negative_partial (-5 / 2) (by norm_num) (by
    intro n h
    have : ((-5 : ℤ) : ℝ) = ((2 * n : ℤ) : ℝ) := by push_cast; linarith
    have := Int.cast_injective this
    omega) with h | ⟨_, h⟩
  · exact h
  · rw [hf] at h
    norm_num at h

/-- **C142 (whole numbers).**  On positive whole numbers the expression is a harmonic number less Euler's constant. -/
theorem digamma_harmonic (n : ℕ) : ∃ v, digamma (.num (n + 1)) = .num v ∧
    |v - (∑ i ∈ Finset.range n, 1 / ((i : ℝ) + 1) - eulerMascheroniConstant)| ≤ 3 / 10 ^ 15 := by
  have hp : (0 : ℝ) < n + 1 := by positivity
  obtain ⟨v, h1, _, h2⟩ := digamma_positive (n + 1) hp
  refine ⟨v, h1, ?_⟩
  have hn : (0 : ℝ) ≤ n := Nat.cast_nonneg n
  have h3 := h2 (by norm_num; linarith)
  have h4 : deriv (fun t => log (Gamma t)) ((n : ℝ) + 1) =
      ∑ i ∈ Finset.range n, 1 / ((i : ℝ) + 1) - eulerMascheroniConstant := by
    rw [deriv.log (differentiableAt_Gamma (pole_free hp)) (Gamma_ne_zero (pole_free hp)), deriv_Gamma_nat,
      Gamma_nat_eq_factorial, mul_div_assoc, mul_comm, div_mul_cancel₀ _ (by exact_mod_cast n.factorial_ne_zero), harmonic]
    push_cast
    simp only [one_div]
    ring
  rwa [h4] at h3

example : ∃ v, digamma (.num 3) = .num v ∧ |v - (3 / 2 - eulerMascheroniConstant)| ≤ 3 / 10 ^ 15 := by
  obtain ⟨v, h1, h2⟩ := digamma_harmonic 2
  refine ⟨v, by rw [← h1]; congr 1; norm_num, ?_⟩
  have : ∑ i ∈ Finset.range 2, 1 / ((i : ℝ) + 1) = 3 / 2 := by
    rw [Finset.sum_range_succ, Finset.sum_range_succ, Finset.sum_range_zero]; norm_num
  rwa [this] at h2

/-- **C142 (poles and special values).**  Minus infinity at zero and the negative integers, NaN for NaN and minus infinity,
infinity for infinity. -/
theorem digamma_special (n : ℕ) : digamma (.num (-n)) = .inf false ∧ digamma .nan = .nan ∧ digamma (.inf false) = .nan ∧
    digamma (.inf true) = .inf true := by
  refine ⟨?_, rfl, rfl, rfl⟩
  simp only [digamma]
  rw [if_pos]
  have hn : (0 : ℝ) ≤ n := Nat.cast_nonneg n
  refine ⟨by linarith, Or.inl ?_⟩
  have : ⌊(-n : ℝ)⌋ = -n := by
    rw [show (-n : ℝ) = ((-n : ℤ) : ℝ) by push_cast; rfl, Int.floor_intCast]
  rw [this]
  norm_num

theorem log_between {y : ℝ} (h1 : 2 ^ 49 ≤ y) (h2 : y < 2 ^ 50) : Int.log 2 y = 49 := by
  have hy : 0 < y := lt_of_lt_of_le (by norm_num) h1
  apply le_antisymm
  · have := (Int.lt_zpow_iff_log_lt (b := 2) (x := 50) (by norm_num) hy).1 (by exact_mod_cast h2)
    omega
  · exact (Int.zpow_le_iff_le_log (b := 2) (x := 49) (by norm_num) hy).1 (by exact_mod_cast h1)

theorem bits_between {y : ℝ} (h1 : 2 ^ 49 ≤ y) (h2 : y < 2 ^ 50) : bits y = 1071 * 2 ^ 52 + ⌊8 * y⌋ := by
  unfold bits
  simp only [log_between h1 h2]
  have : y / (2 : ℝ) ^ (max (49 : ℤ) (-1022) - 52) = 8 * y := by
    rw [show max (49 : ℤ) (-1022) - 52 = -3 by norm_num]
    rw [zpow_neg, show ((2 : ℝ) ^ (3 : ℤ)) = 8 by norm_cast]
    field_simp
  rw [this]
  norm_num

/-- **C142 (disagreement).**  The test for an integer compares with a tolerance of four units in the last place. From `2⁴⁹` on
that is half a unit, so halfway between two poles the expression answers minus infinity, where the digamma function is
above 33. -/
theorem digamma_minus_infinity (n : ℕ) (h1 : 2 ^ 49 ≤ n) (h2 : n + 1 < 2 ^ 50) :
    digamma (.num (-(n + 1 / 2))) = .inf false ∧ 33 < deriv (fun t => log (Gamma t)) (-(n + 1 / 2)) := by
  have g1 : (2 : ℝ) ^ 49 ≤ n := by exact_mod_cast h1
  have g2 : (n : ℝ) + 1 < 2 ^ 50 := by exact_mod_cast h2
  have hn : (0 : ℝ) < n := lt_of_lt_of_le (by norm_num) g1
  have hf : ⌊(-(n + 1 / 2) : ℝ)⌋ = -(n + 1) := by
    rw [Int.floor_eq_iff]
    push_cast
    constructor <;> linarith
  constructor
  · simp only [digamma]
    rw [if_pos]
    refine ⟨by linarith, Or.inr ⟨by linarith, ?_⟩⟩
    rw [hf]
    push_cast
    rw [neg_neg, neg_neg, bits_between (by linarith) g2, bits_between (by linarith) (by linarith)]
    have e1 : ⌊(8 * (n + 1) : ℝ)⌋ = 8 * n + 8 := by
      rw [Int.floor_eq_iff]
      push_cast
      constructor <;> linarith
    have e2 : ⌊(8 * (n + 1 / 2) : ℝ)⌋ = 8 * n + 4 := by
      rw [Int.floor_eq_iff]
      push_cast
      constructor <;> linarith
    rw [e1, e2]
    rw [show (1071 * 2 ^ 52 + (8 * (n : ℤ) + 8) - (1071 * 2 ^ 52 + (8 * n + 4))) = 4 by ring]
    norm_num
  · have hint : ∀ z : ℤ, (-(n + 1 / 2) : ℝ) ≠ z := by
      intro z h
      have : ((-(2 * n + 1) : ℤ) : ℝ) = ((2 * z : ℤ) : ℝ) := by push_cast; linarith
      have := Int.cast_injective this
      omega
    have hr := psi_reflect hint
    have hc : cos (-π * (-(n + 1 / 2))) = 0 := by
      rw [cos_eq_zero_iff]
      exact ⟨n, by push_cast; ring⟩
    rw [tan_eq_sin_div_cos, hc, div_zero, div_zero, add_zero] at hr
    have hl := log_le_psi (x := n + 1 / 2) (by linarith)
    rw [show (n : ℝ) + 1 / 2 + 1 = 1 - -(n + 1 / 2) by ring, ← hr] at hl
    have h33 : 33 < log ((n : ℝ) + 1 / 2) := by
      have a1 : log ((2 : ℝ) ^ 49) ≤ log ((n : ℝ) + 1 / 2) := log_le_log (by norm_num) (by linarith)
      rw [log_pow] at a1
      have a2 := LnGamma.log_two.1
      push_cast at a1 a2
      norm_num at a2
      linarith
    exact lt_of_lt_of_le h33 hl

example : digamma (.num (-((2 ^ 49 : ℕ) + 1 / 2))) = .inf false := (digamma_minus_infinity (2 ^ 49) (by norm_num) (by norm_num)).1

/-! ### The nearest neighbor entropy -/

namespace Spec

/-- Euclidean distance of two rows. -/
noncomputable def euclid (a b : List ℝ) : ℝ := √((List.zipWith (fun x y => (x - y) ^ 2) a b).sum)

/-- Largest coordinate difference of two rows. -/
noncomputable def chebyshev (a b : List ℝ) : ℝ := (List.zipWith (fun x y => |x - y|) a b).foldr max 0

/-- Distance of row `i` from the `k`-th nearest of the other rows. -/
noncomputable def kthOther (dist : List ℝ → List ℝ → ℝ) (rows : List (List ℝ)) (k i : ℕ) : ℝ :=
  (((rows.eraseIdx i).map fun p => dist p (rows.getD i [])).insertionSort (· ≤ ·)).getD (k - 1) 0

/-- The Kozachenko-Leonenko estimate: `vol` is the volume of the ball of diameter one. -/
noncomputable def kozachenkoLeonenko (dist : List ℝ → List ℝ → ℝ) (vol : ℝ) (dim : ℕ) (rows : List (List ℝ)) (k : ℕ) : ℝ :=
  deriv (fun t => log (Gamma t)) rows.length - deriv (fun t => log (Gamma t)) k + log vol +
    dim / rows.length * ∑ i ∈ Finset.range rows.length, log (2 * kthOther dist rows k i)

/-- The two metrics with the volume of their balls of diameter one. -/
inductive Metric (dim : ℕ) : String → (List ℝ → List ℝ → ℝ) → ℝ → Prop
  | l2 : Metric dim "l2" euclid
      (MeasureTheory.volume (Metric.ball (0 : EuclideanSpace ℝ (Fin dim)) (1 / 2))).toReal
  | inf : Metric dim "inf" chebyshev (MeasureTheory.volume (Metric.ball (0 : Fin dim → ℝ) (1 / 2))).toReal

end Spec

theorem foldl_sq (a b : List ℝ) (acc : ℝ) :
    (a.zip b).foldl (fun acc p => KDT.accSq acc (p.1 - p.2)) acc = acc + (List.zipWith (fun x y => (x - y) ^ 2) a b).sum := by
  induction a generalizing b acc with
  | nil => simp
  | cons x a ih =>
    cases b with
    | nil => simp
    | cons y b =>
      rw [List.zip_cons_cons, List.foldl_cons, ih, List.zipWith_cons_cons, List.sum_cons]
      unfold KDT.accSq
      ring

theorem dist_l2 (a b : List ℝ) : (KDT.Dist.l2 : KDT.Dist ℝ).dist a b = Spec.euclid a b := by
  unfold KDT.Dist.dist KDT.distFold Spec.euclid
  simp only [foldl_sq, zero_add]
  rfl

theorem foldl_inf (a b : List ℝ) (acc : ℝ) (hacc : 0 ≤ acc) :
    (a.zip b).foldl (fun acc p => KDT.accInf acc (p.1 - p.2)) acc =
      max acc ((List.zipWith (fun x y => |x - y|) a b).foldr max 0) := by
  induction a generalizing b acc with
  | nil => simp [hacc]
  | cons x a ih =>
    cases b with
    | nil => simp [hacc]
    | cons y b =>
      rw [List.zip_cons_cons, List.foldl_cons, ih _ (KDT.accInf acc (x - y)) (le_trans hacc (le_max_left _ _)), List.zipWith_cons_cons,
        List.foldr_cons]
      unfold KDT.accInf
      exact max_assoc _ _ _

theorem dist_linf (a b : List ℝ) : (KDT.Dist.linf : KDT.Dist ℝ).dist a b = Spec.chebyshev a b := by
  unfold KDT.Dist.dist KDT.distFold Spec.chebyshev
  simp only [foldl_inf a b 0 le_rfl]
  apply max_eq_right
  induction List.zipWith (fun x y => |x - y|) a b with
  | nil => simp
  | cons c l ih => rw [List.foldr_cons]; exact le_trans ih (le_max_right _ _)

theorem ball_l2 {dim : ℕ} (hdim : 0 < dim) :
    (MeasureTheory.volume (Metric.ball (0 : EuclideanSpace ℝ (Fin dim)) (1 / 2))).toReal =
      π ^ ((dim : ℝ) / 2) / (2 : ℝ) ^ (dim : ℝ) / Gamma (1 + (dim : ℝ) / 2) := by
  have : Nonempty (Fin dim) := ⟨⟨0, hdim⟩⟩
  have hG : 0 < Gamma ((dim : ℝ) / 2 + 1) := Gamma_pos_of_pos (by positivity)
  rw [EuclideanSpace.volume_ball, ENNReal.toReal_mul, ENNReal.toReal_pow, ENNReal.toReal_ofReal (by norm_num),
    ENNReal.toReal_ofReal (by rw [Fintype.card_fin]; positivity), Fintype.card_fin, rpow_natCast, add_comm 1 ((dim : ℝ) / 2)]
  have : √π ^ dim = π ^ ((dim : ℝ) / 2) := by
    rw [sqrt_eq_rpow, ← rpow_natCast, ← rpow_mul pi_pos.le]
    congr 1
    ring
  rw [this, one_div, inv_pow]
  field_simp

theorem ball_inf (dim : ℕ) : (MeasureTheory.volume (Metric.ball (0 : Fin dim → ℝ) (1 / 2))).toReal = 1 := by
  rw [Real.volume_pi_ball _ (by norm_num)]
  norm_num

theorem foldr_max_zero (q : List ℝ) : (q.map fun _ => (0 : ℝ)).foldr max 0 = 0 := by
  induction q with
  | nil => rfl
  | cons x q ih => rw [List.map_cons, List.foldr_cons, ih, max_self]

theorem foldl_log (ds : List ℝ) (acc : ℝ) :
    ds.foldl (fun acc r => acc + log (2 * r)) acc = acc + (ds.map fun r => log (2 * r)).sum := by
  induction ds generalizing acc with
  | nil => simp
  | cons a ds ih => rw [List.foldl_cons, ih, List.map_cons, List.sum_cons]; ring

/-- **C142 (nearest neighbor entropy).**  `query_knn_entropy` is the Kozachenko-Leonenko estimate up to `6e-15`, for both
metrics, any number of columns and every way the tree sorts ties, as long as no row has `k` exact copies; it is minus
infinity if one has. -/
theorem knn_entropy_value (us : USort) {metric : String} {dist : List ℝ → List ℝ → ℝ} {vol : ℝ} {dim : ℕ}
    (hm : Spec.Metric dim metric dist vol) (hdim : 0 < dim) (rows : List (List ℝ))
    (hrows : ∀ r ∈ rows, r.length = dim) (k : ℕ) (hk : 0 < k) (hkn : k < rows.length)
    (hfin : ∀ p ∈ rows, ∀ q ∈ rows, dist p q < 2 ^ 1024) :
    ((∀ i < rows.length, Spec.kthOther dist rows k i ≠ 0) → ∃ h, knnEntropy us metric dim rows k = some (.num h) ∧
      |h - Spec.kozachenkoLeonenko dist vol dim rows k| ≤ 6 / 10 ^ 15) ∧
    ((∃ i < rows.length, Spec.kthOther dist rows k i = 0) → knnEntropy us metric dim rows k = some (.inf false)) := by
  obtain ⟨d, cd, hd, hmet, hdist, hvol, hname⟩ : ∃ (d : KDT.Dist ℝ) (cd : ℝ), d.prunable ∧
      metricOf metric dim = some (d, cd) ∧ (∀ a b, d.dist a b = dist a b) ∧ cd = vol ∧
      ¬ (metric ≠ "l2" ∧ metric ≠ "inf") := by
    cases hm with
    | l2 => exact ⟨.l2, _, by simp [KDT.Dist.prunable], by simp only [metricOf]; rfl, dist_l2, (ball_l2 hdim).symm, by simp⟩
    | inf => exact ⟨.linf, _, by simp [KDT.Dist.prunable], by
        unfold metricOf; rw [if_neg (by decide), if_pos rfl], dist_linf, (ball_inf dim).symm, by simp⟩
  have hself : ∀ q ∈ rows, d.dist q q = 0 := by
    intro q _
    rw [hdist]
    cases hm with
    | l2 =>
      unfold Spec.euclid
      rw [List.zipWith_self]
      simp
    | inf =>
      unfold Spec.chebyshev
      rw [List.zipWith_self]
      simp only [sub_self, abs_zero]
      exact foldr_max_zero q
  obtain ⟨ds, h1, h2, h3⟩ := Entropy.knn_entropy_distances us hd dim hdim rows hrows k hk hkn hself (by
    intro p hp q hq
    rw [hdist]
    exact hfin p hp q hq)
  have hds : ds = (List.range rows.length).map (Spec.kthOther dist rows k) := by
    apply List.ext_getElem
    · simp [h2]
    · intro i hi1 hi2
      have hi : i < rows.length := by omega
      have := h3 i rows[i] (List.getElem?_eq_getElem hi)
      rw [List.getElem?_eq_getElem hi1] at this
      rw [List.getElem_map, List.getElem_range]
      unfold Spec.kthOther
      rw [List.getD_eq_getElem?_getD, List.getD_eq_getElem?_getD, List.getElem?_eq_getElem hi, Option.getD_some]
      simp only [hdist] at this
      rw [← this, Option.getD_some]
  have hval : knnEntropy us metric dim rows k = some (
      match minus (digamma (.num rows.length)) (digamma (.num k)), logSum ds with
        | .num g1, .num logd => .num (g1 + Real.log cd + logd * dim / rows.length)
        | .num _, .inf b => .inf b
        | _, _ => .nan) := by
    unfold knnEntropy
    rw [if_neg (by omega), if_neg hname, if_neg (by omega), hmet]
    simp only [h1, Option.map_some]
    rfl
  have hkr : (1 : ℝ) ≤ k := by exact_mod_cast hk
  have hnr : (1 : ℝ) ≤ rows.length := by exact_mod_cast (by omega : 1 ≤ rows.length)
  obtain ⟨a, a1, _, a2⟩ := digamma_positive (rows.length : ℝ) (by linarith)
  obtain ⟨b, b1, _, b2⟩ := digamma_positive (k : ℝ) (by linarith)
  have a3 := abs_le.1 (a2 (by norm_num; linarith))
  have b3 := abs_le.1 (b2 (by norm_num; linarith))
  rw [hval, a1, b1]
  constructor
  · intro hne
    have h0 : 0 ∉ ds := by
      rw [hds]
      intro h
      obtain ⟨i, hi, hi0⟩ := List.mem_map.1 h
      exact hne i (List.mem_range.1 hi) hi0
    unfold logSum
    rw [if_neg h0]
    refine ⟨_, rfl, ?_⟩
    have hs : ds.foldl (fun acc r => acc + log (2 * r)) 0 =
        ∑ i ∈ Finset.range rows.length, log (2 * Spec.kthOther dist rows k i) := by
      rw [foldl_log, zero_add, hds, List.map_map, Finset.sum_range, ← List.sum_ofFn]
      congr 1
      apply List.ext_getElem
      · simp
      · intro i hi1 hi2
        simp
    unfold Spec.kozachenkoLeonenko
    rw [hs, hvol, show ∀ S : ℝ, S * dim / rows.length = dim / rows.length * S from fun S => by ring, abs_le]
    constructor <;> linarith [a3.1, a3.2, b3.1, b3.2]
  · rintro ⟨i, hi, hi0⟩
    have h0 : 0 ∈ ds := by
      rw [hds]
      exact List.mem_map.2 ⟨i, List.mem_range.2 hi, hi0⟩
    unfold logSum
    rw [if_pos h0]
    rfl

/-- Three points on a line, first neighbors: the distances are 1, 1 and 3. -/
example (us : USort) : ∃ h, knnEntropy us "inf" 1 [[0], [1], [4]] 1 = some (.num h) ∧
    |h - Spec.kozachenkoLeonenko Spec.chebyshev
      (MeasureTheory.volume (Metric.ball (0 : Fin 1 → ℝ) (1 / 2))).toReal 1 [[0], [1], [4]] 1| ≤ 6 / 10 ^ 15 := by
  refine (knn_entropy_value us .inf (by norm_num) [[0], [1], [4]] (by simp) 1 (by norm_num) (by simp) ?_).1 ?_
  · have big : (4 : ℝ) < 2 ^ 1024 := lt_of_lt_of_le (by norm_num : (4 : ℝ) < 2 ^ 3) (pow_le_pow_right₀ (by norm_num) (by norm_num))
    intro p hp q hq
    simp only [List.mem_cons, List.not_mem_nil, or_false] at hp hq
    have : Spec.chebyshev p q ≤ 4 := by
      rcases hp with rfl | rfl | rfl <;> rcases hq with rfl | rfl | rfl <;>
        norm_num [Spec.chebyshev]
    exact lt_of_le_of_lt this big
  · intro i hi
    have : i = 0 ∨ i = 1 ∨ i = 2 := by simp at hi; omega
    rcases this with rfl | rfl | rfl <;>
      norm_num [Spec.kthOther, Spec.chebyshev, List.insertionSort, List.orderedInsert]

/-- **C142 (few rows).**  With at most `k` rows the entropy is NaN, and `k = 0` or another metric is refused. -/
theorem knn_entropy_refused (us : USort) (metric : String) (dim : ℕ) (rows : List (List ℝ)) (k : ℕ) :
    (k = 0 → knnEntropy us metric dim rows k = none) ∧
    (metric ≠ "l2" → metric ≠ "inf" → knnEntropy us metric dim rows k = none) ∧
    (0 < k → metric = "l2" ∨ metric = "inf" → rows.length ≤ k → knnEntropy us metric dim rows k = some .nan) := by
  unfold knnEntropy
  refine ⟨fun h => by rw [if_pos h], fun h1 h2 => ?_, fun h1 h2 h3 => ?_⟩
  · split
    · rfl
    · rw [if_pos ⟨h1, h2⟩]
  · rw [if_neg (by omega), if_neg (by rcases h2 with h | h <;> simp [h]), if_pos h3]

example (us : USort) : knnEntropy us "l1" 1 [[0], [1], [4]] 1 = none :=
  (knn_entropy_refused us "l1" 1 _ 1).2.1 (by decide) (by decide)

end Verif.Digamma
