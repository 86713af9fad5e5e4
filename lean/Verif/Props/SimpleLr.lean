import Verif.Model.SimpleLr
import Mathlib.Algebra.Order.BigOperators.Group.List
import Mathlib.Algebra.BigOperators.Ring.List
import Mathlib.Data.Rat.Defs
import Mathlib.Tactic.Ring
import Mathlib.Tactic.FieldSimp
import Mathlib.Tactic.Linarith
import Mathlib.Tactic.Positivity
import Mathlib.Tactic.FinCases

/-!
# C115: simple linear regression
-/

namespace Verif.SimpleLr
open Verif.Pl

namespace Spec

variable {K : Type} [Field K]

/-- One observation: predictor, target, weight. -/
structure Obs (K : Type) where
  x : K
  y : K
  w : K

/-- Weighted squared error of the line with slope `b` and intercept `a`. -/
def loss (data : List (Obs K)) (b a : K) : K := (data.map fun o => o.w * (o.y - (b * o.x + a)) ^ 2).sum

/-- The observations that are present. -/
def present (rows : List (Option (Obs K))) : List (Obs K) := rows.filterMap id

/-- The columns of a frame in which a row is either complete or null throughout. -/
def colX (rows : List (Option (Obs K))) : Col K := rows.map (Option.map Obs.x)
def colY (rows : List (Option (Obs K))) : Col K := rows.map (Option.map Obs.y)
def colW (rows : List (Option (Obs K))) : Col K := rows.map (Option.map Obs.w)

end Spec

open Spec

variable {K : Type}

/-! ## Columns of a frame -/

theorem vals_col {A B : Type} (rows : List (Option A)) (g : A → B) :
    vals (rows.map (Option.map g)) = (rows.filterMap id).map g := by
  unfold vals
  induction rows with
  | nil => rfl
  | cons a l ih => cases a <;> simpa using ih

theorem map1_col {A B C : Type} (rows : List (Option A)) (g : A → B) (f : B → C) :
    map1 f (rows.map (Option.map g)) = rows.map (Option.map fun a => f (g a)) := by
  unfold map1
  rw [List.map_map]
  refine List.map_congr_left fun a _ => ?_
  cases a <;> rfl

theorem map2_col {A B C D : Type} (rows : List (Option A)) (g : A → B) (h : A → C) (f : B → C → D) :
    map2 f (rows.map (Option.map g)) (rows.map (Option.map h)) = rows.map (Option.map fun a => f (g a) (h a)) := by
  unfold map2
  induction rows with
  | nil => rfl
  | cons a l ih =>
    simp only [List.map_cons, List.zipWith_cons_cons, ih]
    cases a <;> rfl

section
variable [Field K]

theorem sum_col {A : Type} (rows : List (Option A)) (g : A → K) :
    Pl.sum (rows.map (Option.map g)) = ((rows.filterMap id).map g).sum := by
  unfold Pl.sum
  rw [vals_col]

theorem dot_col {A : Type} (rows : List (Option A)) (g h : A → K) :
    dot (rows.map (Option.map g)) (rows.map (Option.map h)) = ((rows.filterMap id).map fun a => g a * h a).sum := by
  unfold dot
  rw [map2_col, sum_col]

/-! ## Sums -/

/-- Sum of a quantity over the data. -/
def tot (data : List (Obs K)) (f : Obs K → K) : K := (data.map f).sum

theorem tot_add (data : List (Obs K)) (f g : Obs K → K) : tot data (fun o => f o + g o) = tot data f + tot data g := by
  unfold tot
  exact List.sum_map_add

theorem tot_mul (data : List (Obs K)) (c : K) (f : Obs K → K) : tot data (fun o => c * f o) = c * tot data f := by
  unfold tot
  exact List.sum_map_mul_left ..

/-- Six moments determine every quadratic sum. -/
theorem tot_quad (data : List (Obs K)) (c₁ c₂ c₃ c₄ c₅ c₆ : K) :
    tot data (fun o => c₁ * (o.w * o.y ^ 2) + c₂ * (o.w * (o.x * o.y)) + c₃ * (o.w * o.y) + c₄ * (o.w * o.x ^ 2) +
      c₅ * (o.w * o.x) + c₆ * o.w) =
    c₁ * tot data (fun o => o.w * o.y ^ 2) + c₂ * tot data (fun o => o.w * (o.x * o.y)) + c₃ * tot data (fun o => o.w * o.y) +
      c₄ * tot data (fun o => o.w * o.x ^ 2) + c₅ * tot data (fun o => o.w * o.x) + c₆ * tot data (fun o => o.w) := by
  simp only [tot_add, tot_mul]

theorem loss_moments (data : List (Obs K)) (b a : K) :
    loss data b a = tot data (fun o => o.w * o.y ^ 2) - 2 * b * tot data (fun o => o.w * (o.x * o.y)) -
      2 * a * tot data (fun o => o.w * o.y) + b ^ 2 * tot data (fun o => o.w * o.x ^ 2) +
      2 * a * b * tot data (fun o => o.w * o.x) + a ^ 2 * tot data (fun o => o.w) := by
  have h := tot_quad data 1 (-2 * b) (-2 * a) (b ^ 2) (2 * a * b) (a ^ 2)
  have e : loss data b a = tot data (fun o => 1 * (o.w * o.y ^ 2) + -2 * b * (o.w * (o.x * o.y)) + -2 * a * (o.w * o.y) +
      b ^ 2 * (o.w * o.x ^ 2) + 2 * a * b * (o.w * o.x) + a ^ 2 * o.w) := by
    unfold loss tot
    congr 1
    exact List.map_congr_left fun o _ => by ring
  rw [e, h]
  ring

theorem spread_moments (data : List (Obs K)) (p q : K) :
    tot data (fun o => o.w * ((o.x - p) * (o.y - q))) = tot data (fun o => o.w * (o.x * o.y)) - p * tot data (fun o => o.w * o.y) -
      q * tot data (fun o => o.w * o.x) + p * q * tot data (fun o => o.w) := by
  have h := tot_quad data 0 1 (-p) 0 (-q) (p * q)
  have e : tot data (fun o => o.w * ((o.x - p) * (o.y - q))) = tot data (fun o => 0 * (o.w * o.y ^ 2) + 1 * (o.w * (o.x * o.y)) +
      -p * (o.w * o.y) + 0 * (o.w * o.x ^ 2) + -q * (o.w * o.x) + p * q * o.w) := by
    unfold tot
    congr 1
    exact List.map_congr_left fun o _ => by ring
  rw [e, h]
  ring

theorem spread_x (data : List (Obs K)) (p : K) :
    tot data (fun o => o.w * (o.x - p) ^ 2) = tot data (fun o => o.w * o.x ^ 2) - 2 * p * tot data (fun o => o.w * o.x) +
      p ^ 2 * tot data (fun o => o.w) := by
  have h := tot_quad data 0 0 0 1 (-2 * p) (p ^ 2)
  have e : tot data (fun o => o.w * (o.x - p) ^ 2) = tot data (fun o => 0 * (o.w * o.y ^ 2) + 0 * (o.w * (o.x * o.y)) +
      0 * (o.w * o.y) + 1 * (o.w * o.x ^ 2) + -2 * p * (o.w * o.x) + p ^ 2 * o.w) := by
    unfold tot
    congr 1
    exact List.map_congr_left fun o _ => by ring
  rw [e, h]
  ring

end

section
variable [Field K] [LinearOrder K] [IsStrictOrderedRing K]

theorem tot_nonneg {data : List (Obs K)} {f : Obs K → K} (h : ∀ o ∈ data, 0 ≤ f o) : 0 ≤ tot data f := by
  unfold tot
  refine List.sum_nonneg fun v hv => ?_
  obtain ⟨o, ho, rfl⟩ := List.mem_map.mp hv
  exact h o ho

theorem tot_zero {data : List (Obs K)} {f : Obs K → K} (h : ∀ o ∈ data, 0 ≤ f o) (h0 : tot data f = 0) :
    ∀ o ∈ data, f o = 0 := by
  induction data with
  | nil => simp
  | cons a l ih =>
    have h1 : 0 ≤ f a := h a (by simp)
    have h2 : 0 ≤ tot l f := tot_nonneg fun o ho => h o (by simp [ho])
    have h3 : f a + tot l f = 0 := by simpa [tot] using h0
    intro o ho
    rcases List.mem_cons.mp ho with rfl | ho
    · linarith
    · exact ih (fun o ho => h o (by simp [ho])) (by linarith) o ho

/-- What the code does on the columns of a frame, in terms of moments. -/
theorem fit_core (data : List (Obs K)) (hw : ∀ o ∈ data, 0 ≤ o.w) (b a : K) :
    (if tot data (fun o => o.w) = 0 then none
      else quot (tot data fun o => o.w * ((o.x - tot data (fun o => o.w * o.x) / tot data (fun o => o.w)) *
          (o.y - tot data (fun o => o.w * o.y) / tot data (fun o => o.w))))
        (tot data fun o => o.w * (o.x - tot data (fun o => o.w * o.x) / tot data (fun o => o.w)) ^ 2)) = some b →
    a = tot data (fun o => o.w * o.y) / tot data (fun o => o.w) -
      b * (tot data (fun o => o.w * o.x) / tot data (fun o => o.w)) →
    ∀ b' a', (b', a') ≠ (b, a) → loss data b a < loss data b' a' := by
  intro hb ha b' a' hne
  split at hb
  · simp at hb
  · next hW =>
    unfold quot at hb
    split at hb
    · simp at hb
    · next hD =>
      have hWpos : 0 < tot data fun o => o.w := lt_of_le_of_ne (tot_nonneg hw) (Ne.symm hW)
      have hDpos := lt_of_le_of_ne (tot_nonneg fun o ho => mul_nonneg (hw o ho) (sq_nonneg _)) (Ne.symm hD)
      rw [Option.some.injEq] at hb
      rw [spread_moments, spread_x] at hb
      rw [spread_x] at hDpos
      rw [loss_moments, loss_moments]
      generalize tot data (fun o => o.w) = W at *
      generalize tot data (fun o => o.w * o.x) = X at *
      generalize tot data (fun o => o.w * o.y) = Y at *
      generalize tot data (fun o => o.w * (o.x * o.y)) = XY at *
      generalize tot data (fun o => o.w * o.x ^ 2) = XX at *
      generalize tot data (fun o => o.w * o.y ^ 2) = YY at *
      have hD2 : XX - 2 * (X / W) * X + (X / W) ^ 2 * W = XX - X ^ 2 / W := by field_simp; ring
      have hN2 : XY - X / W * Y - Y / W * X + X / W * (Y / W) * W = XY - X * Y / W := by field_simp; ring
      rw [hD2] at hDpos hb
      rw [hN2] at hb
      set D := XX - X ^ 2 / W with hDdef
      have hbD : b * D = XY - X * Y / W := by rw [← hb]; exact div_mul_cancel₀ _ hDpos.ne'
      have hXX : XX = D + X ^ 2 / W := by rw [hDdef]; ring
      have hXY : XY = b * D + X * Y / W := by rw [hbD]; ring
      have key : YY - 2 * b' * XY - 2 * a' * Y + b' ^ 2 * XX + 2 * a' * b' * X + a' ^ 2 * W =
          YY - 2 * b * XY - 2 * a * Y + b ^ 2 * XX + 2 * a * b * X + a ^ 2 * W +
          (D * (b' - b) ^ 2 + W * ((a' - a) + (b' - b) * (X / W)) ^ 2) := by
        rw [hXX, hXY, ha]
        field_simp
        ring
      rw [key]
      have h1 : 0 ≤ D * (b' - b) ^ 2 := mul_nonneg hDpos.le (sq_nonneg _)
      have h2 : 0 ≤ W * ((a' - a) + (b' - b) * (X / W)) ^ 2 := mul_nonneg hWpos.le (sq_nonneg _)
      by_cases hbb : b' = b
      · have haa : a' - a ≠ 0 := by
          intro h
          exact hne (by rw [hbb, sub_eq_zero.mp h])
        have : 0 < W * ((a' - a) + (b' - b) * (X / W)) ^ 2 := by
          rw [hbb, sub_self, zero_mul, add_zero]
          exact mul_pos hWpos (pow_pos_of_ne haa)
        linarith
      · have : 0 < D * (b' - b) ^ 2 := mul_pos hDpos (pow_pos_of_ne (sub_ne_zero.mpr hbb))
        linarith
where
  pow_pos_of_ne {v : K} (h : v ≠ 0) : 0 < v ^ 2 := by positivity

/-- Without weights every row has weight one. -/
def wcol (weighted : Bool) (rows : List (Option (Obs K))) : Option (Col K) := if weighted then some (colW rows) else none

/-- The weights of the loss. -/
def Weights (weighted : Bool) (rows : List (Option (Obs K))) : Prop :=
  if weighted then ∀ o ∈ present rows, 0 ≤ o.w else ∀ o ∈ present rows, o.w = 1

theorem weights_nonneg {weighted : Bool} {rows : List (Option (Obs K))} (h : Weights weighted rows) :
    ∀ o ∈ present rows, 0 ≤ o.w := by
  intro o ho
  cases weighted
  · rw [show o.w = 1 from h o ho]; exact zero_le_one
  · exact h o ho

omit [LinearOrder K] [IsStrictOrderedRing K] in
theorem tot_one {data : List (Obs K)} (h : ∀ o ∈ data, o.w = 1) (f : Obs K → K) :
    tot data (fun o => o.w * f o) = (data.map f).sum := by
  unfold tot
  congr 1
  exact List.map_congr_left fun o ho => by rw [h o ho, one_mul]

omit [LinearOrder K] [IsStrictOrderedRing K] in
theorem tot_w {data : List (Obs K)} (h : ∀ o ∈ data, o.w = 1) : tot data (fun o => o.w) = (data.length : K) := by
  induction data with
  | nil => simp [tot]
  | cons a l ih =>
    have := ih fun o ho => h o (by simp [ho])
    simp only [tot, List.map_cons, List.sum_cons, List.length_cons] at this ⊢
    rw [this, h a (by simp)]
    push_cast
    ring

/-- The fit with a constant in terms of moments. -/
theorem fitBias_eq {weighted : Bool} {rows : List (Option (Obs K))} (h : Weights weighted rows) :
    fitBias (wcol weighted rows) (colX rows) (colY rows) =
    (if tot (present rows) (fun o => o.w) = 0 then none
      else quot (tot (present rows) fun o => o.w *
          ((o.x - tot (present rows) (fun o => o.w * o.x) / tot (present rows) (fun o => o.w)) *
          (o.y - tot (present rows) (fun o => o.w * o.y) / tot (present rows) (fun o => o.w))))
        (tot (present rows) fun o => o.w *
          (o.x - tot (present rows) (fun o => o.w * o.x) / tot (present rows) (fun o => o.w)) ^ 2)).map
      fun b => (b, tot (present rows) (fun o => o.w * o.y) / tot (present rows) (fun o => o.w) -
        b * (tot (present rows) (fun o => o.w * o.x) / tot (present rows) (fun o => o.w))) := by
  cases weighted
  · have h1 : ∀ o ∈ present rows, o.w = 1 := h
    simp only [tot_one h1, tot_w h1]
    have hm : ∀ g : Obs K → K, Pl.mean (rows.map (Option.map g)) =
        if ((present rows).length : K) = 0 then none else some (((present rows).map g).sum / ((present rows).length : K)) := by
      intro g
      unfold Pl.mean count
      rw [vals_col, sum_col, List.length_map]
      simp only [Nat.cast_eq_zero]
      rfl
    unfold fitBias means wcol colX colY
    simp only [hm, Bool.false_eq_true, if_false]
    by_cases h0 : ((present rows).length : K) = 0
    · simp [h0]
    · simp only [h0, if_false, Option.bind_some, Option.map_some, slopeBias, map1_col, dot_col]
      simp only [sq]
      rfl
  · unfold fitBias means wcol colX colY colW
    simp only [if_true, dot_col, sum_col, quot, slopeBiasW, map1_col, map2_col]
    by_cases h0 : tot (present rows) (fun o => o.w) = 0
    · have h0' : ((List.filterMap id rows).map Obs.w).sum = 0 := h0
      simp only [h0, h0', if_true, Option.bind_none, Option.map_none]
    · have h0' : ((List.filterMap id rows).map Obs.w).sum ≠ 0 := h0
      simp only [h0, h0', if_false, Option.bind_some, Option.map_some]
      rfl

/-- **C115a.** With a constant: on data in which a row is complete or null throughout, the coefficients are the unique best
line of the complete rows. -/
theorem simple_fit_bias_optimal (weighted : Bool) (rows : List (Option (Obs K))) (h : Weights weighted rows) (b a : K)
    (hc : coeffs true (wcol weighted rows) (colX rows) (colY rows) = some [b, a]) :
    ∀ b' a', (b', a') ≠ (b, a) → loss (present rows) b a < loss (present rows) b' a' := by
  unfold coeffs at hc
  rw [if_pos rfl, fitBias_eq h] at hc
  rw [Option.map_map, Option.map_eq_some_iff] at hc
  obtain ⟨c, hc, he⟩ := hc
  simp only [Function.comp_apply, List.cons.injEq, and_true] at he
  obtain ⟨rfl, he⟩ := he
  exact fit_core _ (weights_nonneg h) c a hc he.symm

/-- **C115b.** There is a line exactly when two rows of positive weight differ in `x`. -/
theorem simple_fit_bias_isSome (weighted : Bool) (rows : List (Option (Obs K))) (h : Weights weighted rows) :
    (coeffs true (wcol weighted rows) (colX rows) (colY rows)).isSome = true ↔
      ∃ o ∈ present rows, ∃ o' ∈ present rows, o.w ≠ 0 ∧ o'.w ≠ 0 ∧ o.x ≠ o'.x := by
  have hw := weights_nonneg h
  unfold coeffs
  rw [if_pos rfl, fitBias_eq h]
  simp only [Option.isSome_map]
  set data := present rows
  set W := tot data fun o => o.w
  set m := tot data (fun o => o.w * o.x) / W with hm
  constructor
  · intro hs
    by_contra hno
    push Not at hno
    by_cases hW : W = 0
    · simp [hW] at hs
    · rw [if_neg hW] at hs
      unfold quot at hs
      obtain ⟨o, ho, hwo⟩ : ∃ o ∈ data, o.w ≠ 0 := by
        by_contra hn
        push Not at hn
        refine hW ?_
        show tot data (fun o => o.w) = 0
        unfold tot
        exact List.sum_eq_zero (by simpa using hn)
      have hx : ∀ o' ∈ data, o'.w * o'.x = o.x * o'.w := by
        intro o' ho'
        by_cases hz : o'.w = 0
        · simp [hz]
        · rw [hno o ho o' ho' hwo hz]; ring
      have hme : m = o.x := by
        have e : tot data (fun o' => o'.w * o'.x) = o.x * W := by
          rw [← tot_mul]
          unfold tot
          congr 1
          exact List.map_congr_left hx
        rw [hm, e, mul_div_assoc, div_self hW, mul_one]
      have hD : tot data (fun o => o.w * (o.x - m) ^ 2) = 0 := by
        unfold tot
        refine List.sum_eq_zero fun v hv => ?_
        obtain ⟨o', ho', rfl⟩ := List.mem_map.mp hv
        by_cases hz : o'.w = 0
        · simp [hz]
        · rw [hme, hno o ho o' ho' hwo hz]; ring
      rw [if_pos hD] at hs
      simp at hs
  · rintro ⟨o, ho, o', ho', hwo, hwo', hne⟩
    have hW : W ≠ 0 := fun h0 => hwo (tot_zero hw h0 o ho)
    rw [if_neg hW]
    unfold quot
    rw [if_neg]
    · rfl
    · intro hD
      have hz := tot_zero (fun o ho => mul_nonneg (hw o ho) (sq_nonneg _)) hD
      have e1 := (mul_eq_zero.mp (hz o ho)).resolve_left hwo
      have e2 := (mul_eq_zero.mp (hz o' ho')).resolve_left hwo'
      have e1 := pow_eq_zero_iff two_ne_zero |>.mp e1
      have e2 := pow_eq_zero_iff two_ne_zero |>.mp e2
      exact hne (by linarith)

omit [IsStrictOrderedRing K] in
theorem fitPlain_eq {weighted : Bool} {rows : List (Option (Obs K))} (h : Weights weighted rows) :
    fitPlain (wcol weighted rows) (colX rows) (colY rows) =
      quot (tot (present rows) fun o => o.w * (o.x * o.y)) (tot (present rows) fun o => o.w * o.x ^ 2) := by
  cases weighted
  · have h1 : ∀ o ∈ present rows, o.w = 1 := h
    simp only [tot_one h1]
    unfold fitPlain wcol colX colY
    simp only [Bool.false_eq_true, if_false, dot_col, sq]
    rfl
  · unfold fitPlain wcol colX colY colW
    simp only [if_true, dot_col, map1_col, map2_col]
    rfl

/-- **C115c.** Without a constant: the coefficient is the unique best slope through the origin, and exists exactly when some
row of positive weight has a nonzero `x`. -/
theorem simple_fit_plain_optimal (weighted : Bool) (rows : List (Option (Obs K))) (h : Weights weighted rows) :
    (∀ b, coeffs false (wcol weighted rows) (colX rows) (colY rows) = some [b] →
      ∀ b', b' ≠ b → loss (present rows) b 0 < loss (present rows) b' 0) ∧
    ((coeffs false (wcol weighted rows) (colX rows) (colY rows)).isSome = true ↔
      ∃ o ∈ present rows, o.w ≠ 0 ∧ o.x ≠ 0) := by
  have hw := weights_nonneg h
  have hnn : ∀ o ∈ present rows, 0 ≤ o.w * o.x ^ 2 := fun o ho => mul_nonneg (hw o ho) (sq_nonneg _)
  unfold coeffs
  simp only [Bool.false_eq_true, if_false, fitPlain_eq h, Option.isSome_map]
  unfold quot
  constructor
  · intro b hb b' hne
    split at hb
    · simp at hb
    · next hD =>
      have hpos := lt_of_le_of_ne (tot_nonneg hnn) (Ne.symm hD)
      simp only [Option.map_some, Option.some.injEq, List.cons.injEq, and_true] at hb
      rw [loss_moments, loss_moments]
      generalize tot (present rows) (fun o => o.w * (o.x * o.y)) = XY at *
      generalize tot (present rows) (fun o => o.w * o.x ^ 2) = XX at *
      have hXY : XY = b * XX := by rw [← hb]; exact (div_mul_cancel₀ _ hpos.ne').symm
      rw [hXY]
      have : 0 < XX * (b' - b) ^ 2 := mul_pos hpos (by have := sub_ne_zero.mpr hne; positivity)
      nlinarith
  · constructor
    · intro hs
      by_contra hno
      push Not at hno
      rw [if_pos] at hs
      · simp at hs
      · unfold tot
        refine List.sum_eq_zero fun v hv => ?_
        obtain ⟨o, ho, rfl⟩ := List.mem_map.mp hv
        by_cases hz : o.w = 0
        · simp [hz]
        · simp [hno o ho hz]
    · rintro ⟨o, ho, h1, h2⟩
      rw [if_neg]
      · rfl
      · intro h0
        have := tot_zero hnn h0 o ho
        rcases mul_eq_zero.mp this with e | e
        · exact h1 e
        · exact h2 (pow_eq_zero_iff two_ne_zero |>.mp e)

omit [IsStrictOrderedRing K] in
/-- **C115d.** The predictions are those of the coefficients, with a null where `x` is null, and prediction plus residual is
the target. -/
theorem simple_preds (bias : Bool) (w : Option (Col K)) (x y : Col K) (p r : Col K) (hp : preds bias w x y = some (p, r))
    (i : Nat) (u v : K) (hx : x[i]? = some (some u)) (hy : y[i]? = some (some v)) :
    ∃ b a, coeffs bias w x y = some (if bias then [b, a] else [b]) ∧ (bias = false → a = 0) ∧
      p[i]? = some (some (b * u + a)) ∧ r[i]? = some (some (v - (b * u + a))) := by
  unfold preds coeffs at *
  cases bias
  · simp only [Bool.false_eq_true, if_false, Option.map_eq_some_iff, Prod.mk.injEq] at hp ⊢
    obtain ⟨b, hb, rfl, rfl⟩ := hp
    refine ⟨b, 0, ⟨b, hb, rfl⟩, fun _ => rfl, ?_, ?_⟩
    · simp [map1, hx]
    · simp [map2, List.getElem?_zipWith, hx, hy, opt2]
  · simp only [if_true, Option.map_eq_some_iff, Prod.mk.injEq] at hp ⊢
    obtain ⟨c, hb, rfl, rfl⟩ := hp
    refine ⟨c.1, c.2, ⟨c, hb, rfl⟩, by simp, ?_, ?_⟩
    · simp [map1, hx]
    · simp [map2, List.getElem?_zipWith, hx, hy, opt2]

/-- **C115, disagreement.** A row with a null target is not left out: without a constant, each such row with `x = v`
multiplies the slope by `S / (S + v²)`, with `S` the sum of squares of the complete rows. -/
theorem simple_null_target_shrinks (rows : List (Option (Obs K))) (b v : K)
    (hc : coeffs false none (colX rows) (colY rows) = some [b]) :
    ∃ S, 0 < S ∧ S = tot (present rows) (fun o => o.x ^ 2) ∧
      coeffs false none (colX rows ++ [some v]) (colY rows ++ [none]) = some [b * (S / (S + v ^ 2))] := by
  have hx : dot (colX rows) (colX rows) = tot (present rows) (fun o => o.x ^ 2) := by
    unfold colX
    rw [dot_col]
    simp only [sq]
    rfl
  have hlen : (colX rows).length = (colY rows).length := by simp [colX, colY]
  have hdot : ∀ (p q : Col K) (s t : Option K), p.length = q.length →
      dot (p ++ [s]) (q ++ [t]) = dot p q + ((opt2 (· * ·) s t).getD 0) := by
    intro p q s t hl
    unfold dot Pl.sum map2
    rw [List.zipWith_append hl]
    unfold vals
    rw [List.filterMap_append, List.sum_append]
    congr 1
    cases s <;> cases t <;> simp [opt2]
  have hnn : ∀ o ∈ present rows, 0 ≤ o.x ^ 2 := fun o _ => sq_nonneg _
  unfold coeffs fitPlain quot at *
  simp only [Bool.false_eq_true, if_false] at hc ⊢
  rw [hx] at hc
  split at hc
  · simp at hc
  · next hS =>
    have hpos : 0 < tot (present rows) (fun o => o.x ^ 2) := lt_of_le_of_ne (tot_nonneg hnn) (Ne.symm hS)
    simp only [Option.map_some, Option.some.injEq, List.cons.injEq, and_true] at hc
    refine ⟨_, hpos, rfl, ?_⟩
    have hpos2 : 0 < tot (present rows) (fun o => o.x ^ 2) + v ^ 2 := by positivity
    rw [hdot _ _ _ _ hlen, hdot _ _ _ _ rfl, hx]
    have e : ((opt2 (· * ·) (some v) (some v) : Option K)).getD 0 = v ^ 2 := by simp [opt2, sq]
    have e' : ((opt2 (· * ·) (some v) none : Option K)).getD 0 = 0 := rfl
    rw [e, e', if_neg hpos2.ne', ← hc]
    simp only [Option.map_some, Option.some.injEq, List.cons.injEq, and_true, add_zero]
    field_simp

end

/-! ## Examples -/

/-- Three complete rows and a null row. -/
def exRows : List (Option (Obs ℚ)) := [some ⟨0, 1, 1⟩, none, some ⟨1, 2, 1⟩, some ⟨2, 6, 1⟩]

example : Weights false exRows ∧ Weights true exRows ∧ coeffs true none (colX exRows) (colY exRows) = some [5 / 2, 1 / 2] ∧
    coeffs true (some (colW exRows)) (colX exRows) (colY exRows) = some [5 / 2, 1 / 2] ∧
    coeffs false none (colX exRows) (colY exRows) = some [14 / 5] := by
  refine ⟨?_, ?_, by decide +kernel, by decide +kernel, by decide +kernel⟩
  · intro o ho
    fin_cases ho <;> rfl
  · intro o ho
    fin_cases ho <;> exact zero_le_one

example : preds true none [some 0, some 1, none, some (2 : ℚ)] [some 1, some 2, some 9, some 6] ≠ none := by decide +kernel

/-- **C115, disagreement.** Rows on the line `y = x`; a null target in the third row moves the slope from 1 to 5/14 without
a constant and to 1/4 with one; a null `x` moves the intercept. -/
theorem simple_nulls_wrong :
    coeffs false none [some 1, some 2, some (3 : ℚ)] [some 1, some 2, none] = some [5 / 14] ∧
    coeffs true none [some 0, some 1, some (2 : ℚ)] [some 0, some 1, none] = some [1 / 4, 1 / 4] ∧
    coeffs true none [some 0, some 1, none] [some 0, some 1, some (8 : ℚ)] = some [1, 5 / 2] ∧
    coeffs true (some [some 1, some 1, some 1]) [some 0, some 1, some (2 : ℚ)] [some 0, some 1, none] = some [1 / 6, 1 / 6] := by
  decide +kernel

end Verif.SimpleLr
