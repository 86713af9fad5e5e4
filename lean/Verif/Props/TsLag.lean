import Verif.Model.TsFeat
import Mathlib.Tactic.Linarith
import Mathlib.Tactic.NormNum
import Mathlib.Tactic.Ring
import Mathlib.Tactic.FieldSimp
import Mathlib.Tactic.Positivity

/-!
# Lagged products: third-order statistics and autocorrelation
-/

namespace Verif.TsFeat
open Verif.Pl Verif.Confusion

namespace Spec
variable {K : Type} [Field K]

/-- Arithmetic mean of a list. -/
def avg (l : List K) : K := l.sum / (l.length : K)

/-- The list of `f i` for `i = 0, ..., n - 1`. -/
def tab (n : ℕ) (f : ℕ → K) : List K := (List.range n).map f

/-- Entry `i` of a series. -/
def at' (x : List K) (i : ℕ) : K := x.getD i 0

end Spec

open Spec
set_option linter.unusedSectionVars false

section cols
variable {K L M : Type}

/-- Row `i` of a column, null beyond its end. -/
def get (c : Col K) (i : ℕ) : Option K := c.getD i none

theorem get_ge (c : Col K) (i : ℕ) (h : c.length ≤ i) : get c i = none := by
  simp [get, List.getElem?_eq_none h]

theorem col_range (c : Col K) : c = (List.range c.length).map (get c) := by
  apply List.ext_getElem
  · simp
  · intro i h1 h2
    simp [get, List.getElem?_eq_getElem h1]

theorem lead_length (k : ℕ) (c : Col K) : (lead k c).length = c.length := by
  simp [lead]; omega

theorem lag_length (k : ℕ) (c : Col K) : (lag k c).length = c.length := by
  simp [lag]

theorem get_lead (k : ℕ) (c : Col K) (i : ℕ) : get (lead k c) i = get c (i + k) := by
  simp only [get, lead, List.getD_eq_getElem?_getD]
  by_cases h : i < (c.drop k).length
  · rw [List.getElem?_append_left h, List.getElem?_drop, Nat.add_comm]
  · rw [List.getElem?_append_right (by omega)]
    have : c[i + k]? = none := by
      rw [List.getElem?_eq_none]; simp at h; omega
    rw [this, List.getElem?_replicate]
    split <;> rfl

theorem get_lag (k : ℕ) (c : Col K) (i : ℕ) (hi : i < c.length) :
    get (lag k c) i = if i < k then none else get c (i - k) := by
  simp only [get, lag, List.getD_eq_getElem?_getD]
  rw [List.getElem?_take, if_pos hi]
  by_cases h : i < k
  · rw [if_pos h, List.getElem?_append_left (by simpa using h)]
    simp [List.getElem?_replicate, h]
  · rw [if_neg h, List.getElem?_append_right (by simpa using h)]
    simp

theorem map2_length (f : K → L → M) (a : Col K) (b : Col L) (h : b.length = a.length) :
    (map2 f a b).length = a.length := by simp [map2, h]

theorem get_map2 (f : K → L → M) (a : Col K) (b : Col L) (h : b.length = a.length) (i : ℕ) :
    get (map2 f a b) i = opt2 f (get a i) (get b i) := by
  by_cases hi : i < a.length
  · simp [get, map2, List.getElem?_zipWith, List.getElem?_eq_getElem hi,
      List.getElem?_eq_getElem (show i < b.length by omega)]
  · rw [get_ge _ _ (by rw [map2_length f a b h]; omega), get_ge a i (by omega)]
    cases get b i <;> rfl

theorem get_map (f : Option K → Option L) (c : Col K) (i : ℕ) (hf : f none = none) :
    get (c.map f) i = f (get c i) := by
  simp only [get, List.getD_eq_getElem?_getD, List.getElem?_map]
  cases c[i]? <;> simp [hf]

theorem get_reverse (c : Col K) (i : ℕ) (h : i < c.length) : get c.reverse i = get c (c.length - 1 - i) := by
  simp [get, List.getElem?_reverse h]

theorem vals_reverse (c : Col K) : vals c.reverse = (vals c).reverse := by
  simp [vals, List.filterMap_reverse]

theorem vals_append (a b : Col K) : vals (a ++ b) = vals a ++ vals b := by
  simp [vals, List.filterMap_append]

theorem vals_some (x : List K) : vals (x.map some) = x := by
  simp only [vals, List.filterMap_map]
  exact List.filterMap_some

theorem vals_cut (f : ℕ → Option K) (m n : ℕ) (hm : m ≤ n) (h : ∀ i, m ≤ i → i < n → f i = none) :
    vals ((List.range n).map f) = vals ((List.range m).map f) := by
  obtain ⟨k, rfl⟩ := Nat.exists_eq_add_of_le hm
  rw [List.range_add, List.map_append, vals_append]
  have : vals (List.map f (List.map (fun x => m + x) (List.range k))) = [] := by
    rw [List.map_map]
    simp only [vals, List.filterMap_map, List.filterMap_eq_nil_iff, List.mem_range]
    intro a ha
    simp [h (m + a) (by omega) (by omega)]
  rw [this, List.append_nil]

theorem range_reflect (m : ℕ) (G : ℕ → Option K) :
    (List.range m).map (fun i => G (m - 1 - i)) = ((List.range m).map G).reverse := by
  apply List.ext_getElem
  · simp
  · intro i h1 h2
    simp

theorem get_some (x : List K) [Zero K] (i : ℕ) (h : i < x.length) : get (x.map some) i = some (x.getD i 0) := by
  simp [get, List.getElem?_eq_getElem h]

theorem mean_perm [Field K] (a b : Col K) (h : (vals a).Perm (vals b)) : mean a = mean b := by
  unfold mean Pl.count Pl.sum
  rw [h.length_eq, h.sum_eq]

theorem mean_rev [Field K] (a b : Col K) (h : vals a = (vals b).reverse) : mean a = mean b :=
  mean_perm a b (by rw [h]; exact List.reverse_perm _)

/-- The values of a window expression of the reversed column, in reverse order. -/
theorem window3_reverse (c : Col K) (l : ℕ) (T : Option K → Option K → Option K → Option L)
    (h1 : ∀ a b, T a b none = none) (h2 : ∀ b d, T none b d = none) :
    vals ((List.range c.length).map fun i => T (get c.reverse i) (get c.reverse (i + l)) (get c.reverse (i + 2 * l))) =
    (vals ((List.range c.length).map fun i => T (get c (i + 2 * l)) (get c (i + l)) (get c i))).reverse := by
  rw [vals_cut _ (c.length - 2 * l) c.length (by omega), vals_cut _ (c.length - 2 * l) c.length (by omega),
    ← vals_reverse, ← range_reflect]
  · congr 1
    apply List.map_congr_left
    intro i hi
    rw [List.mem_range] at hi
    rw [get_reverse _ _ (by omega), get_reverse _ _ (by omega), get_reverse _ _ (by omega)]
    congr 2 <;> omega
  · intro i h3 _
    rw [get_ge c (i + 2 * l) (by omega), h2]
  · intro i h3 _
    rw [get_ge c.reverse (i + 2 * l) (by simp; omega), h1]

theorem window2_reverse (c : Col K) (l : ℕ) (T : Option K → Option K → Option L)
    (h1 : ∀ a, T a none = none) (h2 : ∀ b, T none b = none) :
    vals ((List.range c.length).map fun i => T (get c.reverse i) (get c.reverse (i + l))) =
    (vals ((List.range c.length).map fun i => T (get c (i + l)) (get c i))).reverse := by
  rw [vals_cut _ (c.length - l) c.length (by omega), vals_cut _ (c.length - l) c.length (by omega),
    ← vals_reverse, ← range_reflect]
  · congr 1
    apply List.map_congr_left
    intro i hi
    rw [List.mem_range] at hi
    rw [get_reverse _ _ (by omega), get_reverse _ _ (by omega)]
    congr 2 <;> omega
  · intro i h3 _
    rw [get_ge c (i + l) (by omega), h2]
  · intro i h3 _
    rw [get_ge c.reverse (i + l) (by simp; omega), h1]

end cols

variable {K : Type} [Field K] [LinearOrder K]

theorem vals_map1' {L : Type} (f : K → L) (c : Col K) : vals (map1 f c) = (vals c).map f := by
  simp only [vals, map1, List.map_filterMap, List.filterMap_map]
  rfl

theorem fdiv_num (a b : K) (h : b ≠ 0) : Val.fdiv (.num a) (.num b) = .num (a / b) := by
  simp [Val.fdiv, h]

/-! ## Time reversal asymmetry -/

/-- One row of the time reversal statistic. -/
def trasTerm (a b d : Option K) : Option K :=
  opt2 (· * ·) (opt2 (· * ·) b (opt2 (· + ·) d a)) (opt2 (· - ·) d a)

theorem tras_eq (c : Col K) (l : ℕ) :
    tras c l = mean ((List.range c.length).map fun i => trasTerm (get c i) (get c (i + l)) (get c (i + 2 * l))) := by
  unfold tras
  have hA : (map2 (· + ·) (lead (2 * l) c) c).length = c.length := by
    rw [map2_length _ _ _ (lead_length _ _).symm, lead_length]
  have hB : (map2 (· - ·) (lead (2 * l) c) c).length = c.length := by
    rw [map2_length _ _ _ (lead_length _ _).symm, lead_length]
  have hC : (map2 (· * ·) (lead l c) (map2 (· + ·) (lead (2 * l) c) c)).length = c.length := by
    rw [map2_length _ _ _ (by rw [hA, lead_length]), lead_length]
  have hD := map2_length (· * ·) (map2 (· * ·) (lead l c) (map2 (· + ·) (lead (2 * l) c) c))
    (map2 (· - ·) (lead (2 * l) c) c) (by rw [hB, hC])
  rw [col_range (map2 (· * ·) (map2 (· * ·) (lead l c) _) _), hD, hC]
  congr 1
  apply List.map_congr_left
  intro i _
  rw [get_map2 _ _ _ (by rw [hB, hC]), get_map2 _ _ _ (by rw [hA, lead_length]),
    get_map2 _ _ _ (lead_length _ _).symm, get_map2 _ _ _ (lead_length _ _).symm, get_lead, get_lead]
  rfl

/-- Reversing time changes the sign of the time reversal asymmetry statistic, for every series, nulls
included. -/
theorem tras_reverse (c : Col K) (l : ℕ) : tras c.reverse l = (tras c l).map fun v => -v := by
  rw [tras_eq, tras_eq, List.length_reverse]
  have hr := window3_reverse c l trasTerm
    (by intro a b; cases a <;> cases b <;> rfl) (by intro b d; cases d <;> cases b <;> rfl)
  have hneg : ∀ a b d : Option K, trasTerm d b a = (trasTerm a b d).map fun v => -v := by
    intro a b d
    cases a <;> cases b <;> cases d <;> simp [trasTerm, opt2]
    ring
  rw [mean_rev _ _ hr]
  rw [show (fun i => trasTerm (get c (i + 2 * l)) (get c (i + l)) (get c i)) =
    fun i => (trasTerm (get c i) (get c (i + l)) (get c (i + 2 * l))).map fun v => -v from
      funext fun i => hneg _ _ _]
  unfold mean Pl.count Pl.sum
  have hv : vals ((List.range c.length).map fun i =>
      (trasTerm (get c i) (get c (i + l)) (get c (i + 2 * l))).map fun v => -v) =
      (vals ((List.range c.length).map fun i => trasTerm (get c i) (get c (i + l)) (get c (i + 2 * l)))).map
        fun v => -v := by
    rw [← vals_map1', map1, List.map_map]
    rfl
  have hs : ∀ l : List K, (l.map fun v => -v).sum = -l.sum := by
    intro l
    induction l with
    | nil => simp
    | cons a l ih => simp [ih]; ring
  rw [hv, List.length_map, hs]
  split
  · rfl
  · simp [neg_div]

example : tras [some 1, some 3, none, some (2 : ℚ), some 5, some 4] 1 = some 60 ∧
    tras [some 4, some 5, some (2 : ℚ), none, some 3, some 1] 1 = some (-60) := by
  constructor <;> decide +kernel

theorem vals_range_some (n m : ℕ) (hm : m ≤ n) (f : ℕ → Option K) (g : ℕ → K)
    (h1 : ∀ i, i < m → f i = some (g i)) (h2 : ∀ i, m ≤ i → i < n → f i = none) :
    vals ((List.range n).map f) = tab m g := by
  rw [vals_cut f m n hm h2]
  have : (List.range m).map f = (tab m g).map some := by
    unfold tab
    rw [List.map_map]
    apply List.map_congr_left
    intro i hi
    exact h1 i (List.mem_range.1 hi)
  rw [this, vals_some]

theorem mean_vals (c : Col K) (l : List K) (h : vals c = l) :
    mean c = if l = [] then none else some (avg l) := by
  unfold mean Pl.count Pl.sum avg
  rw [h]
  by_cases hl : l = []
  · simp [hl]
  · rw [if_neg hl, if_neg (by simpa using hl)]

/-- On a complete series the statistic is the average of `x(i+l) (x(i+2l)² - x(i)²)` over the `n - 2l` positions
where it exists, null if there is none. -/
theorem tras_value (x : List K) (l : ℕ) :
    tras (x.map some) l = if x.length ≤ 2 * l then none else
      some (avg (tab (x.length - 2 * l) fun i => at' x (i + l) * (at' x (i + 2 * l) ^ 2 - at' x i ^ 2))) := by
  rw [tras_eq]
  rw [mean_vals _ _ (vals_range_some _ (x.length - 2 * l) (by simp) _
    (fun i => at' x (i + l) * (at' x (i + 2 * l) ^ 2 - at' x i ^ 2)) ?_ ?_)]
  · by_cases h : x.length ≤ 2 * l
    · rw [if_pos h, if_pos]
      simp [tab, h]
    · rw [if_neg h, if_neg]
      simp [tab]; omega
  · intro i hi
    rw [get_some x _ (by omega), get_some x _ (by omega), get_some x _ (by omega)]
    simp only [trasTerm, opt2, at']
    congr 1; ring
  · intro i h1 _
    rw [get_ge _ (i + 2 * l) (by simp; omega)]
    cases get (x.map some) i <;> cases get (x.map some) (i + l) <;> rfl

example : tras [some 1, some 3, some (2 : ℚ), some 5] 1 = some ((3 * (2 ^ 2 - 1 ^ 2) + 2 * (5 ^ 2 - 3 ^ 2)) / 2) := by
  decide +kernel

/-! ## The third-order statistic C3 -/

/-- One row of C3, seen from its first factor. -/
def c3Term (a b d : Option K) : Option K := opt2 (· * ·) (opt2 (· * ·) d b) a

theorem c3_vals (c : Col K) (l : ℕ) :
    vals (map2 (· * ·) (map2 (· * ·) c (lag l c)) (lag (2 * l) c)) =
      vals ((List.range (c.length - 2 * l)).map fun i => c3Term (get c i) (get c (i + l)) (get c (i + 2 * l))) := by
  have hA := map2_length (· * ·) c (lag l c) (lag_length l c)
  have hB := map2_length (· * ·) (map2 (· * ·) c (lag l c)) (lag (2 * l) c) (by rw [hA, lag_length])
  rw [col_range (map2 (· * ·) (map2 (· * ·) c (lag l c)) (lag (2 * l) c)), hB, hA]
  by_cases h : 2 * l ≤ c.length
  · have hn : c.length = 2 * l + (c.length - 2 * l) := by omega
    generalize c.length - 2 * l = m at hn
    rw [hn, List.range_add, List.map_append, vals_append]
    have h0 : vals (List.map (get (map2 (· * ·) (map2 (· * ·) c (lag l c)) (lag (2 * l) c)))
        (List.range (2 * l))) = [] := by
      simp only [vals, List.filterMap_map, List.filterMap_eq_nil_iff, List.mem_range]
      intro i hi
      simp only [Function.comp_apply, id_eq]
      rw [get_map2 _ _ _ (by rw [hA, lag_length]), get_lag _ _ _ (by omega), if_pos hi]
      cases get (map2 (· * ·) c (lag l c)) i <;> rfl
    rw [h0, List.nil_append, List.map_map]
    congr 1
    apply List.map_congr_left
    intro i hi
    rw [List.mem_range] at hi
    simp only [Function.comp_apply]
    rw [get_map2 _ _ _ (by rw [hA, lag_length]), get_map2 _ _ _ (lag_length l c), get_lag _ _ _ (by omega),
      get_lag _ _ _ (by omega), if_neg (by omega), if_neg (by omega)]
    unfold c3Term
    have e1 : 2 * l + i = i + 2 * l := by omega
    have e2 : 2 * l + i - l = i + l := by omega
    have e3 : 2 * l + i - 2 * l = i := by omega
    rw [e2, e3, e1]
  · have : c.length - 2 * l = 0 := by omega
    rw [this, List.range_zero]
    simp only [List.map_nil, vals, List.filterMap_nil, List.filterMap_map, List.filterMap_eq_nil_iff, List.mem_range]
    intro i hi
    simp only [Function.comp_apply, id_eq]
    rw [get_map2 _ _ _ (by rw [hA, lag_length]), get_lag (2 * l) _ _ hi, if_pos (by omega)]
    cases get (map2 (· * ·) c (lag l c)) i <;> rfl

/-- On a complete series longer than `2l` the C3 statistic is the average of `x(i) x(i+l) x(i+2l)`. -/
theorem c3_value_partial [CharZero K] (x : List K) (l : ℕ) (h : 2 * l < x.length) (hn : x.length < 2 ^ 32) :
    c3 (x.map some) l =
      .num (avg (tab (x.length - 2 * l) fun i => at' x i * at' x (i + l) * at' x (i + 2 * l))) := by
  unfold c3
  have hv := c3_vals (x.map some) l
  have h2 : vals ((List.range ((x.map some).length - 2 * l)).map fun i =>
      c3Term (get (x.map some) i) (get (x.map some) (i + l)) (get (x.map some) (i + 2 * l))) =
      tab (x.length - 2 * l) fun i => at' x i * at' x (i + l) * at' x (i + 2 * l) := by
    rw [List.length_map]
    refine vals_range_some _ _ le_rfl _ _ ?_ (by intros; omega)
    intro i hi
    rw [get_some x _ (by omega), get_some x _ (by omega), get_some x _ (by omega)]
    simp only [c3Term, opt2, at']
    congr 1; ring
  unfold Pl.sum
  rw [hv, h2, List.length_map]
  have hm : (x.length + 2 ^ 32 - 2 * l) % 2 ^ 32 = x.length - 2 * l := by omega
  rw [hm]
  rw [fdiv_num _ _ (by rw [Nat.cast_ne_zero]; omega)]
  simp [avg, tab]

example : c3 [some 1, some 3, some (2 : ℚ), some 5] 1 = .num ((1 * 3 * 2 + 3 * 2 * 5) / 2) := by decide +kernel

/-- Reversing time does not change C3, nulls included. -/
theorem c3_reverse (c : Col K) (l : ℕ) : c3 c.reverse l = c3 c l := by
  unfold c3
  have hs : Pl.sum (map2 (· * ·) (map2 (· * ·) c.reverse (lag l c.reverse)) (lag (2 * l) c.reverse)) =
      Pl.sum (map2 (· * ·) (map2 (· * ·) c (lag l c)) (lag (2 * l) c)) := by
    unfold Pl.sum
    rw [c3_vals, c3_vals, List.length_reverse]
    have hnone1 : ∀ a b : Option K, c3Term a b none = none := by intro a b; cases a <;> rfl
    have hnone2 : ∀ b d : Option K, c3Term none b d = none := by intro b d; cases b <;> cases d <;> rfl
    have key := window3_reverse c l c3Term hnone1 hnone2
    rw [vals_cut _ (c.length - 2 * l) c.length (by omega), vals_cut _ (c.length - 2 * l) c.length (by omega)] at key
    · rw [key, List.sum_reverse]
      congr 3
      funext i
      cases get c i <;> cases get c (i + l) <;> cases get c (i + 2 * l) <;> simp [c3Term, opt2]
      ring
    · intro i h3 _
      rw [get_ge c (i + 2 * l) (by omega), hnone2]
    · intro i h3 _
      rw [get_ge c.reverse (i + 2 * l) (by simp; omega), hnone1]
  rw [hs, List.length_reverse]

example : c3 [some 1, none, some 3, some (2 : ℚ), some 5] 1 = c3 [some 5, some 2, some 3, none, some 1] 1 := by
  decide +kernel

/-- What happens on a short series: with `2l = n` the result is NaN, with `2l > n` the 32 bit difference wraps
around and the result is 0. -/
theorem c3_short [CharZero K] (c : Col K) (l : ℕ) (h : c.length ≤ 2 * l) (hl : 2 * l < 2 ^ 32) :
    c3 c l = if c.length = 2 * l then .nan else .num 0 := by
  unfold c3 Pl.sum
  rw [c3_vals]
  have : c.length - 2 * l = 0 := by omega
  rw [this]
  simp only [List.range_zero, List.map_nil, vals, List.filterMap_nil, List.sum_nil]
  by_cases he : c.length = 2 * l
  · have hm : (c.length + 2 ^ 32 - 2 * l) % 2 ^ 32 = 0 := by omega
    rw [if_pos he, hm]
    simp [Val.fdiv]
  · have hm : (c.length + 2 ^ 32 - 2 * l) % 2 ^ 32 ≠ 0 := by omega
    rw [if_neg he]
    rw [fdiv_num _ _ (by rw [Nat.cast_ne_zero]; exact hm), zero_div]

example : c3 [some (1 : ℚ), some 2] 1 = .nan ∧ c3 [some (1 : ℚ), some 2] 2 = .num 0 := by
  constructor <;> decide +kernel

/-- A null row makes C3 smaller: its products are left out of the sum but still counted in the divisor, so the
value is not the average of the products that exist. -/
theorem c3_null_counted :
    c3 [some (1 : ℚ), some 1, some 1, none] 1 = .num (1 / 2) ∧ c3 [some (1 : ℚ), some 1, some 1] 1 = .num 1 := by
  constructor <;> decide +kernel

/-! ## Autocorrelation -/

theorem centered_length (c : Col K) : (centered c).length = c.length := by simp [centered]

theorem get_centered (c : Col K) (i : ℕ) : get (centered c) i = opt2 (· - ·) (get c i) (mean c) :=
  get_map _ _ _ rfl

theorem vals_dot_lead (c : Col K) (l : ℕ) :
    vals (map2 (· * ·) c (lead l c)) =
      vals ((List.range c.length).map fun i => opt2 (· * ·) (get c i) (get c (i + l))) := by
  have hA := map2_length (· * ·) c (lead l c) (lead_length l c)
  rw [col_range (map2 (· * ·) c (lead l c)), hA]
  congr 1
  apply List.map_congr_left
  intro i _
  rw [get_map2 _ _ _ (lead_length l c), get_lead]

theorem lag_vals_reverse (c : Col K) (l : ℕ) :
    vals (map2 (· * ·) c.reverse (lead l c.reverse)) = (vals (map2 (· * ·) c (lead l c))).reverse := by
  rw [vals_dot_lead, vals_dot_lead, List.length_reverse, window2_reverse c l (opt2 (· * ·))
    (by intro a; cases a <;> rfl) (by intro b; cases b <;> rfl)]
  congr 3
  funext i
  cases get c i <;> cases get c (i + l) <;> simp [opt2, mul_comm]

theorem varD_reverse (c : Col K) (ddof : ℕ) : varD ddof c.reverse = varD ddof c := by
  unfold varD
  rw [mean_rev _ _ (vals_reverse c)]
  simp only [Pl.count, vals_reverse, List.length_reverse, List.map_reverse, List.sum_reverse]
  rfl

/-- The autocorrelation, normalized or not, does not depend on the direction of time, nulls included. -/
theorem auto_corr_reverse (c : Col K) (l ddof : ℕ) :
    autoCorr c.reverse l ddof = autoCorr c l ddof ∧ autoCov c.reverse l = autoCov c l := by
  constructor
  · unfold autoCorr
    rw [varD_reverse]
    have hc : centered c.reverse = (centered c).reverse := by
      unfold centered
      rw [mean_rev _ _ (vals_reverse c), List.map_reverse]
    have hd : dot (centered c).reverse (lead l (centered c).reverse) = dot (centered c) (lead l (centered c)) := by
      unfold dot Pl.sum
      rw [lag_vals_reverse, List.sum_reverse]
    rw [hc, hd, List.length_reverse]
  · unfold autoCov
    exact mean_rev _ _ (lag_vals_reverse c l)

example : autoCorr [some 1, none, some 3, some (2 : ℚ)] 1 0 = some (.num 0) := by decide +kernel

theorem mean_some_eq (x : List K) (h : x ≠ []) : mean (x.map some) = some (avg x) := by
  rw [mean_vals _ x (vals_some x), if_neg h]

/-- The value of the normalized autocorrelation of a complete series. -/
theorem auto_corr_value (x : List K) (l ddof : ℕ) (hd : ddof < x.length) (hl : l ≤ x.length) :
    autoCorr (x.map some) l ddof = some (Val.fdiv
      (.num (tab (x.length - l) fun i => (at' x i - avg x) * (at' x (i + l) - avg x)).sum)
      (.num (((x.length - l : ℕ) : K) * ((x.map fun v => (v - avg x) ^ 2).sum / ((x.length : K) - ddof))))) := by
  have hx : x ≠ [] := by intro h; subst h; simp at hd
  unfold autoCorr varD
  rw [mean_some_eq x hx]
  simp only [Option.bind_some, Pl.count, vals_some]
  rw [if_neg (by omega)]
  simp only [Option.map_some, List.length_map]
  rw [if_neg (by omega)]
  have : dot (centered (x.map some)) (lead l (centered (x.map some))) =
      (tab (x.length - l) fun i => (at' x i - avg x) * (at' x (i + l) - avg x)).sum := by
    unfold dot Pl.sum
    rw [vals_dot_lead, centered_length, List.length_map]
    congr 1
    refine vals_range_some _ _ (by omega) _ _ ?_ ?_
    · intro i hi
      rw [get_centered, get_centered, mean_some_eq x hx, get_some x _ (by omega), get_some x _ (by omega)]
      rfl
    · intro i h1 _
      rw [get_centered _ (i + l), get_ge (x.map some) (i + l) (by simp; omega)]
      cases get (centered (x.map some)) i <;> rfl
  rw [this]

example : autoCorr ([1, 4, 2, 5].map (some : ℚ → Option ℚ)) 1 0 = some (.num (-2 / 3)) := by decide +kernel

/-- Lag 0 gives 1 as soon as the values are not all equal. -/
theorem auto_corr_zero [IsStrictOrderedRing K] (x : List K) (a b : K) (ha : a ∈ x) (hb : b ∈ x) (hab : a ≠ b) :
    autoCorr (x.map some) 0 0 = some (.num 1) := by
  have hx : 0 < x.length := List.length_pos_of_mem ha
  rw [auto_corr_value x 0 0 hx (by omega)]
  have hpos : 0 < (x.map fun v => (v - avg x) ^ 2).sum := by
    have hex : ∃ v ∈ x, v ≠ avg x := by
      by_contra hne
      push Not at hne
      exact hab ((hne a ha).trans (hne b hb).symm)
    obtain ⟨v, hv, hne⟩ := hex
    have h1 : (v - avg x) ^ 2 ≤ (x.map fun v => (v - avg x) ^ 2).sum := by
      refine List.single_le_sum ?_ _ (List.mem_map.2 ⟨v, hv, rfl⟩)
      intro y hy
      obtain ⟨u, _, rfl⟩ := List.mem_map.1 hy
      positivity
    have h2 : 0 < (v - avg x) ^ 2 := by
      have : v - avg x ≠ 0 := sub_ne_zero.2 hne
      positivity
    linarith
  have hs : (tab (x.length - 0) fun i => (at' x i - avg x) * (at' x (i + 0) - avg x)).sum =
      (x.map fun v => (v - avg x) ^ 2).sum := by
    have : tab (x.length - 0) (fun i => (at' x i - avg x) * (at' x (i + 0) - avg x)) =
        x.map fun v => (v - avg x) ^ 2 := by
      apply List.ext_getElem
      · simp [tab]
      · intro i h1 h2
        have hi : i < x.length := by simpa using h2
        simp [tab, at', List.getElem?_eq_getElem hi]
        ring
    rw [this]
  rw [hs]
  have hn : (x.length : K) ≠ 0 := by
    rw [Nat.cast_ne_zero]; omega
  have hd : ((x.length - 0 : ℕ) : K) * ((x.map fun v => (v - avg x) ^ 2).sum / ((x.length : K) - (0 : ℕ))) =
      (x.map fun v => (v - avg x) ^ 2).sum := by
    simp; field_simp
  rw [hd]
  rw [fdiv_num _ _ hpos.ne', div_self hpos.ne']

example : (1 : ℚ) ∈ [1, 4, 2] ∧ (4 : ℚ) ∈ [1, 4, 2] ∧ (1 : ℚ) ≠ 4 := by norm_num

theorem prod_sum_le [IsStrictOrderedRing K] (y : ℕ → K) (n l m : ℕ) (hm : m + l ≤ n) :
    |((List.range m).map fun i => y i * y (i + l)).sum| ≤ ((List.range n).map fun i => y i ^ 2).sum := by
  have hsq : ∀ (a b : ℕ), a ≤ b → ((List.range a).map fun i => y i ^ 2).sum ≤ ((List.range b).map fun i => y i ^ 2).sum := by
    intro a b hab
    obtain ⟨k, rfl⟩ := Nat.exists_eq_add_of_le hab
    rw [List.range_add, List.map_append, List.sum_append]
    have : 0 ≤ (List.map (fun i => y i ^ 2) (List.map (fun x => a + x) (List.range k))).sum := by
      apply List.sum_nonneg
      intro x hx
      obtain ⟨i, _, rfl⟩ := List.mem_map.1 hx
      positivity
    linarith
  have hsq2 : ((List.range m).map fun i => y (i + l) ^ 2).sum ≤ ((List.range n).map fun i => y i ^ 2).sum := by
    refine le_trans ?_ (hsq (l + m) n (by omega))
    rw [List.range_add, List.map_append, List.sum_append, List.map_map]
    have h0 : 0 ≤ (List.map (fun i => y i ^ 2) (List.range l)).sum := by
      apply List.sum_nonneg
      intro x hx
      obtain ⟨i, _, rfl⟩ := List.mem_map.1 hx
      positivity
    have : (List.map ((fun i => y i ^ 2) ∘ fun x => l + x) (List.range m)) = (List.range m).map fun i => y (i + l) ^ 2 := by
      apply List.map_congr_left
      intro i _
      simp [Nat.add_comm]
    rw [this]; linarith
  have hsq1 := hsq m n (by omega)
  have hab : ∀ l' : List ℕ, 2 * |(l'.map fun i => y i * y (i + l)).sum| ≤
      (l'.map fun i => y i ^ 2).sum + (l'.map fun i => y (i + l) ^ 2).sum := by
    intro l'
    induction l' with
    | nil => simp
    | cons a t ih =>
      simp only [List.map_cons, List.sum_cons]
      have h1 := abs_add_le (y a * y (a + l)) ((t.map fun i => y i * y (i + l)).sum)
      have h2 : 2 * |y a * y (a + l)| ≤ y a ^ 2 + y (a + l) ^ 2 := by
        rcases abs_cases (y a * y (a + l)) with ⟨h, _⟩ | ⟨h, _⟩ <;> rw [h]
        · nlinarith [sq_nonneg (y a - y (a + l))]
        · nlinarith [sq_nonneg (y a + y (a + l))]
      linarith
  have := hab (List.range m)
  linarith

/-- The normalized autocorrelation is documented to lie in [-1, 1].  What holds is a bound by `n / (n - l)`: the
sum of `n - l` products is divided by `n - l` times the variance of all `n` values. -/
theorem auto_corr_bound_partial [IsStrictOrderedRing K] (x : List K) (l : ℕ) (hl : l < x.length) (r : K)
    (h : autoCorr (x.map some) l 0 = some (.num r)) :
    |r| * ((x.length : K) - l) ≤ x.length := by
  rw [auto_corr_value x l 0 (by omega) hl.le] at h
  simp only [Option.some.injEq] at h
  set S := (x.map fun v => (v - avg x) ^ 2).sum with hS
  set P := (tab (x.length - l) fun i => (at' x i - avg x) * (at' x (i + l) - avg x)).sum with hP
  have hn : (0 : K) < x.length := by rw [Nat.cast_pos]; omega
  have hk : (0 : K) < ((x.length - l : ℕ) : K) := by rw [Nat.cast_pos]; omega
  have hkl : ((x.length - l : ℕ) : K) = (x.length : K) - l := by push_cast [hl.le]; ring
  have hSe : S = ((List.range x.length).map fun i => (at' x i - avg x) ^ 2).sum := by
    rw [hS]
    congr 1
    apply List.ext_getElem
    · simp
    · intro i h1 h2
      have hi : i < x.length := by simpa using h1
      simp [at', List.getElem?_eq_getElem hi]
  have hb : |P| ≤ S := by
    rw [hSe, hP]
    exact prod_sum_le (fun i => at' x i - avg x) x.length l (x.length - l) (by omega)
  unfold Val.fdiv at h
  simp only at h
  by_cases h0 : ((x.length - l : ℕ) : K) * (S / ((x.length : K) - (0 : ℕ))) = 0
  · rw [if_pos h0] at h
    split at h <;> cases h
  · rw [if_neg h0] at h
    have hr : P / (((x.length - l : ℕ) : K) * (S / ((x.length : K) - (0 : ℕ)))) = r := by injection h
    have hS0 : 0 < S := by
      have h1 : 0 ≤ S := le_trans (abs_nonneg _) hb
      rcases h1.lt_or_eq with h2 | h2
      · exact h2
      · exfalso; apply h0; rw [← h2]; simp
    rw [← hr, ← hkl]
    simp only [Nat.cast_zero, sub_zero]
    have hden : 0 < ((x.length - l : ℕ) : K) * (S / (x.length : K)) := by positivity
    rw [abs_div, abs_of_pos hden]
    have : |P| / (((x.length - l : ℕ) : K) * (S / (x.length : K))) * ((x.length - l : ℕ) : K) =
        |P| / S * x.length := by
      field_simp
    rw [this]
    have : |P| / S ≤ 1 := by rw [div_le_one hS0]; exact hb
    nlinarith

example : autoCorr ([1, 4, 2, 5].map (some : ℚ → Option ℚ)) 1 0 = some (.num (-2 / 3)) ∧ 1 < [1, 4, 2, 5].length := by
  constructor <;> decide +kernel

/-- The documented range is left: the series 3, 0, 0, 0, 3 has autocorrelation 1.5 at lag 4. -/
theorem auto_corr_exceeds_one :
    autoCorr ([3, 0, 0, 0, 3].map (some : ℚ → Option ℚ)) 4 0 = some (.num (3 / 2)) := by
  decide +kernel

/-- A lag beyond the series, a lag equal to its length, and a constant series give NaN (or null if there are
too few values for a variance). -/
theorem auto_corr_nan [CharZero K] (c : Col K) (l ddof : ℕ) :
    (c.length < l → autoCorr c l ddof = (varD ddof c).map fun _ => .nan) ∧
    (c.length = l → autoCorr c l ddof = (varD ddof c).map fun _ => .nan) := by
  constructor
  · intro h
    unfold autoCorr
    simp [h, Val.fdiv]
  · intro h
    unfold autoCorr
    have hnl : ¬ c.length < l := by omega
    simp only [if_neg hnl]
    have h0 : dot (centered c) (lead l (centered c)) = 0 := by
      unfold dot Pl.sum
      rw [vals_dot_lead, vals_cut _ 0 _ (by omega)]
      · simp [vals]
      · intro i _ _
        rw [get_ge (centered c) (i + l) (by rw [centered_length]; omega)]
        cases get (centered c) i <;> rfl
    rw [h0, h]
    simp [Val.fdiv]

example : autoCorr [some (1 : ℚ), some 2] 3 0 = some .nan ∧ autoCorr [some (1 : ℚ), some 2] 2 0 = some .nan := by
  constructor <;> decide +kernel

theorem fdiv_scale [IsStrictOrderedRing K] (s p k a : K) (ha : 0 < a) :
    Val.fdiv (.num (a * s)) (.num (k * (a * p))) = Val.fdiv (.num s) (.num (k * p)) := by
  have e : k * (a * p) = a * (k * p) := by ring
  rw [e]
  by_cases h : k * p = 0
  · simp [Val.fdiv, h, ha.ne', ha]
  · rw [fdiv_num _ _ h, fdiv_num _ _ (mul_ne_zero ha.ne' h), mul_div_mul_left _ _ ha.ne']

theorem sum_affine (l : List K) (a b : K) : (l.map fun v => a * v + b).sum = a * l.sum + l.length * b := by
  induction l with
  | nil => simp
  | cons x l ih => simp only [List.map_cons, List.sum_cons, ih, List.length_cons, Nat.cast_succ]; ring

theorem mean_affine [CharZero K] (c : Col K) (a b : K) :
    mean (map1 (fun v => a * v + b) c) = (mean c).map fun m => a * m + b := by
  unfold mean Pl.count Pl.sum
  rw [vals_map1', List.length_map, sum_affine]
  by_cases h : (vals c).length = 0
  · simp [h]
  · rw [if_neg h, if_neg h]
    have : ((vals c).length : K) ≠ 0 := by exact_mod_cast h
    simp only [Option.map_some, Option.some.injEq]
    field_simp

theorem mean_none_iff (c : Col K) : mean c = none ↔ vals c = [] := by
  unfold mean Pl.count
  by_cases h : (vals c).length = 0
  · rw [if_pos h]; simpa using h
  · rw [if_neg h]; simp at h ⊢; exact h

theorem centered_affine [CharZero K] (c : Col K) (a b : K) :
    centered (map1 (fun v => a * v + b) c) = map1 (fun v => a * v) (centered c) := by
  unfold centered
  rw [mean_affine]
  simp only [map1, List.map_map]
  apply List.map_congr_left
  intro x _
  cases x with
  | none => rfl
  | some v =>
    cases mean c with
    | none => rfl
    | some m => simp [opt2]; ring

theorem dot_lead_scale (c : Col K) (l : ℕ) (a : K) :
    dot (map1 (fun v => a * v) c) (lead l (map1 (fun v => a * v) c)) = a ^ 2 * dot c (lead l c) := by
  unfold dot Pl.sum
  rw [vals_dot_lead, vals_dot_lead]
  have hlen : (map1 (fun v => a * v) c).length = c.length := by simp [map1]
  rw [hlen]
  have : vals ((List.range c.length).map fun i =>
      opt2 (· * ·) (get (map1 (fun v => a * v) c) i) (get (map1 (fun v => a * v) c) (i + l))) =
      (vals ((List.range c.length).map fun i => opt2 (· * ·) (get c i) (get c (i + l)))).map fun v => a ^ 2 * v := by
    rw [← vals_map1']
    unfold map1
    rw [List.map_map]
    congr 1
    apply List.map_congr_left
    intro i _
    rw [get_map _ c i rfl, get_map _ c (i + l) rfl]
    simp only [Function.comp_apply]
    cases get c i <;> cases get c (i + l) <;> simp [opt2]
    ring
  rw [this]
  have := sum_affine (vals ((List.range c.length).map fun i => opt2 (· * ·) (get c i) (get c (i + l)))) (a ^ 2) 0
  simpa using this

/-- The normalized autocorrelation does not depend on the unit or the origin of the measurements, nulls
included. -/
theorem auto_corr_affine [IsStrictOrderedRing K] (c : Col K) (l ddof : ℕ) (a b : K) (ha : a ≠ 0) :
    autoCorr (map1 (fun v => a * v + b) c) l ddof = autoCorr c l ddof := by
  have hv : varD ddof (map1 (fun v => a * v + b) c) = (varD ddof c).map fun v => a ^ 2 * v := by
    unfold varD
    rw [mean_affine]
    cases hm : mean c with
    | none => rfl
    | some m =>
      have hcnt : Pl.count (map1 (fun v => a * v + b) c) = Pl.count c := by simp [Pl.count, vals_map1']
      simp only [Option.map_some, Option.bind_some, hcnt, vals_map1']
      by_cases h : Pl.count c ≤ ddof
      · simp [h]
      · rw [if_neg h, if_neg h, Option.map_some]
        congr 1
        rw [List.map_map]
        have : (List.map ((fun v => (v - (a * m + b)) ^ 2) ∘ fun v => a * v + b) (vals c)) =
            (vals c).map fun v => a ^ 2 * (v - m) ^ 2 := by
          apply List.map_congr_left
          intro v _
          simp only [Function.comp_apply]; ring
        rw [this]
        have h3 := sum_affine ((vals c).map fun v => (v - m) ^ 2) (a ^ 2) 0
        rw [List.map_map] at h3
        have h4 : (List.map ((fun v => a ^ 2 * v + 0) ∘ fun v => (v - m) ^ 2) (vals c)) =
            (vals c).map fun v => a ^ 2 * (v - m) ^ 2 := by
          apply List.map_congr_left
          intro v _
          simp
        rw [h4] at h3
        rw [h3]; ring
  unfold autoCorr
  rw [hv, centered_affine, dot_lead_scale]
  have hlen : (map1 (fun v => a * v + b) c).length = c.length := by simp [map1]
  rw [hlen]
  cases varD ddof c with
  | none => rfl
  | some v =>
    simp only [Option.map_some, Option.some.injEq]
    by_cases h : c.length < l
    · simp [h, Val.fdiv]
    · rw [if_neg h, if_neg h]
      exact fdiv_scale _ _ _ _ (by positivity)

example : autoCorr [some (1 : ℚ), none, some 3, some 2, some 7] 1 0 =
    autoCorr [some (-1 : ℚ), none, some (-5), some (-3), some (-13)] 1 0 := by decide +kernel

end Verif.TsFeat
