import Verif.Model.LossEdge
import Mathlib.Algebra.Order.BigOperators.Group.List

/-!
# C171: log loss and percentage errors on boundary rows
-/

namespace Verif.LossEdge
open Verif.Pl Verif.Confusion

namespace Spec

/-- The complete rows of two columns. -/
def both {α β : Type} (a : Col α) (p : Col β) : List (α × β) :=
  (a.zip p).filterMap fun q => q.1.bind fun x => q.2.map fun y => (x, y)

/-- The probability a prediction gives to the label (1 or 0) that occurred. -/
noncomputable def given (x y : ℝ) : ℝ := if x = 1 then y else 1 - y

/-- Mean of a list of numbers. -/
noncomputable def avg (l : List ℝ) : ℝ := l.sum / l.length

/-- A row whose prediction is NaN or gives the label a negative probability. -/
def Broken (r : ℝ × Val ℝ) : Prop := r.2 = .nan ∨ ∃ y, r.2 = .num y ∧ given r.1 y < 0

/-- A row whose label was given probability zero. -/
def Missed (r : ℝ × Val ℝ) : Prop := ∃ y, r.2 = .num y ∧ given r.1 y = 0

end Spec
open Spec

/-! ## Lemmas -/

/-- The sum of values with infinities of at most one sign. -/
theorem foldr_add (b : Bool) (l : List (Val ℝ)) (h : ∀ v ∈ l, v ≠ .inf (!b)) :
    (.nan ∈ l → l.foldr add (.num 0) = .nan) ∧
    (.nan ∉ l → .inf b ∈ l → l.foldr add (.num 0) = .inf b) ∧
    (∀ xs : List ℝ, l = xs.map .num → l.foldr add (.num 0) = .num xs.sum) := by
  have key : (.nan ∈ l ∧ l.foldr add (.num 0) = .nan) ∨
      (.nan ∉ l ∧ .inf b ∈ l ∧ l.foldr add (.num 0) = .inf b) ∨
      (∃ xs : List ℝ, l = xs.map .num ∧ l.foldr add (.num 0) = .num xs.sum) := by
    induction l with
    | nil => right; right; exact ⟨[], rfl, by simp⟩
    | cons v l ih =>
      have ih := ih fun w hw => h w (List.mem_cons_of_mem _ hw)
      have hv := h v List.mem_cons_self
      rw [List.foldr_cons]
      rcases v with x | c | _
      · rcases ih with ⟨h1, h2⟩ | ⟨h1, h2, h3⟩ | ⟨xs, h1, h2⟩
        · left; exact ⟨List.mem_cons_of_mem _ h1, by rw [h2]; rfl⟩
        · right; left
          exact ⟨by simp [h1], List.mem_cons_of_mem _ h2, by rw [h3]; rfl⟩
        · right; right
          exact ⟨x :: xs, by simp [h1], by rw [h2]; simp [add]⟩
      · have hc : c = b := by
          cases c <;> cases b <;> simp_all
        subst hc
        rcases ih with ⟨h1, h2⟩ | ⟨h1, h2, h3⟩ | ⟨xs, h1, h2⟩
        · left; exact ⟨List.mem_cons_of_mem _ h1, by rw [h2]; rfl⟩
        · right; left
          exact ⟨by simp [h1], List.mem_cons_self, by rw [h3]; simp [add]⟩
        · right; left
          exact ⟨by simp [h1], List.mem_cons_self, by rw [h2]; rfl⟩
      · left; refine ⟨List.mem_cons_self, ?_⟩
        cases l.foldr add (.num 0) <;> rfl
  have nn : ∀ xs : List ℝ, .nan ∉ xs.map Val.num := by intro xs; simp
  have ni : ∀ xs : List ℝ, .inf b ∉ xs.map Val.num := by intro xs; simp
  refine ⟨fun hn => ?_, fun hn hi => ?_, fun xs hx => ?_⟩
  · rcases key with ⟨_, h2⟩ | ⟨h1, _⟩ | ⟨xs, h1, _⟩
    · exact h2
    · exact absurd hn h1
    · rw [h1] at hn; exact absurd hn (nn xs)
  · rcases key with ⟨h1, _⟩ | ⟨_, _, h3⟩ | ⟨xs, h1, _⟩
    · exact absurd h1 hn
    · exact h3
    · rw [h1] at hi; exact absurd hi (ni xs)
  · rcases key with ⟨h1, _⟩ | ⟨_, h2, _⟩ | ⟨ys, h1, h2⟩
    · rw [hx] at h1; exact absurd h1 (nn xs)
    · rw [hx] at h2; exact absurd h2 (ni xs)
    · have : xs = ys := by
        have e : xs.map Val.num = ys.map Val.num := hx.symm.trans h1
        exact List.map_injective_iff.2 (fun a b h => by injection h) e
      rw [this]; exact h2

/-- One row of the log loss before the sign is changed. -/
noncomputable def term (x : ℝ) (y : Val ℝ) : Val ℝ := add (xlogy x y) (xlogy (1 - x) (oneMinus y))

theorem vals_loss (a : Col ℝ) (p : Col (Val ℝ)) :
    vals (map2 add (map2 xlogy a p) (map2 xlogy (map1 (fun x => 1 - x) a) (map1 oneMinus p)))
      = (both a p).map fun r => term r.1 r.2 := by
  induction a generalizing p with
  | nil => rfl
  | cons x a ih =>
    cases p with
    | nil => rfl
    | cons y p =>
      have := ih p
      cases x <;> cases y <;> simpa [vals, map2, map1, both, opt2, term] using this

theorem term_num {x y : ℝ} (hx : x = 0 ∨ x = 1) :
    term x (.num y) = if given x y < 0 then .nan else if given x y = 0 then .inf false
      else .num (Real.log (given x y)) := by
  rcases hx with rfl | rfl
  · simp only [term, xlogy, given, oneMinus, ln]
    simp only [true_and, ne_eq, reduceCtorEq, not_false_eq_true, if_true, sub_zero, one_ne_zero, false_and, if_false,
      zero_ne_one]
    split_ifs <;> simp [mul, add]
  · simp only [term, xlogy, given, oneMinus, ln]
    simp only [true_and, ne_eq, reduceCtorEq, not_false_eq_true, if_true, sub_self, one_ne_zero, false_and, if_false]
    split_ifs <;> simp [mul, add]

theorem term_nan {x : ℝ} (hx : x = 0 ∨ x = 1) : term x .nan = .nan := by
  rcases hx with rfl | rfl <;> simp [term, xlogy, oneMinus, ln, mul, add]

/-- What the sum of the terms is. -/
theorem terms_class (l : List (ℝ × Val ℝ)) (hl : ∀ r ∈ l, r.1 = 0 ∨ r.1 = 1) (hf : ∀ r ∈ l, ∀ b, r.2 ≠ .inf b) :
    ((∃ r ∈ l, Broken r) → (l.map fun r => term r.1 r.2).foldr add (.num 0) = .nan) ∧
    ((∀ r ∈ l, ¬ Broken r) → (∃ r ∈ l, Missed r) → (l.map fun r => term r.1 r.2).foldr add (.num 0) = .inf false) ∧
    (∀ ys : List (ℝ × ℝ), l = ys.map (fun r => (r.1, .num r.2)) → (∀ r ∈ ys, 0 < given r.1 r.2) →
      (l.map fun r => term r.1 r.2).foldr add (.num 0) = .num (ys.map fun r => Real.log (given r.1 r.2)).sum) := by
  have hno : ∀ v ∈ l.map (fun r => term r.1 r.2), v ≠ .inf (!false) := by
    intro v hv
    obtain ⟨⟨x, y⟩, hr, rfl⟩ := List.mem_map.1 hv
    have hx := hl _ hr
    rcases y with y | b | _
    · simp only at hx ⊢
      rw [term_num hx]; split_ifs <;> simp
    · exact absurd rfl (hf _ hr b)
    · simp only at hx ⊢
      rw [term_nan hx]; simp
  obtain ⟨h1, h2, h3⟩ := foldr_add false _ hno
  have hnan : ∀ r ∈ l, term r.1 r.2 = .nan → Broken r := by
    rintro ⟨x, y⟩ hr ht
    have hx := hl _ hr
    rcases y with y | b | _
    · simp only at hx ht
      rw [term_num hx] at ht
      right; refine ⟨y, rfl, ?_⟩
      by_contra hc
      rw [if_neg hc] at ht
      split_ifs at ht
    · exact absurd rfl (hf _ hr b)
    · left; rfl
  refine ⟨?_, ?_, ?_⟩
  · rintro ⟨⟨x, y⟩, hr, hb⟩
    apply h1
    refine List.mem_map.2 ⟨_, hr, ?_⟩
    have hx := hl _ hr
    simp only at hx ⊢
    rcases hb with hb | ⟨z, hb, hz⟩ <;> simp only at hb <;> subst hb
    · exact term_nan hx
    · rw [term_num hx, if_pos hz]
  · rintro hb ⟨⟨x, y⟩, hr, z, hz, hg⟩
    apply h2
    · intro hm
      obtain ⟨r, hr, ht⟩ := List.mem_map.1 hm
      exact hb r hr (hnan r hr ht)
    · refine List.mem_map.2 ⟨_, hr, ?_⟩
      have hx := hl _ hr
      simp only at hx hz ⊢
      subst hz
      simp only at hg
      rw [term_num hx, if_neg (by rw [hg]; simp), if_pos hg]
  · rintro ys rfl hpos
    apply h3
    rw [List.map_map, List.map_map]
    apply List.map_congr_left
    intro r hr
    have hx := hl _ (List.mem_map.2 ⟨r, hr, rfl⟩)
    have hp := hpos r hr
    simp only [Function.comp] at hx ⊢
    rw [term_num hx, if_neg hp.not_gt, if_neg hp.ne']

/-! ## Theorems -/

/-- **C171.** What the log loss of labels 0 and 1 is, for all finite or NaN predictions on the complete rows: NaN if a
prediction is NaN or gives the label that occurred a negative probability; otherwise infinite if a label was given
probability zero; otherwise minus the mean (or sum) of the logarithms of the probabilities given. -/
theorem log_loss_cases (a : Col ℝ) (p : Col (Val ℝ)) (hne : both a p ≠ [])
    (hl : ∀ r ∈ both a p, r.1 = 0 ∨ r.1 = 1) (hf : ∀ r ∈ both a p, ∀ b, r.2 ≠ .inf b) (normalize : Bool) :
    ((∃ r ∈ both a p, Broken r) → logLoss normalize a p = some .nan) ∧
    ((∀ r ∈ both a p, ¬ Broken r) → (∃ r ∈ both a p, Missed r) → logLoss normalize a p = some (.inf true)) ∧
    (∀ ys : List (ℝ × ℝ), both a p = ys.map (fun r => (r.1, .num r.2)) → (∀ r ∈ ys, 0 < given r.1 r.2) →
      logLoss normalize a p = some (.num (if normalize then -avg (ys.map fun r => Real.log (given r.1 r.2))
        else -(ys.map fun r => Real.log (given r.1 r.2)).sum))) := by
  obtain ⟨h1, h2, h3⟩ := terms_class _ hl hf
  have hlen : (both a p).length ≠ 0 := by simpa using hne
  have hpos : (0:ℝ) < 1 / ((both a p).length : ℝ) := by
    have : 0 < (both a p).length := Nat.pos_of_ne_zero hlen
    positivity
  have e : logLoss normalize a p = some (neg (if normalize then
      mul (1 / ((both a p).length : ℝ)) (((both a p).map fun r => term r.1 r.2).foldr add (.num 0))
      else ((both a p).map fun r => term r.1 r.2).foldr add (.num 0))) := by
    unfold logLoss meanV sumV count
    simp only [vals_loss, List.length_map]
    rw [if_neg hlen]
    cases normalize <;> simp
  refine ⟨fun hb => ?_, fun hb hm => ?_, fun ys hy hg => ?_⟩
  · rw [e, h1 hb]; cases normalize <;> rfl
  · rw [e, h2 hb hm]
    cases normalize
    · rfl
    · simp only [if_true, mul, if_neg hpos.ne', decide_eq_true hpos, neg]; rfl
  · rw [e, h3 ys hy hg]
    have hle : (both a p).length = ys.length := by rw [hy, List.length_map]
    cases normalize
    · rfl
    · simp only [if_true, mul, neg, avg, hle, List.length_map]
      congr 2; ring

example : logLoss true [some 1, some 0, none] [some (.num 1), some (.num 1), some .nan] = some (.inf true) := by
  have e : both [some (1:ℝ), some 0, none] [some (Val.num (1:ℝ)), some (.num 1), some .nan] =
    [(1, .num 1), (0, .num 1)] := rfl
  refine (log_loss_cases _ _ (by rw [e]; simp) (by rw [e]; simp) (by rw [e]; simp) true).2.1 ?_ ?_
  · rw [e]; simp [Broken, given]
  · rw [e]; exact ⟨(0, .num 1), by simp, 1, rfl, by simp [given]⟩

/-- **C171, disagreement.** A prediction above one is not noticed where the label is one: it lowers the loss, without
any bound, so that the loss of a column of impossible predictions can be any negative number. -/
theorem log_loss_negative (n : ℕ) (hn : n ≠ 0) (m : ℝ) (hm : 0 < m) :
    ∃ y : ℝ, 1 < y ∧
      logLoss true (List.replicate n (some 1)) (List.replicate n (some (.num y))) = some (.num (-m)) := by
  refine ⟨Real.exp m, Real.one_lt_exp_iff.2 hm, ?_⟩
  have e : both (List.replicate n (some (1:ℝ))) (List.replicate n (some (Val.num (Real.exp m)))) =
      (List.replicate n ((1:ℝ), Real.exp m)).map fun r => (r.1, Val.num r.2) := by
    unfold both
    rw [List.zip_replicate', List.map_replicate]
    exact List.filterMap_replicate_of_some rfl
  have hm' : ∀ r ∈ (List.replicate n ((1:ℝ), Real.exp m)).map (fun r => (r.1, Val.num r.2)),
      r = (1, .num (Real.exp m)) := by
    intro r hr
    obtain ⟨q, hq, rfl⟩ := List.mem_map.1 hr
    rw [List.eq_of_mem_replicate hq]
  have := (log_loss_cases _ _ (by rw [e]; simp [hn]) (by rw [e]; intro r hr; rw [hm' r hr]; simp)
    (by rw [e]; intro r hr; rw [hm' r hr]; simp) true).2.2 _ e (by
      intro r hr; rw [List.eq_of_mem_replicate hr]; simp [given, Real.exp_pos])
  rw [this]
  have hn' : (n:ℝ) ≠ 0 := by exact_mod_cast hn
  simp only [if_true, avg, List.map_replicate, given, Real.log_exp, List.sum_replicate, List.length_replicate,
    nsmul_eq_mul]
  congr 2; field_simp

example : ∃ y : ℝ, 1 < y ∧
    logLoss true (List.replicate 3 (some 1)) (List.replicate 3 (some (.num y))) = some (.num (-5)) :=
  log_loss_negative 3 (by simp) 5 (by norm_num)

/-- **C171.** Without a complete row the mean log loss is null, while the summed one is zero. -/
theorem log_loss_empty (a : Col ℝ) (p : Col (Val ℝ)) (h : both a p = []) :
    logLoss true a p = none ∧ logLoss false a p = some (.num 0) := by
  unfold logLoss meanV sumV count
  simp only [vals_loss, h]
  simp [neg]

example : logLoss true [some 1, none] [none, some (.num 1)] = none := (log_loss_empty _ _ rfl).1

theorem foldr_both (l : List (Val ℝ)) (h1 : .inf true ∈ l) (h2 : .inf false ∈ l) : l.foldr add (.num 0) = .nan := by
  have key : ∀ l : List (Val ℝ), (.inf true ∈ l → l.foldr add (.num 0) = .inf true ∨ l.foldr add (.num 0) = .nan) ∧
      (.inf false ∈ l → l.foldr add (.num 0) = .inf false ∨ l.foldr add (.num 0) = .nan) := by
    intro l
    induction l with
    | nil => simp
    | cons v l ih =>
      constructor
      · intro h
        rw [List.foldr_cons]
        rcases List.mem_cons.1 h with rfl | h
        · rcases l.foldr add (.num 0) with _ | (_ | _) | _ <;> simp [add]
        · rcases ih.1 h with e | e <;> rw [e] <;> rcases v with _ | (_ | _) | _ <;> simp [add]
      · intro h
        rw [List.foldr_cons]
        rcases List.mem_cons.1 h with rfl | h
        · rcases l.foldr add (.num 0) with _ | (_ | _) | _ <;> simp [add]
        · rcases ih.2 h with e | e <;> rw [e] <;> rcases v with _ | (_ | _) | _ <;> simp [add]
  rcases (key l).1 h1 with e | e
  · rcases (key l).2 h2 with e' | e'
    · rw [e] at e'; simp at e'
    · exact e'
  · exact e

/-- **C171.** `xlogy` is zero whenever its first argument is, infinities included, but NaN is never hidden. -/
theorem xlogy_zero (x : ℝ) (y : Val ℝ) : (x = 0 → y ≠ .nan → xlogy x y = .num 0) ∧ xlogy x .nan = .nan ∧
    ∀ z, 0 < z → xlogy x (.num z) = .num (x * Real.log z) := by
  refine ⟨fun h1 h2 => by rw [xlogy, if_pos ⟨h1, h2⟩], by simp [xlogy, ln, mul], fun z hz => ?_⟩
  unfold xlogy
  split_ifs with h
  · rw [h.1]; simp
  · simp [ln, mul, hz.not_gt, hz.ne']

example : xlogy 0 (.num 0) = .num 0 := (xlogy_zero 0 (.num 0)).1 rfl (by simp)

/-- **C171.** Labels are not checked: with labels coded 1 and 2, a certain prediction of a 2 counts as a gain without
bound, which together with a missed label is NaN. -/
theorem log_loss_labels (a : Col ℝ) (p : Col (Val ℝ)) (x : ℝ) (hx : 1 < x) (h2 : (x, .num 1) ∈ both a p)
    (h1 : (1, .num 0) ∈ both a p) (normalize : Bool) : logLoss normalize a p = some .nan := by
  have hlen : (both a p).length ≠ 0 := by
    simpa using List.ne_nil_of_mem h2
  have t1 : term 1 (.num 0) = .inf false := by
    rw [term_num (Or.inr rfl)]; simp [given]
  have t2 : term x (.num 1) = .inf true := by
    have hx0 : x ≠ 0 := by linarith
    have hx1 : 1 - x ≠ 0 := by linarith
    have hx2 : ¬ (0 < 1 - x) := by linarith
    have hz : ¬ ((1:ℝ) < 0) := by norm_num
    simp [term, xlogy, oneMinus, ln, mul, add, hx0, hx1, hx2, hz]
  have hs : ((both a p).map fun r => term r.1 r.2).foldr add (.num 0) = .nan :=
    foldr_both _ (List.mem_map.2 ⟨_, h2, t2⟩) (List.mem_map.2 ⟨_, h1, t1⟩)
  unfold logLoss meanV sumV count
  simp only [vals_loss, List.length_map]
  rw [if_neg hlen, hs]
  cases normalize <;> rfl

example : logLoss true [some 2, some 1] [some (.num 1), some (.num 0)] = some .nan :=
  log_loss_labels _ _ 2 (by norm_num) (by simp [both]) (by simp [both]) true

theorem vals_mape (a p : Col ℝ) :
    vals (map1 absV (map1 oneMinus (map2 div p a))) = (both a p).map fun r => absV (oneMinus (div r.2 r.1)) := by
  induction a generalizing p with
  | nil => cases p <;> rfl
  | cons x a ih =>
    cases p with
    | nil => rfl
    | cons y p =>
      have := ih p
      cases x <;> cases y <;> simpa [vals, map2, map1, both, opt2] using this

/-- **C171.** The mean absolute percentage error with zeros among the actuals: NaN if some row has actual and
prediction both zero (a perfect prediction), otherwise infinite if an actual is zero, otherwise the mean relative
error. -/
theorem mape_cases (a p : Col ℝ) (hne : both a p ≠ []) :
    ((∃ r ∈ both a p, r.1 = 0 ∧ r.2 = 0) → mape a p = some .nan) ∧
    ((∀ r ∈ both a p, ¬ (r.1 = 0 ∧ r.2 = 0)) → (∃ r ∈ both a p, r.1 = 0) → mape a p = some (.inf true)) ∧
    ((∀ r ∈ both a p, r.1 ≠ 0) → mape a p = some (.num (avg ((both a p).map fun r => |r.1 - r.2| / |r.1|)))) := by
  have hlen : (both a p).length ≠ 0 := by simpa using hne
  have hpos : (0:ℝ) < 1 / ((both a p).length : ℝ) := by
    have : 0 < (both a p).length := Nat.pos_of_ne_zero hlen
    positivity
  have e : mape a p = some (mul (1 / ((both a p).length : ℝ))
      (((both a p).map fun r => absV (oneMinus (div r.2 r.1))).foldr add (.num 0))) := by
    unfold mape meanV sumV count
    simp only [vals_mape, List.length_map]
    rw [if_neg hlen]
  have ht : ∀ x y : ℝ, absV (oneMinus (div y x)) = if x = 0 then (if y = 0 then .nan else .inf true)
      else .num (|x - y| / |x|) := by
    intro x y
    unfold div
    split_ifs with h1 h2
    · rfl
    · rfl
    · simp only [oneMinus, absV]
      rw [← abs_div]; congr 2; field_simp
  obtain ⟨h1, h2, h3⟩ := foldr_add true ((both a p).map fun r => absV (oneMinus (div r.2 r.1))) (by
    intro v hv
    obtain ⟨r, hr, rfl⟩ := List.mem_map.1 hv
    rw [ht]; split_ifs <;> simp)
  refine ⟨?_, ?_, ?_⟩
  · rintro ⟨r, hr, hr1, hr2⟩
    rw [e, h1 (List.mem_map.2 ⟨r, hr, by rw [ht, if_pos hr1, if_pos hr2]⟩)]; rfl
  · rintro hb ⟨r, hr, hr1⟩
    rw [e, h2 ?_ (List.mem_map.2 ⟨r, hr, by rw [ht, if_pos hr1, if_neg fun h => hb r hr ⟨hr1, h⟩]⟩)]
    · simp only [mul, if_neg hpos.ne', decide_eq_true hpos]; rfl
    · intro hm
      obtain ⟨q, hq, hq'⟩ := List.mem_map.1 hm
      rw [ht] at hq'
      split_ifs at hq' with g1 g2
      exact hb q hq ⟨g1, g2⟩
  · intro h0
    rw [e, h3 ((both a p).map fun r => |r.1 - r.2| / |r.1|) (by
      rw [List.map_map]; apply List.map_congr_left; intro r hr
      rw [ht, if_neg (h0 r hr)]; rfl)]
    simp only [mul, avg, List.length_map]
    congr 2; ring

example : mape [some 0, some 2] [some 0, some 2] = some .nan :=
  (mape_cases _ _ (by simp [both])).1 ⟨(0, 0), by simp [both], rfl, rfl⟩

/-- **C171, disagreement.** Predicting everything exactly gives NaN as soon as one of the values is zero. -/
theorem mape_perfect_nan (a : Col ℝ) (h : some 0 ∈ a) : mape a a = some .nan := by
  have hm : ((0:ℝ), (0:ℝ)) ∈ both a a := by
    unfold both
    rw [show a.zip a = a.map fun x => (x, x) by
      simpa using List.zip_map' (l := a) (f := id) (g := id), List.filterMap_map]
    exact List.mem_filterMap.2 ⟨some 0, h, rfl⟩
  exact (mape_cases a a (List.ne_nil_of_mem hm)).1 ⟨_, hm, rfl, rfl⟩

example : mape [some 0, some 2, none] [some 0, some 2, none] = some .nan := mape_perfect_nan _ (by simp)

end Verif.LossEdge
