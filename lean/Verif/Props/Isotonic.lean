import Verif.Lemmas.Isotonic
import Mathlib.Tactic.Positivity

/-!
# Property C23: isotonic regression is the optimal monotone fit
-/

set_option linter.unusedSectionVars false

namespace Verif.Iso
open Verif
variable {K : Type} [Field K] [LinearOrder K] [IsStrictOrderedRing K]

/-- **C23.** For at least two values and positive weights the expression returns a column `f` of the input
length that is monotone in the requested direction, is constant on consecutive blocks with the block's
weighted mean as value, and for every competitor `z` that is monotone in the same direction the weighted
squared error of `f` is below that of `z` by at least the weighted squared distance between the two. -/
theorem isotonic_optimal (y : List K) (ws : Option (List K)) (inc : Bool) (h2 : 2 ≤ y.length)
    (h64 : y.length ≤ 2 ^ 64) (hl : (Spec.weightsOf ws y.length).length = y.length)
    (hp : ∀ v ∈ Spec.weightsOf ws y.length, 0 < v) :
    ∃ f : List K, plIsotonic (y.map some) (ws.map (·.map some)) inc = .ok (f.map some) ∧
      f.length = y.length ∧
      f.Pairwise (fun a b => if inc then a ≤ b else b ≤ a) ∧
      (∃ bs : List (List (K × K)), bs.flatten = y.zip (Spec.weightsOf ws y.length) ∧ [] ∉ bs ∧
        f = bs.flatMap (fun B => List.replicate B.length (Spec.mean B))) ∧
      (∀ z : List K, z.length = y.length → z.Pairwise (fun a b => if inc then a ≤ b else b ≤ a) →
        Spec.cost (y.zip (Spec.weightsOf ws y.length)) f +
          Spec.cost (f.zip (Spec.weightsOf ws y.length)) z ≤
        Spec.cost (y.zip (Spec.weightsOf ws y.length)) z) := by
  set w := Spec.weightsOf ws y.length with hw
  have hwok := weights_ok ws y.length inc hl hp
  rw [← hw] at hwok
  have hmap : (y.map some).mapM id = some y := mapM_id_some y
  have hlen : ¬ (y.map some).length ≤ 1 := by simp; omega
  have e3 : ∀ (f : List K) (w : List K) (d : List (K × K)) (z : List K), d.map (·.2) = w →
      ((((d.zip f).zip z).map fun p => p.1.1.2 * (p.1.2 - p.2) ^ 2).sum) = Spec.cost (f.zip w) z := by
    intro f
    induction f with
    | nil => intro w d z h; simp [Spec.cost]
    | cons a f ih =>
      intro w d z h
      cases d with
      | nil => subst h; simp [Spec.cost]
      | cons p d =>
        cases z with
        | nil => simp [Spec.cost]
        | cons v z =>
          subst h
          have := ih _ d z rfl
          simp only [Spec.cost, List.zip_cons_cons, List.map_cons, List.sum_cons] at this ⊢
          rw [this]
  have hzip2 : ∀ a b : List K, b.length = a.length → (a.zip b).map (·.2) = b := by
    intro a b h
    exact List.map_snd_zip (by omega)
  cases inc with
  | true =>
    obtain ⟨bs, b1, b2, b3, b4⟩ := isotonic_blocks y w hl (by intro h; simp [h] at h2) hp h64
    refine ⟨fitted bs, ?_, ?_, ?_, ⟨bs, b1, fun h => (b2 _ h).ne rfl, rfl⟩, ?_⟩
    · simp only [plIsotonic, if_neg hlen, hmap, hwok, if_true, b4]
    · rw [fitted_length, b1, List.length_zip]; omega
    · simpa using fitted_sorted bs b3
    · intro z hz hs
      have := cost_ge bs b2 z (by rw [b1, List.length_zip]; omega) (by simpa using hs)
      rwa [b1, e3 _ w _ _ (hzip2 _ _ hl)] at this
  | false =>
    obtain ⟨bs, b1, b2, b3, b4⟩ := isotonic_blocks y.reverse w.reverse (by simpa using hl)
      (by intro h; simp at h; simp [h] at h2) (by simpa using hp) (by simpa using h64)
    have hrz : y.reverse.zip w.reverse = (y.zip w).reverse := zip_rev _ _ hl.symm
    have hfl : (fitted bs).length = y.length := by
      rw [fitted_length, b1, List.length_zip]; simp; omega
    refine ⟨(fitted bs).reverse, ?_, by simpa using hfl, ?_, ⟨(bs.map List.reverse).reverse, ?_, ?_, ?_⟩, ?_⟩
    · simp only [plIsotonic, if_neg hlen, hmap, hwok, Bool.false_eq_true, if_false, b4]
    · rw [List.pairwise_reverse]
      simpa using fitted_sorted bs b3
    · rw [← List.reverse_flatten, b1, hrz, List.reverse_reverse]
    · intro h
      rw [List.mem_reverse, List.mem_map] at h
      obtain ⟨B, hB, h⟩ := h
      exact (b2 B hB).ne (by simpa using h)
    · rw [fitted, List.reverse_flatMap, ← List.map_reverse, List.flatMap_map]
      congr 1
      funext B
      simp [Spec.mean, List.map_reverse, List.sum_reverse]
    · intro z hz hs
      have := cost_ge bs b2 z.reverse (by rw [b1, List.length_zip]; simp; omega)
        (by rw [List.pairwise_reverse]; simpa using hs)
      rw [b1, e3 _ w.reverse _ _ (hzip2 _ _ (by simpa using hl)), hrz] at this
      have l1 : (y.zip w).length = y.length := by rw [List.length_zip]; omega
      rw [cost_rev _ _ (by omega)] at this
      have r1 := cost_rev (y.zip w) (fitted bs).reverse (by rw [List.length_reverse]; omega)
      rw [List.reverse_reverse] at r1
      have l2 : ((fitted bs).reverse.zip w).length = z.length := by
        rw [List.length_zip, List.length_reverse]; omega
      have r2 := cost_rev ((fitted bs).reverse.zip w) z l2
      rw [← zip_rev _ _ (by rw [List.length_reverse]; omega), List.reverse_reverse] at r2
      rwa [r1, r2] at this

/-- **C23**, uniqueness: a monotone column that is as good as the answer is the answer. -/
theorem isotonic_unique (y : List K) (ws : Option (List K)) (inc : Bool) (h2 : 2 ≤ y.length)
    (h64 : y.length ≤ 2 ^ 64) (hl : (Spec.weightsOf ws y.length).length = y.length)
    (hp : ∀ v ∈ Spec.weightsOf ws y.length, 0 < v) (z : List K) (hz : z.length = y.length)
    (hs : z.Pairwise (fun a b => if inc then a ≤ b else b ≤ a))
    (hbest : ∀ z' : List K, z'.length = y.length →
      z'.Pairwise (fun a b => if inc then a ≤ b else b ≤ a) →
      Spec.cost (y.zip (Spec.weightsOf ws y.length)) z ≤
        Spec.cost (y.zip (Spec.weightsOf ws y.length)) z') :
    plIsotonic (y.map some) (ws.map (·.map some)) inc = .ok (z.map some) := by
  obtain ⟨f, f1, f2, f3, -, f5⟩ := isotonic_optimal y ws inc h2 h64 hl hp
  have a := f5 z hz hs
  have b := hbest f f2 f3
  have h0 : Spec.cost (f.zip (Spec.weightsOf ws y.length)) z ≤ 0 := by linarith
  have key : ∀ (f w z : List K), f.length = z.length → w.length = z.length → (∀ v ∈ w, 0 < v) →
      Spec.cost (f.zip w) z ≤ 0 → f = z := by
    intro f
    induction f with
    | nil => intro w z h _ _ _; exact (List.length_eq_zero_iff.1 h.symm).symm
    | cons c f ih =>
      intro w z h hw hp hc
      cases z with
      | nil => simp at h
      | cons v z =>
        cases w with
        | nil => simp at hw
        | cons u w =>
          have hu := hp u (by simp)
          have hnn : 0 ≤ Spec.cost (f.zip w) z := by
            apply List.sum_nonneg
            intro t ht
            obtain ⟨p, hp', rfl⟩ := List.mem_map.1 ht
            have h1 := (List.of_mem_zip (a := p.1) (b := p.2) hp').1
            have h2 := (List.of_mem_zip (a := p.1.1) (b := p.1.2) h1).2
            have := hp p.1.2 (by simp [h2])
            positivity
          have hsq : 0 ≤ u * (c - v) ^ 2 := by positivity
          simp only [Spec.cost, List.zip_cons_cons, List.map_cons, List.sum_cons] at hc hnn
          have e1 : u * (c - v) ^ 2 = 0 := by linarith
          have e2 : c = v := by
            rcases mul_eq_zero.1 e1 with e | e
            · exact absurd e hu.ne'
            · exact sub_eq_zero.1 (pow_eq_zero_iff (two_ne_zero) |>.1 e)
          rw [e2, ih w z (by simpa using h) (by simpa using hw) (fun v hv => hp v (by simp [hv]))
            (by simp only [Spec.cost]; linarith)]
  rw [f1, key f _ z (by omega) (by omega) hp h0]

/-- **C23**, the other branches: a column of at most one row comes back as is; otherwise a null in the data,
weights of another length, a null weight or a weight `≤ 0` is an error (never a crash). -/
theorem isotonic_rejects (y : List (Option K)) (ws : Option (List (Option K))) (inc : Bool) :
    (y.length ≤ 1 → plIsotonic y ws inc = .ok y) ∧
    (2 ≤ y.length → (none ∈ y ∨ ∃ w, ws = some w ∧ (w.length ≠ y.length ∨ none ∈ w ∨
        ∃ v, some v ∈ w ∧ v ≤ 0)) →
      ∃ e, plIsotonic y ws inc = .err e) := by
  have hnone : ∀ l : List (Option K), none ∈ l → l.mapM id = none := by
    intro l
    induction l with
    | nil => simp
    | cons a l ih =>
      intro h
      cases a with
      | none => simp
      | some a =>
        have := ih (by simpa using h)
        simp [this]
  have hsome : ∀ (l : List (Option K)) (k : List K), l.mapM id = some k → l = k.map some := by
    intro l
    induction l with
    | nil => intro k h; simp at h; subst h; rfl
    | cons a l ih =>
      intro k h
      cases a with
      | none => simp at h
      | some a =>
        simp only [List.mapM_cons, id, Option.bind_eq_bind, Option.bind_some] at h
        cases hm : l.mapM id with
        | none => simp [hm] at h
        | some k' =>
          simp only [hm, Option.bind_some] at h
          have : a :: k' = k := by simpa using h
          rw [← this, List.map_cons, ← ih k' hm]
  refine ⟨fun h => by simp [plIsotonic, h], fun h2 h => ?_⟩
  have hl : ¬ y.length ≤ 1 := by omega
  unfold plIsotonic
  rw [if_neg hl]
  cases hm : y.mapM id with
  | none => exact ⟨_, rfl⟩
  | some y' =>
    have hy := hsome y y' hm
    rcases h with h | ⟨w, rfl, h⟩
    · rw [hnone y h] at hm; cases hm
    · have hyl : y.length = y'.length := by rw [hy]; simp
      have : ∃ e, weights (some w) y'.length inc = .error e := by
        unfold weights
        by_cases h1 : w.length ≠ y'.length
        · exact ⟨"Weights should not contain nulls and must be the same length as y.", by simp [h1]⟩
        · rw [hyl] at h
          simp only [if_neg h1]
          cases hw : w.mapM id with
          | none => exact ⟨_, rfl⟩
          | some w' =>
            rcases h with h | h | ⟨v, hv, h0⟩
            · exact absurd h h1
            · rw [hnone w h] at hw; cases hw
            · rw [hsome w w' hw] at hv
              have hv' : v ∈ w' := by simpa using hv
              refine ⟨"Weight should not contain negative values.", ?_⟩
              have : w'.any (fun x => decide (x ≤ 0)) = true := List.any_eq_true.2 ⟨v, hv', by simpa using h0⟩
              simp [this]
      obtain ⟨e, he⟩ := this
      exact ⟨e, by simp [he]⟩

/-- A cascade: the last value pulls everything into one block. -/
example : plIsotonic ([1, 3, 2, 4, 0].map some : List (Option ℚ)) none true =
    .ok ([1, 9/4, 9/4, 9/4, 9/4].map some) := by decide +kernel

/-- Decreasing fit with weights. -/
example : plIsotonic ([1, 3, 2].map some : List (Option ℚ)) (some ([1, 1, 3].map some)) false =
    .ok ([2, 2, 2].map some) := by decide +kernel

/-- The hypotheses of the theorems are met by weighted data, and the competitor `[3, 2, 2]` is strictly worse. -/
example : ∃ f : List ℚ, plIsotonic ([1, 3, 2].map some) (some ([1, 1, 3].map some)) false = .ok (f.map some) ∧
    Spec.cost ([1, 3, 2].zip [1, 1, 3]) f < Spec.cost ([1, 3, 2].zip [1, 1, 3]) [3, 2, 2] := by
  obtain ⟨f, f1, f2, f3, -, f5⟩ := isotonic_optimal ([1, 3, 2] : List ℚ) (some [1, 1, 3]) false
    (by decide) (by simp) rfl (by decide +kernel)
  exact ⟨[2, 2, 2], by decide +kernel, by decide +kernel⟩

/-- A null and a zero weight are both refused. -/
example : plIsotonic [some (1 : ℚ), none] none true = .err "Input should not contain nulls." ∧
    plIsotonic [some (1 : ℚ), some 2] (some [some 1, some 0]) true =
      .err "Weight should not contain negative values." := by decide +kernel

end Verif.Iso
