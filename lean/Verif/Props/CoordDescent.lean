import Verif.Lemmas.CoordDescent
import Verif.Props.Online

/-!
# Coordinate descent: theorems
-/
set_option linter.unusedSectionVars false

namespace Verif.CD
open Verif.LinReg Verif.LinReg.Spec Verif.CD.Spec Verif.Online
variable {K : Type} [Field K] [LinearOrder K] [IsStrictOrderedRing K] {d : Nat}

/-- Penalties used by the code. -/
def a1 (rows : List ((Fin d → K) × K)) (l1 : K) (n1 : Nat) : Fin d → K := pen ((rows.length : K) * l1) n1

theorem coord_fst (rows : List ((Fin d → K) × K)) (l1 l2 : K) (n1 : Nat) (st : (Fin d → K) × K) (j : Fin d)
    (hj : j.val < n1) :
    (coord rows l1 l2 st j).1 = Function.update st.1 j (softThreshold
      (xty rows j - ∑ k, xtx rows j k * Function.update st.1 j 0 k) (a1 rows l1 n1 j) /
        ((rows.map fun r => r.1 j * r.1 j).sum + a1 rows l2 n1 j)) := by
  have h1 : ∀ l : K, a1 rows l n1 j = (rows.length : K) * l := by
    intro l; simp [a1, pen, hj]
  rw [h1, h1]
  rfl

/-- The generic facts about one coordinate update. -/
theorem coord_stationary (rows : List ((Fin d → K) × K)) (l1 l2 : K) (h1 : 0 ≤ l1) (n1 : Nat) (st : (Fin d → K) × K)
    (j : Fin d) (hj : j.val < n1) (hN : 0 < norm rows l2 j) :
    Stationary rows (a1 rows l1 n1) (a1 rows l2 n1) (coord rows l1 l2 st j).1 j := by
  rw [coord_fst rows l1 l2 n1 st j hj]
  apply stationary_update
  · simp only [a1, pen, hj, if_true]
    exact mul_nonneg (Nat.cast_nonneg _) h1
  · simpa [a1, pen, hj, norm] using hN

theorem coord_min_generic (rows : List ((Fin d → K) × K)) (l1 l2 : K) (h1 : 0 ≤ l1) (n1 : Nat)
    (st : (Fin d → K) × K) (j : Fin d) (hj : j.val < n1) (hN : 0 < norm rows l2 j) (t : K) :
    gobj rows (a1 rows l1 n1) (a1 rows l2 n1) (coord rows l1 l2 st j).1 +
        norm rows l2 j / 2 * (t - (coord rows l1 l2 st j).1 j) ^ 2 ≤
      gobj rows (a1 rows l1 n1) (a1 rows l2 n1) (Function.update st.1 j t) := by
  have := coord_optimal rows _ _ _ j (coord_stationary rows l1 l2 h1 n1 st j hj hN) t
  have e : Function.update (coord rows l1 l2 st j).1 j t = Function.update st.1 j t := by
    rw [coord_fst rows l1 l2 n1 st j hj, Function.update_idem]
  rw [e] at this
  have hn : (rows.map fun r => r.1 j * r.1 j).sum + a1 rows l2 n1 j = norm rows l2 j := by
    simp [a1, pen, hj, norm]
  rwa [hn] at this

theorem fold_generic (rows : List ((Fin d → K) × K)) (l1 l2 : K) (h1 : 0 ≤ l1) (n1 : Nat) (L : List (Fin d))
    (hL : ∀ j ∈ L, j.val < n1 ∧ 0 < norm rows l2 j) : ∀ st : (Fin d → K) × K,
    gobj rows (a1 rows l1 n1) (a1 rows l2 n1) (L.foldl (coord rows l1 l2) st).1 ≤
      gobj rows (a1 rows l1 n1) (a1 rows l2 n1) st.1 ∧
    (gobj rows (a1 rows l1 n1) (a1 rows l2 n1) (L.foldl (coord rows l1 l2) st).1 =
      gobj rows (a1 rows l1 n1) (a1 rows l2 n1) st.1 →
      (L.foldl (coord rows l1 l2) st).1 = st.1 ∧
      ∀ j ∈ L, Stationary rows (a1 rows l1 n1) (a1 rows l2 n1) st.1 j) := by
  induction L with
  | nil => intro st; simp
  | cons j L ih =>
    intro st
    obtain ⟨hj, hN⟩ := hL j (by simp)
    have hm := coord_min_generic rows l1 l2 h1 n1 st j hj hN (st.1 j)
    rw [Function.update_eq_self] at hm
    have hi := ih (fun x hx => hL x (by simp [hx])) (coord rows l1 l2 st j)
    rw [List.foldl_cons]
    have hsq : 0 ≤ norm rows l2 j / 2 * (st.1 j - (coord rows l1 l2 st j).1 j) ^ 2 :=
      mul_nonneg (div_nonneg hN.le zero_le_two) (sq_nonneg _)
    refine ⟨by linarith [hi.1], fun heq => ?_⟩
    have hz : norm rows l2 j / 2 * (st.1 j - (coord rows l1 l2 st j).1 j) ^ 2 = 0 := by
      linarith [hi.1]
    have hz' : st.1 j = (coord rows l1 l2 st j).1 j := by
      rcases mul_eq_zero.1 hz with h | h
      · exact absurd h (div_ne_zero hN.ne' two_ne_zero)
      · exact sub_eq_zero.1 (pow_eq_zero_iff (two_ne_zero) |>.1 h)
    have hsame : (coord rows l1 l2 st j).1 = st.1 := by
      rw [coord_fst rows l1 l2 n1 st j hj] at hz' ⊢
      rw [Function.update_self] at hz'
      rw [← hz', Function.update_eq_self]
    have h2 := hi.2 (by linarith [hi.1])
    refine ⟨h2.1.trans hsame, ?_⟩
    intro x hx
    rcases List.mem_cons.1 hx with rfl | hx
    · have := coord_stationary rows l1 l2 h1 n1 st x hj hN
      rwa [hsame] at this
    · have := h2.2 x hx
      rwa [hsame] at this

/-! ## Without bias -/

theorem gobj_elastic (rows : List ((Fin d → K) × K)) (l1 l2 : K) (b : Fin d → K) :
    gobj rows (a1 rows l1 d) (a1 rows l2 d) b = elastic rows l1 l2 b := by
  unfold gobj elastic a1 pen
  rw [Finset.mul_sum, Finset.mul_sum]
  simp

/-- A coordinate update exactly minimises the elastic net objective in that coordinate, and any other value of
the coordinate is strictly worse. -/
theorem cd_coord_min (rows : List ((Fin d → K) × K)) (l1 l2 : K) (h1 : 0 ≤ l1) (b : Fin d → K) (mc : K) (j : Fin d)
    (hN : 0 < norm rows l2 j) (t : K) :
    elastic rows l1 l2 (coord rows l1 l2 (b, mc) j).1 ≤ elastic rows l1 l2 (Function.update b j t) ∧
    (elastic rows l1 l2 (Function.update b j t) = elastic rows l1 l2 (coord rows l1 l2 (b, mc) j).1 →
      Function.update b j t = (coord rows l1 l2 (b, mc) j).1) := by
  have := coord_min_generic rows l1 l2 h1 d (b, mc) j j.2 hN t
  simp only [gobj_elastic] at this
  have hsq : 0 ≤ norm rows l2 j / 2 * (t - (coord rows l1 l2 (b, mc) j).1 j) ^ 2 :=
    mul_nonneg (div_nonneg hN.le zero_le_two) (sq_nonneg _)
  refine ⟨by linarith, fun he => ?_⟩
  have hz : norm rows l2 j / 2 * (t - (coord rows l1 l2 (b, mc) j).1 j) ^ 2 = 0 := by linarith
  have hz' : t = (coord rows l1 l2 (b, mc) j).1 j := by
    rcases mul_eq_zero.1 hz with h | h
    · exact absurd h (div_ne_zero hN.ne' two_ne_zero)
    · exact sub_eq_zero.1 (pow_eq_zero_iff (two_ne_zero) |>.1 h)
  rw [coord_fst rows l1 l2 d (b, mc) j j.2] at hz' ⊢
  rw [Function.update_self] at hz'
  rw [← hz']

theorem mem_coords_false (j : Fin d) : j ∈ coords d false := by
  unfold coords
  simp [absDiff]

theorem sweep_false (rows : List ((Fin d → K) × K)) (l1 l2 : K) (b : Fin d → K) :
    sweep rows l1 l2 false b = (coords d false).foldl (coord rows l1 l2) (b, 0) := by
  unfold sweep biasStep
  simp

/-- A sweep never increases the objective. -/
theorem cd_sweep_le (rows : List ((Fin d → K) × K)) (l1 l2 : K) (h1 : 0 ≤ l1) (hN : ∀ j, 0 < norm rows l2 j)
    (b : Fin d → K) : elastic rows l1 l2 (sweep rows l1 l2 false b).1 ≤ elastic rows l1 l2 b := by
  rw [sweep_false, ← gobj_elastic, ← gobj_elastic]
  exact (fold_generic rows l1 l2 h1 d (coords d false) (fun j _ => ⟨j.2, hN j⟩) (b, 0)).1

/-- No number of iterations increases the objective. -/
theorem cd_loop_le (rows : List ((Fin d → K) × K)) (l1 l2 : K) (h1 : 0 ≤ l1) (hN : ∀ j, 0 < norm rows l2 j)
    (tol : K) (k : Nat) : ∀ b : Fin d → K,
    elastic rows l1 l2 (loop rows l1 l2 false tol k b) ≤ elastic rows l1 l2 b := by
  induction k with
  | zero => intro b; exact le_refl _
  | succ k ih =>
    intro b
    rw [loop]
    have := cd_sweep_le rows l1 l2 h1 hN b
    split
    · exact this
    · exact (ih _).trans this

/-- The result is at least as good as the zero vector, and more iterations are never worse. -/
theorem cd_result_le (rows : List ((Fin d → K) × K)) (l1 l2 : K) (h1 : 0 ≤ l1) (hN : ∀ j, 0 < norm rows l2 j)
    (tol : K) (k : Nat) :
    elastic rows l1 l2 (coordinateDescent rows l1 l2 false tol (k + 1)) ≤
      elastic rows l1 l2 (coordinateDescent rows l1 l2 false tol k) := by
  unfold coordinateDescent
  generalize (0 : Fin d → K) = b
  induction k generalizing b with
  | zero => exact cd_loop_le rows l1 l2 h1 hN tol 1 b
  | succ k ih =>
    by_cases h : (sweep rows l1 l2 false b).2 < tol
    · have e : ∀ n, loop rows l1 l2 false tol (n + 1) b = (sweep rows l1 l2 false b).1 := by
        intro n; rw [loop, if_pos h]
      rw [e, e]
    · have e : ∀ n, loop rows l1 l2 false tol (n + 1) b =
          loop rows l1 l2 false tol n (sweep rows l1 l2 false b).1 := by
        intro n; rw [loop, if_neg h]
      rw [e, e]
      exact ih _

/-- A sweep changes nothing exactly at the global minima of the objective. -/
theorem cd_fixed_iff (rows : List ((Fin d → K) × K)) (l1 l2 : K) (h1 : 0 ≤ l1) (h2 : 0 ≤ l2)
    (hN : ∀ j, 0 < norm rows l2 j) (b : Fin d → K) :
    (sweep rows l1 l2 false b).1 = b ↔ ∀ c, elastic rows l1 l2 b ≤ elastic rows l1 l2 c := by
  have hf := fold_generic rows l1 l2 h1 d (coords d false) (fun j _ => ⟨j.2, hN j⟩) (b, 0)
  rw [sweep_false]
  simp only at hf
  constructor
  · intro h c
    rw [h] at hf
    have hst := (hf.2 rfl).2
    rw [← gobj_elastic, ← gobj_elastic]
    apply global_optimal
    · intro j
      simp only [a1, pen, j.2, if_true]
      exact mul_nonneg (Nat.cast_nonneg _) h2
    · intro j
      exact hst j (mem_coords_false j)
  · intro h
    apply (hf.2 _).1
    apply le_antisymm hf.1
    rw [gobj_elastic, gobj_elastic]
    exact h _

/-! ## With bias -/

theorem norm_bias (rows : List ((Fin d → K) × K)) :
    ((rows.map rowOne).map fun r => r.1 (Fin.last d) * r.1 (Fin.last d)).sum = (rows.length : K) := by
  rw [List.map_map]
  simp [Function.comp_def, rowOne]

theorem soft_zero (z : K) : softThreshold z 0 = z := by
  unfold softThreshold
  rw [sub_zero, max_eq_left (abs_nonneg z)]
  split
  · rename_i h; rw [abs_of_nonneg h, one_mul]
  · rename_i h; rw [abs_of_neg (not_le.1 h)]; ring

theorem biasStep_eq (rows : List ((Fin d → K) × K)) (b : Fin (d + 1) → K) :
    biasStep (rows.map rowOne) true b = Function.update b (Fin.last d) (softThreshold
      (xty (rows.map rowOne) (Fin.last d) - ∑ k, xtx (rows.map rowOne) (Fin.last d) k *
        Function.update b (Fin.last d) 0 k) 0 /
      (((rows.map rowOne).map fun r => r.1 (Fin.last d) * r.1 (Fin.last d)).sum + 0)) := by
  unfold biasStep
  have hn : absDiff (d + 1) true.toNat = d := absDiff_one
  simp only [hn]
  rw [dif_pos ⟨trivial, by omega⟩, soft_zero, add_zero, norm_bias, List.length_map]
  have hl : (⟨d, by omega⟩ : Fin (d + 1)) = Fin.last d := rfl
  rw [hl]
  congr 2
  unfold xty xtx
  simp only [List.map_map]
  induction rows with
  | nil => simp
  | cons r rows ih =>
    simp only [List.map_cons, List.sum_cons] at ih ⊢
    rw [ih]
    have h1 : (rowOne r).1 (Fin.last d) = 1 := by simp [rowOne]
    simp only [Function.comp_def, h1, one_mul, add_mul, Finset.sum_add_distrib]
    have h2 : ∑ k : Fin (d + 1), (if k.val < d then (rowOne r).1 k * b k else 0) =
        ∑ k : Fin (d + 1), (rowOne r).1 k * Function.update b (Fin.last d) 0 k := by
      apply Finset.sum_congr rfl
      intro k _
      by_cases hk : k.val < d
      · have : k ≠ Fin.last d := by intro h; rw [h] at hk; simp at hk
        simp [hk, this]
      · have : k = Fin.last d := by
          apply Fin.ext
          have := k.2
          simp only [Fin.val_last]
          omega
        simp [this]
    rw [h2]
    ring

theorem biasStep_stationary (rows : List ((Fin d → K) × K)) (hne : rows ≠ []) (l1 l2 : K) (b : Fin (d + 1) → K) :
    Stationary (rows.map rowOne) (a1 (rows.map rowOne) l1 d) (a1 (rows.map rowOne) l2 d)
      (biasStep (rows.map rowOne) true b) (Fin.last d) := by
  have h0 : ∀ l : K, a1 (rows.map rowOne) l d (Fin.last d) = 0 := by intro l; simp [a1, pen]
  have hp : 0 < (rows.length : K) := Nat.cast_pos.2 (List.length_pos_iff.2 hne)
  have := stationary_update (rows.map rowOne) (a1 (rows.map rowOne) l1 d) (a1 (rows.map rowOne) l2 d) b (Fin.last d)
    (by rw [h0]) (by rw [h0, norm_bias, add_zero]; exact hp)
  rw [h0, h0] at this
  rw [biasStep_eq]
  exact this

theorem gobj_elasticBias (rows : List ((Fin d → K) × K)) (l1 l2 : K) (b : Fin (d + 1) → K) :
    gobj (rows.map rowOne) (a1 (rows.map rowOne) l1 d) (a1 (rows.map rowOne) l2 d) b =
      elasticBias rows l1 l2 (fun i => b i.castSucc) (b (Fin.last d)) := by
  have hs : sse (rows.map rowOne) b = (rows.map fun r => (r.2 - (dot r.1 (fun i => b i.castSucc) + b (Fin.last d))) ^ 2).sum := by
    unfold sse
    rw [List.map_map]
    congr 1
    apply List.map_congr_left
    intro r _
    simp only [Function.comp_def]
    rw [show (rowOne r).1 = Fin.snoc r.1 1 from rfl]
    conv_lhs => rw [snoc_split b]
    rw [dot_snoc]
    rfl
  unfold gobj elasticBias a1 pen
  rw [hs, Fin.sum_univ_castSucc, Fin.sum_univ_castSucc, Finset.mul_sum, Finset.mul_sum]
  simp

theorem mem_coords_true (j : Fin d) : j.castSucc ∈ coords (d + 1) true := by
  unfold coords
  rw [List.mem_filter]
  simp [absDiff]

theorem lt_of_mem_coords (j : Fin (d + 1)) (h : j ∈ coords (d + 1) true) : j.val < d := by
  unfold coords at h
  rw [List.mem_filter] at h
  simpa [absDiff] using h.2

/-- With a bias the intercept update is the exact minimiser over the intercept. -/
theorem cd_bias_min (rows : List ((Fin d → K) × K)) (hne : rows ≠ []) (l1 l2 : K) (b : Fin (d + 1) → K) (t : K) :
    elasticBias rows l1 l2 (fun i => b i.castSucc) (biasStep (rows.map rowOne) true b (Fin.last d)) ≤
      elasticBias rows l1 l2 (fun i => b i.castSucc) t := by
  have := coord_optimal _ _ _ _ _ (biasStep_stationary rows hne l1 l2 b) t
  have h0 : a1 (rows.map rowOne) l2 d (Fin.last d) = 0 := by simp [a1, pen]
  have e : Function.update (biasStep (rows.map rowOne) true b) (Fin.last d) t = Function.update b (Fin.last d) t := by
    rw [biasStep_eq, Function.update_idem]
  rw [e, h0, norm_bias, gobj_elasticBias, gobj_elasticBias] at this
  have hp : (0 : K) ≤ (rows.length : K) := Nat.cast_nonneg _
  have e1 : (fun i : Fin d => Function.update b (Fin.last d) t i.castSucc) = fun i => b i.castSucc := by
    funext i
    rw [Function.update_of_ne (Fin.castSucc_lt_last i).ne]
  have e2 : (fun i : Fin d => biasStep (rows.map rowOne) true b i.castSucc) = fun i => b i.castSucc := by
    funext i
    rw [biasStep_eq, Function.update_of_ne (Fin.castSucc_lt_last i).ne]
  rw [e1, e2, Function.update_self] at this
  have hsq : 0 ≤ ((rows.length : K) + 0) / 2 * (t - biasStep (rows.map rowOne) true b (Fin.last d)) ^ 2 :=
    mul_nonneg (div_nonneg (by simp) zero_le_two) (sq_nonneg _)
  linarith

theorem sweep_true (rows : List ((Fin d → K) × K)) (l1 l2 : K) (b : Fin (d + 1) → K) :
    (sweep (rows.map rowOne) l1 l2 true b).1 =
      biasStep (rows.map rowOne) true ((coords (d + 1) true).foldl (coord (rows.map rowOne) l1 l2) (b, 0)).1 := rfl

theorem bias_generic (rows : List ((Fin d → K) × K)) (hne : rows ≠ []) (l1 l2 : K) (b : Fin (d + 1) → K) :
    gobj (rows.map rowOne) (a1 (rows.map rowOne) l1 d) (a1 (rows.map rowOne) l2 d) (biasStep (rows.map rowOne) true b) ≤
      gobj (rows.map rowOne) (a1 (rows.map rowOne) l1 d) (a1 (rows.map rowOne) l2 d) b ∧
    (gobj (rows.map rowOne) (a1 (rows.map rowOne) l1 d) (a1 (rows.map rowOne) l2 d) (biasStep (rows.map rowOne) true b) =
      gobj (rows.map rowOne) (a1 (rows.map rowOne) l1 d) (a1 (rows.map rowOne) l2 d) b →
      biasStep (rows.map rowOne) true b = b) := by
  have := coord_optimal _ _ _ _ _ (biasStep_stationary rows hne l1 l2 b) (b (Fin.last d))
  have h0 : a1 (rows.map rowOne) l2 d (Fin.last d) = 0 := by simp [a1, pen]
  have e : Function.update (biasStep (rows.map rowOne) true b) (Fin.last d) (b (Fin.last d)) = b := by
    rw [biasStep_eq, Function.update_idem, Function.update_eq_self]
  have hp : 0 < (rows.length : K) := Nat.cast_pos.2 (List.length_pos_iff.2 hne)
  rw [e, h0, norm_bias, add_zero] at this
  have hsq : 0 ≤ (rows.length : K) / 2 * (b (Fin.last d) - biasStep (rows.map rowOne) true b (Fin.last d)) ^ 2 :=
    mul_nonneg (div_nonneg hp.le zero_le_two) (sq_nonneg _)
  refine ⟨by linarith, fun heq => ?_⟩
  have hz : (rows.length : K) / 2 * (b (Fin.last d) - biasStep (rows.map rowOne) true b (Fin.last d)) ^ 2 = 0 := by
    linarith
  have hz' : b (Fin.last d) = biasStep (rows.map rowOne) true b (Fin.last d) := by
    rcases mul_eq_zero.1 hz with h | h
    · exact absurd h (div_ne_zero hp.ne' two_ne_zero)
    · exact sub_eq_zero.1 (pow_eq_zero_iff (two_ne_zero) |>.1 h)
  rw [biasStep_eq] at hz' ⊢
  rw [Function.update_self] at hz'
  rw [← hz', Function.update_eq_self]

/-- With a bias: a sweep never increases the objective, and changes nothing exactly at its global minima. -/
theorem cd_bias_sweep (rows : List ((Fin d → K) × K)) (hne : rows ≠ []) (l1 l2 : K) (h1 : 0 ≤ l1) (h2 : 0 ≤ l2)
    (hN : ∀ j : Fin d, 0 < norm (rows.map rowOne) l2 j.castSucc) (b : Fin (d + 1) → K) :
    (let s := (sweep (rows.map rowOne) l1 l2 true b).1
     elasticBias rows l1 l2 (fun i => s i.castSucc) (s (Fin.last d)) ≤
      elasticBias rows l1 l2 (fun i => b i.castSucc) (b (Fin.last d))) ∧
    ((sweep (rows.map rowOne) l1 l2 true b).1 = b ↔
      ∀ c e, elasticBias rows l1 l2 (fun i => b i.castSucc) (b (Fin.last d)) ≤ elasticBias rows l1 l2 c e) := by
  have hc : ∀ j ∈ coords (d + 1) true, j.val < d ∧ 0 < norm (rows.map rowOne) l2 j := by
    intro j hj
    have hlt := lt_of_mem_coords j hj
    refine ⟨hlt, ?_⟩
    have := hN ⟨j.val, hlt⟩
    exact this
  have hf := fold_generic (rows.map rowOne) l1 l2 h1 d (coords (d + 1) true) hc (b, 0)
  simp only at hf
  have hb := bias_generic rows hne l1 l2 ((coords (d + 1) true).foldl (coord (rows.map rowOne) l1 l2) (b, 0)).1
  rw [← sweep_true] at hb
  have hle := hb.1.trans hf.1
  constructor
  · simp only
    rw [← gobj_elasticBias, ← gobj_elasticBias]
    exact hle
  constructor
  · intro hfix c e
    have heq : gobj (rows.map rowOne) (a1 (rows.map rowOne) l1 d) (a1 (rows.map rowOne) l2 d)
        (sweep (rows.map rowOne) l1 l2 true b).1 =
        gobj (rows.map rowOne) (a1 (rows.map rowOne) l1 d) (a1 (rows.map rowOne) l2 d) b := by rw [hfix]
    have h3 := hf.2 (le_antisymm hf.1 (by rw [← heq]; exact hb.1))
    have hbs := biasStep_stationary rows hne l1 l2 ((coords (d + 1) true).foldl (coord (rows.map rowOne) l1 l2) (b, 0)).1
    rw [← sweep_true, hfix] at hbs
    have hg := global_optimal (rows.map rowOne) (a1 (rows.map rowOne) l1 d) (a1 (rows.map rowOne) l2 d) b
      (by
        intro j
        unfold a1 pen
        split
        · exact mul_nonneg (Nat.cast_nonneg _) h2
        · exact le_refl _)
      (by
        intro j
        refine Fin.lastCases hbs (fun i => ?_) j
        exact h3.2 _ (mem_coords_true i))
      (Fin.snoc c e)
    rw [gobj_elasticBias, gobj_elasticBias] at hg
    simpa using hg
  · intro hmin
    have hge : gobj (rows.map rowOne) (a1 (rows.map rowOne) l1 d) (a1 (rows.map rowOne) l2 d) b ≤
        gobj (rows.map rowOne) (a1 (rows.map rowOne) l1 d) (a1 (rows.map rowOne) l2 d)
          (sweep (rows.map rowOne) l1 l2 true b).1 := by
      rw [gobj_elasticBias, gobj_elasticBias]
      exact hmin _ _
    have h3 := hf.2 (le_antisymm hf.1 (hge.trans hb.1))
    have h4 := hb.2 (le_antisymm hb.1 (hf.1.trans hge))
    exact h4.trans h3.1

/-! ## How good the result is when the loop stops -/

theorem grad_diff (rows : List ((Fin d → K) × K)) (b c : Fin d → K) (j : Fin d) :
    grad rows b j - grad rows c j = ∑ k, xtx rows j k * (c k - b k) := by
  unfold grad xtx
  induction rows with
  | nil => simp
  | cons r rows ih =>
    simp only [List.map_cons, List.sum_cons, add_mul, Finset.sum_add_distrib]
    rw [← ih]
    have : ∑ k, r.1 j * r.1 k * (c k - b k) = r.1 j * (dot r.1 c - dot r.1 b) := by
      rw [← dot_sub]
      unfold dot
      rw [Finset.mul_sum]
      apply Finset.sum_congr rfl
      intro k _
      simp only [Pi.sub_apply]
      ring
    rw [this]
    ring

theorem fold_near (rows : List ((Fin d → K) × K)) (l1 l2 : K) (h1 : 0 ≤ l1) (L : List (Fin d)) (hnd : L.Nodup)
    (hN : ∀ j, 0 < norm rows l2 j) : ∀ st : (Fin d → K) × K, 0 ≤ st.2 →
    st.2 ≤ (L.foldl (coord rows l1 l2) st).2 ∧
    (∀ k, k ∉ L → (L.foldl (coord rows l1 l2) st).1 k = st.1 k) ∧
    (∀ k, |(L.foldl (coord rows l1 l2) st).1 k - st.1 k| ≤ (L.foldl (coord rows l1 l2) st).2) ∧
    ∀ j ∈ L, ∃ c : Fin d → K, Stationary rows (a1 rows l1 d) (a1 rows l2 d) c j ∧
      c j = (L.foldl (coord rows l1 l2) st).1 j ∧
      ∀ k, |(L.foldl (coord rows l1 l2) st).1 k - c k| ≤ (L.foldl (coord rows l1 l2) st).2 := by
  induction L with
  | nil => intro st h; simp [h]
  | cons j L ih =>
    intro st h0
    rw [List.foldl_cons]
    rw [List.nodup_cons] at hnd
    set s1 := coord rows l1 l2 st j with hs1
    have hm : st.2 ≤ s1.2 := le_max_right _ _
    have hsj : |s1.1 j - st.1 j| ≤ s1.2 := by
      have : s1.2 = max |s1.1 j - st.1 j| st.2 := by
        rw [hs1]; unfold coord; simp
      rw [this]; exact le_max_left _ _
    have hsk : ∀ k, k ≠ j → s1.1 k = st.1 k := by
      intro k hk
      rw [hs1, coord_fst rows l1 l2 d st j j.2, Function.update_of_ne hk]
    obtain ⟨i1, i2, i3, i4⟩ := ih hnd.2 s1 (h0.trans hm)
    refine ⟨hm.trans i1, ?_, ?_, ?_⟩
    · intro k hk
      rw [List.mem_cons, not_or] at hk
      rw [i2 k hk.2, hsk k hk.1]
    · intro k
      by_cases hk : k = j
      · subst hk
        rw [i2 k hnd.1]
        exact hsj.trans i1
      · have := i3 k
        rwa [hsk k hk] at this
    · intro x hx
      rcases List.mem_cons.1 hx with rfl | hx
      · exact ⟨s1.1, coord_stationary rows l1 l2 h1 d st x x.2 (hN x), (i2 x hnd.1).symm, i3⟩
      · exact i4 x hx

/-- When the loop without bias stops because a sweep moved no coefficient by as much as `tol`, the result is
within `tol * Σ_j (Σ_k |x_jᵀ x_k|) |c_j - b_j|` of the objective at any other point `c`. -/
theorem cd_stop_gap_partial (rows : List ((Fin d → K) × K)) (l1 l2 : K) (h1 : 0 ≤ l1) (h2 : 0 ≤ l2)
    (hN : ∀ j, 0 < norm rows l2 j) (tol : K) (b c : Fin d → K) (hstop : (sweep rows l1 l2 false b).2 < tol) :
    elastic rows l1 l2 (sweep rows l1 l2 false b).1 ≤ elastic rows l1 l2 c +
      tol * ∑ j, (∑ k, |(rows.map fun r => r.1 j * r.1 k).sum|) * |c j - (sweep rows l1 l2 false b).1 j| := by
  have hnd : (coords d false).Nodup := (List.nodup_finRange d).filter _
  have hn := fold_near rows l1 l2 h1 (coords d false) hnd hN (b, 0) (le_refl _)
  rw [← sweep_false] at hn
  set s := sweep rows l1 l2 false b with hs
  obtain ⟨n1, n2, n3, n4⟩ := hn
  set v := c - s.1 with hv
  have key : ∀ j, v j * grad rows s.1 j + a1 rows l1 d j * |s.1 j| + a1 rows l2 d j / 2 * s.1 j ^ 2 +
      a1 rows l2 d j / 2 * v j ^ 2 ≤
      a1 rows l1 d j * |s.1 j + v j| + a1 rows l2 d j / 2 * (s.1 j + v j) ^ 2 +
        tol * ((∑ k, |xtx rows j k|) * |v j|) := by
    intro j
    obtain ⟨e, ⟨st1, st2⟩, he, hk⟩ := n4 j (mem_coords_false j)
    rw [he] at st1 st2
    set q := grad rows e j - a1 rows l2 d j * s.1 j with hq
    have h3 : q * (s.1 j + v j) ≤ a1 rows l1 d j * |s.1 j + v j| := by
      calc q * (s.1 j + v j) ≤ |q * (s.1 j + v j)| := le_abs_self _
        _ = |q| * |s.1 j + v j| := abs_mul _ _
        _ ≤ _ := mul_le_mul_of_nonneg_right st1 (abs_nonneg _)
    have hgd : |grad rows s.1 j - grad rows e j| ≤ tol * ∑ k, |xtx rows j k| := by
      rw [grad_diff, Finset.mul_sum]
      refine (Finset.abs_sum_le_sum_abs _ _).trans (Finset.sum_le_sum fun k _ => ?_)
      rw [abs_mul, mul_comm]
      apply mul_le_mul_of_nonneg_right _ (abs_nonneg _)
      rw [abs_sub_comm]
      exact (hk k).trans hstop.le
    have h4 : v j * (grad rows s.1 j - grad rows e j) ≤ tol * ((∑ k, |xtx rows j k|) * |v j|) := by
      calc v j * (grad rows s.1 j - grad rows e j) ≤ |v j * (grad rows s.1 j - grad rows e j)| := le_abs_self _
        _ = |v j| * |grad rows s.1 j - grad rows e j| := abs_mul _ _
        _ ≤ |v j| * (tol * ∑ k, |xtx rows j k|) := mul_le_mul_of_nonneg_left hgd (abs_nonneg _)
        _ = _ := by ring
    have hg : grad rows e j = q + a1 rows l2 d j * s.1 j := by rw [hq]; ring
    rw [hg] at h4
    nlinarith [st2, h3, h4]
  have hsum := Finset.sum_le_sum fun j (_ : j ∈ Finset.univ) => key j
  simp only [Finset.sum_add_distrib, ← Finset.mul_sum] at hsum
  have hc : c = s.1 + v := by rw [hv, add_sub_cancel]
  have h5 : 0 ≤ (rows.map fun r => dot r.1 v ^ 2).sum := by
    apply List.sum_nonneg
    intro a ha
    obtain ⟨r, _, rfl⟩ := List.mem_map.1 ha
    exact sq_nonneg _
  have h6 : 0 ≤ ∑ i, a1 rows l2 d i / 2 * v i ^ 2 :=
    Finset.sum_nonneg fun i _ => mul_nonneg (div_nonneg (by
      simp only [a1, pen, i.2, if_true]; exact mul_nonneg (Nat.cast_nonneg _) h2) zero_le_two) (sq_nonneg _)
  rw [← gobj_elastic, ← gobj_elastic]
  have e3 : ∀ j, c j - s.1 j = v j := fun j => by rw [hv]; rfl
  simp only [e3]
  rw [hc]
  unfold gobj
  rw [sse_diff]
  simp only [Pi.add_apply]
  have e4 : ∀ j k, (rows.map fun r => r.1 j * r.1 k).sum = xtx rows j k := fun _ _ => rfl
  simp only [e4]
  linarith

/-! ## Examples and a departure -/

def exCD : List ((Fin 2 → ℚ) × ℚ) := [(![1, 0], 3), (![1, 1], 2), (![0, 2], -1)]

theorem exCD_norm (j : Fin 2) : 0 < norm exCD (1 : ℚ) j := by
  revert j
  decide +kernel

example (t : ℚ) : elastic exCD (1 / 2) 1 (coord exCD (1 / 2) 1 (![1, 1], 0) 0).1 ≤
    elastic exCD (1 / 2) 1 (Function.update ![1, 1] 0 t) :=
  (cd_coord_min exCD (1 / 2) 1 (by norm_num) _ 0 0 (exCD_norm 0) t).1

example : (coord exCD (1 / 2) 1 (![1, 1], 0) 0).1 = ![1 / 2, 1] := by decide +kernel

example : elastic exCD (1 / 2) 1 (coordinateDescent exCD (1 / 2) 1 false (1 / 100) 3) ≤
    elastic exCD (1 / 2) 1 (coordinateDescent exCD (1 / 2) 1 false (1 / 100) 2) :=
  cd_result_le exCD (1 / 2) 1 (by norm_num) exCD_norm _ 2

/-- A fixed point of the sweep. -/
example : (sweep exCD (1 / 2) 1 false ![7 / 10, 0]).1 = ![7 / 10, 0] := by decide +kernel

example (c : Fin 2 → ℚ) : elastic exCD (1 / 2) 1 ![7 / 10, 0] ≤ elastic exCD (1 / 2) 1 c :=
  (cd_fixed_iff exCD (1 / 2) 1 (by norm_num) (by norm_num) exCD_norm _).1 (by decide +kernel) c

def exStop : List ((Fin 1 → ℚ) × ℚ) := [(![1], 3), (![2], 0), (![3], -1)]

/-- With a bias the stopping rule ignores the change of the intercept: on this data the first sweep leaves the
slope at zero, sets the intercept and stops, reporting convergence whatever the tolerance, although the result is
far from a minimum. -/
theorem cd_bias_premature_stop (tol : ℚ) (htol : 0 < tol) (k : Nat) :
    coordinateDescent (exStop.map rowOne) 1 0 true tol (k + 1) = ![0, 2 / 3] ∧
    elasticBias exStop 1 0 ![-1 / 2] (5 / 3) + 1 / 4 ≤ elasticBias exStop 1 0 ![0] (2 / 3) := by
  constructor
  · unfold coordinateDescent
    rw [loop]
    have h : sweep (exStop.map rowOne) 1 0 true (0 : Fin 2 → ℚ) = (![0, 2 / 3], 0) := by decide +kernel
    rw [h]
    simp only
    rw [if_pos htol]
  · decide +kernel

example : (sweep (exStop.map rowOne) 1 0 true ![-1 / 2, 5 / 3]).1 = ![-1 / 2, 5 / 3] := by decide +kernel

example (c : Fin 1 → ℚ) (e : ℚ) : elasticBias exStop 1 0 ![-1 / 2] (5 / 3) ≤ elasticBias exStop 1 0 c e := by
  have := (cd_bias_sweep exStop (by simp [exStop]) 1 0 (by norm_num) (by norm_num) (by decide +kernel)
    ![-1 / 2, 5 / 3]).2.1 (by decide +kernel) c e
  have h : (fun i : Fin 1 => (![-1 / 2, 5 / 3] : Fin 2 → ℚ) i.castSucc) = ![-1 / 2] := by decide +kernel
  rw [h] at this
  exact this

end Verif.CD
