import Verif.Model.SimdTree
import Verif.Lemmas.SimdTree
import Verif.Props.AucDbl
import Verif.Props.Ieee

/-! # C162: neighbor search from 16 columns on, in double arithmetic -/

namespace Verif.SimdTree
open Verif Verif.KDT Verif.Ieee Verif.Ieee.Spec FloatOps Verif.ConfDbl
open Verif.FloatBits (f64)
open Verif.Doubles (rd)

/-- A list of squares, any two orders of adding. -/
theorem two_orders {l : List (ℝ × ℝ)} {n : ℕ} (hsq : ∀ p ∈ l, p.1 = p.2) (hl : l.length ≤ n) (hn : n ≤ 2 ^ 40) {v w : ℝ}
    (hv : AucDbl.IsDot l v) (hw : AucDbl.IsDot l w) :
    v ≤ (1 + 8 * n * 2 ^ (-53 : ℤ)) * w + n * 2 ^ (-1072 : ℤ) := by
  have e1 := AucDbl.dot_err hv
  have e2 := AucDbl.dot_err hw
  have hes : AucDbl.size l = AucDbl.exact l := by
    unfold AucDbl.size AucDbl.exact
    congr 1
    apply List.map_congr_left
    intro p hp
    rw [hsq p hp, abs_of_nonneg (mul_self_nonneg _)]
  have hS := AucDbl.size_nonneg l
  rw [← hes, AucDbl.unit_eq, AucDbl.tiny_eq] at e1 e2
  have hn' : (n : ℝ) ≤ 2 ^ 40 := by exact_mod_cast hn
  have hl' : (l.length : ℝ) ≤ n := by exact_mod_cast hl
  have hl0 : (0 : ℝ) ≤ l.length := Nat.cast_nonneg _
  have hu0 : (0 : ℝ) < 2 ^ (-53 : ℤ) := by positivity
  have hη0 : (0 : ℝ) < 2 ^ (-1075 : ℤ) := by positivity
  have hun : 8 * (n : ℝ) * 2 ^ (-53 : ℤ) ≤ 1 / 2 := by
    have : 8 * (n : ℝ) * 2 ^ (-53 : ℤ) ≤ 8 * 2 ^ 40 * 2 ^ (-53 : ℤ) :=
      mul_le_mul_of_nonneg_right (by linarith) hu0.le
    exact this.trans (by norm_num)
  have hlu : (l.length : ℝ) * 2 ^ (-53 : ℤ) ≤ n * 2 ^ (-53 : ℤ) := mul_le_mul_of_nonneg_right hl' hu0.le
  have hη : (2 : ℝ) ^ (-1072 : ℤ) = 8 * 2 ^ (-1075 : ℤ) := by
    rw [show (8 : ℝ) = 2 ^ (3 : ℤ) by norm_num, ← zpow_add₀ two_ne_zero]; norm_num
  rw [hη]
  have hp := AucDbl.pow_bound hu0.le l.length (by
    generalize (2 : ℝ) ^ (-53 : ℤ) = u at *
    linarith)
  have hp1 : (1 : ℝ) ≤ (1 + 2 ^ (-53 : ℤ)) ^ l.length := one_le_pow₀ (by linarith)
  generalize (1 + (2 : ℝ) ^ (-53 : ℤ)) ^ l.length = P at *
  generalize (2 : ℝ) ^ (-53 : ℤ) = u at *
  generalize (2 : ℝ) ^ (-1075 : ℤ) = η at *
  generalize AucDbl.size l = S at *
  generalize (l.length : ℝ) = m at *
  have hP2 : P ≤ 1 + 2 * (n * u) := by linarith
  generalize hg : (n : ℝ) * u = g at *
  have hg0 : 0 ≤ g := by rw [← hg]; exact mul_nonneg (Nat.cast_nonneg _) hu0.le
  have hg8 : 8 * g ≤ 1 / 2 := by rw [← hg]; linarith
  have hτ : m * P * η ≤ 2 * n * η := by
    apply mul_le_mul_of_nonneg_right _ hη0.le
    have : m * P ≤ n * 2 := mul_le_mul hl' (by linarith) (by linarith) (Nat.cast_nonneg _)
    linarith
  have hPS : (P - 1) * S ≤ 2 * g * S := mul_le_mul_of_nonneg_right (by linarith) hS
  have a1 := (abs_le.1 e1).2
  have a2 := (abs_le.1 e2).1
  rw [show 8 * (n : ℝ) * u = 8 * g by rw [← hg]; ring]
  have hnη : 0 ≤ n * η := mul_nonneg (Nat.cast_nonneg _) hη0.le
  -- v ≤ (1 + 2g) S + τ, (1 - 2g) S - τ ≤ w
  have b1 : v ≤ (1 + 2 * g) * S + 2 * (n * η) := by linarith
  have b2 : (1 - 2 * g) * S - 2 * (n * η) ≤ w := by linarith
  have b3 : (1 + 8 * g) * ((1 - 2 * g) * S - 2 * (n * η)) ≤ (1 + 8 * g) * w := mul_le_mul_of_nonneg_left b2 (by linarith)
  have b4 : (1 + 2 * g) * S ≤ (1 + 8 * g) * (1 - 2 * g) * S := by
    apply mul_le_mul_of_nonneg_right _ hS
    nlinarith
  have b5 : (1 + 8 * g) * (2 * (n * η)) ≤ 2 * (2 * (n * η)) := mul_le_mul_of_nonneg_right (by linarith) (by linarith)
  linarith

theorem rootErr (x : ℝ) : |rd (Real.sqrt x) - Real.sqrt x| ≤ 2 ^ (-53 : ℤ) * Real.sqrt x + 2 ^ (-1075 : ℤ) := by
  have := fl_err_mixed f64 (Real.sqrt x)
  rwa [AucDbl.unit_eq, AucDbl.tiny_eq, abs_of_nonneg (Real.sqrt_nonneg _)] at this

/-- The same for the rounded roots. -/
theorem two_roots {n : ℕ} (h1 : 1 ≤ n) (hn : n ≤ 2 ^ 40) {v w : ℝ} (hw0 : 0 ≤ w)
    (h : v ≤ (1 + 8 * n * 2 ^ (-53 : ℤ)) * w + n * 2 ^ (-1072 : ℤ)) :
    rd (Real.sqrt v) ≤ (1 + 8 * n * 2 ^ (-53 : ℤ)) * rd (Real.sqrt w) + n * 2 ^ (-535 : ℤ) := by
  have e1 := (abs_le.1 (rootErr v)).2
  have e2 := (abs_le.1 (rootErr w)).1
  have hn1 : (1 : ℝ) ≤ n := by exact_mod_cast h1
  have hn' : (n : ℝ) ≤ 2 ^ 40 := by exact_mod_cast hn
  have hu0 : (0 : ℝ) < 2 ^ (-53 : ℤ) := by positivity
  have hη0 : (0 : ℝ) < 2 ^ (-1075 : ℤ) := by positivity
  have hun : 8 * (n : ℝ) * 2 ^ (-53 : ℤ) ≤ 1 / 16 := by
    have : 8 * (n : ℝ) * 2 ^ (-53 : ℤ) ≤ 8 * 2 ^ 40 * 2 ^ (-53 : ℤ) :=
      mul_le_mul_of_nonneg_right (by linarith) hu0.le
    exact this.trans (by norm_num)
  have hη : (2 : ℝ) ^ (-1072 : ℤ) = 2 ^ (-536 : ℤ) * 2 ^ (-536 : ℤ) := by rw [← zpow_add₀ two_ne_zero]; norm_num
  have h535 : (2 : ℝ) ^ (-535 : ℤ) = 2 * 2 ^ (-536 : ℤ) := by
    rw [← zpow_one_add₀ two_ne_zero]; norm_num
  have hηs : (2 : ℝ) ^ (-1075 : ℤ) ≤ 2 ^ (-536 : ℤ) / 16 := by
    have : (2 : ℝ) ^ (-536 : ℤ) / 16 = 2 ^ (-540 : ℤ) := by
      rw [show (16 : ℝ) = 2 ^ (4 : ℤ) by norm_num, ← zpow_sub₀ two_ne_zero]; norm_num
    rw [this]
    exact zpow_le_zpow_right₀ (by norm_num) (by norm_num)
  have ht0 : (0 : ℝ) < 2 ^ (-536 : ℤ) := by positivity
  rw [hη] at h
  rw [h535, show (n : ℝ) * (2 * 2 ^ (-536 : ℤ)) = 2 * (n * 2 ^ (-536 : ℤ)) by ring]
  generalize (2 : ℝ) ^ (-536 : ℤ) = t at *
  generalize (2 : ℝ) ^ (-1075 : ℤ) = η at *
  generalize (2 : ℝ) ^ (-53 : ℤ) = u at *
  generalize rd (Real.sqrt v) = V at *
  generalize rd (Real.sqrt w) = W at *
  have hs : Real.sqrt v ≤ (1 + 4 * n * u) * Real.sqrt w + n * t := by
    apply Real.sqrt_le_iff.2
    have hA : 0 ≤ (1 + 4 * n * u) * Real.sqrt w := mul_nonneg (by positivity) (Real.sqrt_nonneg _)
    refine ⟨by positivity, h.trans ?_⟩
    have hw := Real.mul_self_sqrt hw0
    have : ((1 + 4 * n * u) * Real.sqrt w + n * t) ^ 2 = (1 + 4 * n * u) ^ 2 * (Real.sqrt w * Real.sqrt w) +
        2 * ((1 + 4 * n * u) * Real.sqrt w) * (n * t) + (n * n) * (t * t) := by ring
    rw [this, hw]
    have i1 : (1 + 8 * n * u) * w ≤ (1 + 4 * n * u) ^ 2 * w := by
      apply mul_le_mul_of_nonneg_right _ hw0
      nlinarith [mul_nonneg (Nat.cast_nonneg (α := ℝ) n) hu0.le, sq_nonneg (4 * n * u)]
    have i2 : 0 ≤ 2 * ((1 + 4 * n * u) * Real.sqrt w) * (n * t) := by positivity
    have i3 : (n : ℝ) * (t * t) ≤ (n * n) * (t * t) := by
      apply mul_le_mul_of_nonneg_right _ (by positivity)
      nlinarith
    linarith
  generalize Real.sqrt v = x at *
  have hy0 := Real.sqrt_nonneg w
  generalize Real.sqrt w = y at *
  have hug : u ≤ n * u := by nlinarith
  rw [show 8 * (n : ℝ) * u = 8 * (n * u) by ring] at *
  rw [show 4 * (n : ℝ) * u = 4 * (n * u) by ring] at *
  have hnt : t ≤ n * t := by nlinarith
  have hnt0 : 0 ≤ n * t := by positivity
  generalize (n : ℝ) * u = g at *
  generalize (n : ℝ) * t = s at *
  have hV : V ≤ (1 + u) * ((1 + 4 * g) * y + s) + η := by
    have : (1 + u) * x ≤ (1 + u) * ((1 + 4 * g) * y + s) := mul_le_mul_of_nonneg_left hs (by linarith)
    linarith
  have hW : (1 - u) * y - η ≤ W := by linarith
  have hg0 : 0 ≤ g := by linarith
  have hW' : (1 + 8 * g) * ((1 - u) * y - η) ≤ (1 + 8 * g) * W := mul_le_mul_of_nonneg_left hW (by linarith)
  have i1 : (1 + u) * (1 + 4 * g) * y ≤ (1 + 8 * g) * (1 - u) * y := by
    apply mul_le_mul_of_nonneg_right _ hy0
    nlinarith
  have i2 : (1 + 8 * g) * η ≤ 2 * η := mul_le_mul_of_nonneg_right (by linarith) hη0.le
  have i3 : u * s ≤ 1 / 128 * s := mul_le_mul_of_nonneg_right (by linarith) hnt0
  linarith

/-- The pairs of the squares of two rows. -/
noncomputable def pairs (a b : List (Flt f64)) : List (ℝ × ℝ) :=
  (a.zip b).map fun p => (rd (p.1.val - p.2.val), rd (p.1.val - p.2.val))

/-- The plain loop is one of the orders. -/
theorem loop_isDot (a b : List (Flt f64)) : AucDbl.IsDot (pairs a b) (distFold accSq a b).val := by
  have key : ∀ (l : List (Flt f64 × Flt f64)) (m : List (ℝ × ℝ)) (acc : Flt f64), AucDbl.IsDot m acc.val →
      AucDbl.IsDot (m ++ l.map fun p => (rd (p.1.val - p.2.val), rd (p.1.val - p.2.val)))
        (l.foldl (fun acc p => accSq acc (p.1 - p.2)) acc).val := by
    intro l
    induction l with
    | nil => intro m acc h; simpa using h
    | cons p l ih =>
      intro m acc h
      rw [List.foldl_cons, List.map_cons]
      have := ih (m ++ [(rd (p.1.val - p.2.val), rd (p.1.val - p.2.val))]) (accSq acc (p.1 - p.2))
        (AucDbl.IsDot.add h (.term _ _))
      rwa [List.append_assoc, List.singleton_append] at this
  exact key (a.zip b) [] 0 .nil

variable {κ : List (Flt f64) → List (Flt f64) → Flt f64}

theorem val_le {x y : Dbl κ} : x ≤ y ↔ x.val ≤ y.val := Iff.rfl

theorem val_lt {x y : Dbl κ} : x < y ↔ x.val < y.val := by
  rw [← not_le, ← not_le, val_le]

theorem val_rep (x : Dbl κ) : Rep f64 x.val := Flt.isRep (F := f64) x

theorem dot_nonneg {l : List (ℝ × ℝ)} (hsq : ∀ p ∈ l, p.1 = p.2) {v : ℝ} (h : AucDbl.IsDot l v) : 0 ≤ v := by
  induction h with
  | nil => exact le_rfl
  | term a b =>
    have : a = b := hsq (a, b) (by simp)
    subst this
    exact Doubles.rd_nonneg (mul_self_nonneg a)
  | add _ _ h₁ h₂ =>
    exact Doubles.rd_nonneg (add_nonneg (h₁ fun p hp => hsq p (by simp [hp])) (h₂ fun p hp => hsq p (by simp [hp])))
  | fma a b _ ih =>
    have : a = b := hsq (a, b) (by simp)
    subst this
    exact Doubles.rd_nonneg (add_nonneg (mul_self_nonneg a) (ih fun p hp => hsq p (by simp [hp])))
  | perm hp _ ih => exact ih fun p h => hsq p (hp.subset h)

theorem pairs_sq (a b : List (Flt f64)) : ∀ p ∈ pairs a b, p.1 = p.2 := by
  intro p hp
  obtain ⟨x, _, rfl⟩ := List.mem_map.1 hp
  rfl

theorem pairs_length (a b : List (Flt f64)) : (pairs a b).length ≤ a.length := by
  simp [pairs]

/-- The metrics in question. -/
def Wide (d : KDT.Dist (Dbl κ)) : Prop := d = .l2simd ∨ d = .sql2simd

/-- The distance to the box exceeds the distance to a row in the box by rounding only. -/
theorem box_close (hκ : IsKernel κ) {d : KDT.Dist (Dbl κ)} (hd : Wide d) {n : ℕ} (h1 : 1 ≤ n) (hn : n ≤ 2 ^ 40) {b : Box (Dbl κ)}
    {row : List (Dbl κ)} (hr : row.length = n) (hb : InBox b row) (q : List (Dbl κ)) :
    (boxDist d b q).val ≤ (1 + 8 * n * 2 ^ (-53 : ℤ)) * (d.dist row q).val + n * 2 ^ (-535 : ℤ) := by
  have hseq : (boxFold (K := Flt f64) accSq 0 b.lo b.hi q).val ≤ (distFold (K := Flt f64) accSq row q).val :=
    boxFold_le (K := Flt f64) monoAcc_sq row b.lo b.hi q _ _ le_rfl hb.1 hb.2
  have hsq := two_orders (pairs_sq row q) ((pairs_length row q).trans hr.le) hn (loop_isDot row q) (hκ row q)
  have hk0 : 0 ≤ (κ row q).val := dot_nonneg (pairs_sq row q) (hκ row q)
  rcases hd with rfl | rfl
  · have := two_roots h1 hn hk0 hsq
    refine le_trans ?_ this
    exact Doubles.rd_mono (Real.sqrt_le_sqrt hseq)
  · refine (hseq.trans hsq).trans ?_
    have : (2 : ℝ) ^ (-1072 : ℤ) ≤ 2 ^ (-535 : ℤ) := zpow_le_zpow_right₀ (by norm_num) (by norm_num)
    have := mul_le_mul_of_nonneg_left this (Nat.cast_nonneg (α := ℝ) n)
    change (1 + 8 * n * 2 ^ (-53 : ℤ)) * (κ row q).val + _ ≤ (1 + 8 * n * 2 ^ (-53 : ℤ)) * (κ row q).val + _
    linarith

theorem wide_nonneg (hκ : IsKernel κ) {d : KDT.Dist (Dbl κ)} (hd : Wide d) (a b : List (Dbl κ)) : 0 ≤ (d.dist a b).val := by
  rcases hd with rfl | rfl
  · exact Doubles.rd_nonneg (Real.sqrt_nonneg _)
  · exact dot_nonneg (pairs_sq a b) (hκ a b)

theorem minVal_nonpos : (minVal : Dbl κ).val ≤ 0 :=
  (Rounding.Num.le_def _).1 (LawfulFloat.minVal_le (K := Flt f64))

/-- How far a row may be although it is missing. -/
noncomputable def reach (n : ℕ) (epsilon x : ℝ) : ℝ :=
  (1 + 2 ^ (-53 : ℤ)) * ((1 + 8 * n * 2 ^ (-53 : ℤ)) * x + n * 2 ^ (-535 : ℤ) + epsilon)

theorem slack_of (hκ : IsKernel κ) {d : KDT.Dist (Dbl κ)} (hd : Wide d) {n : ℕ} (h1 : 1 ≤ n) (hn : n ≤ 2 ^ 40) (q : List (Dbl κ))
    {epsilon : Dbl κ} (he : 0 ≤ epsilon.val) :
    Slack d q epsilon n fun c x => 0 ≤ x.val → c.val ≤ reach n epsilon.val x.val := by
  have hu0 : (0 : ℝ) < 2 ^ (-53 : ℤ) := by positivity
  have ht0 : (0 : ℝ) < 2 ^ (-535 : ℤ) := by positivity
  have hmono : ∀ y : ℝ, 0 ≤ y → y ≤ (1 + 2 ^ (-53 : ℤ)) * y := fun y hy => by nlinarith
  have hge : ∀ x : ℝ, 0 ≤ x → x ≤ reach n epsilon.val x := by
    intro x hx
    unfold reach
    have : x ≤ (1 + 8 * n * 2 ^ (-53 : ℤ)) * x + n * 2 ^ (-535 : ℤ) + epsilon.val := by
      have a : 0 ≤ 8 * n * (2 : ℝ) ^ (-53 : ℤ) * x := by positivity
      have b : 0 ≤ n * (2 : ℝ) ^ (-535 : ℤ) := by positivity
      nlinarith
    exact this.trans (hmono _ (hx.trans this))
  refine ⟨fun c x h h0 => (val_le.1 h).trans (hge _ h0), fun c c' x h h' h0 => (val_le.1 h).trans (h' h0), ?_, ?_⟩
  · intro b row hr hb c
    have hc := box_close hκ hd h1 hn hr hb q
    have h0 := wide_nonneg hκ hd row q
    have hB : 0 ≤ (1 + 8 * n * 2 ^ (-53 : ℤ)) * (d.dist row q).val + n * 2 ^ (-535 : ℤ) + epsilon.val := by positivity
    constructor
    · intro h _
      have := val_lt.1 h
      unfold reach
      refine le_trans ?_ (hmono _ hB)
      linarith
    · intro h _
      have h' : c.val ≤ (boxDist d b q + epsilon).val := val_le.1 (not_lt.1 h)
      refine h'.trans ?_
      have ha := fl_add_err f64 (val_rep (boxDist d b q)) (val_rep epsilon)
      have e : (boxDist d b q + epsilon).val = fl f64 ((boxDist d b q).val + epsilon.val) := rfl
      rw [AucDbl.unit_eq] at ha
      rw [e]
      unfold reach
      rcases le_total 0 ((boxDist d b q).val + epsilon.val) with hp | hp
      · rw [abs_of_nonneg hp] at ha
        have := (abs_le.1 ha).2
        have i := mul_le_mul_of_nonneg_left (add_le_add_left hc epsilon.val) (show (0 : ℝ) ≤ 1 + 2 ^ (-53 : ℤ) by positivity)
        linarith
      · have : fl f64 ((boxDist d b q).val + epsilon.val) ≤ 0 := by
          have := fl_mono f64 hp
          rwa [show fl f64 0 = 0 from Doubles.rd_zero] at this
        exact this.trans (mul_nonneg (by positivity) hB)
  · intro c row h h0
    exact ((val_lt.1 h).le.trans (minVal_nonpos.trans h0)).trans (hge _ h0)

/-- The metric of a wide tree. -/
theorem wide_metric (cosine hav : List (Dbl κ) → List (Dbl κ) → Dbl κ) {name : String} (hm : name = "l2" ∨ name = "sql2") {n : ℕ}
    (h16 : 16 ≤ n) : ∃ d, KDT.Dist.ofString cosine hav name n = .ok d ∧ Wide d := by
  rcases hm with rfl | rfl
  · exact ⟨.l2simd, by simp [KDT.Dist.ofString, not_lt.2 h16], .inl rfl⟩
  · exact ⟨.sql2simd, by simp [KDT.Dist.ofString, not_lt.2 h16], .inr rfl⟩

/-- What a tree holds after `new` and any sequence of `add`. -/
theorem tree_inv {us : USort} {cosine hav : List (Dbl κ) → List (Dbl κ) → Dbl κ} {X0 : Mat (Dbl κ)} {balanced : Bool} {name : String}
    {d : KDT.Dist (Dbl κ)} (hd : KDT.Dist.ofString cosine hav name X0.ncols = .ok d) (hc : 0 < X0.ncols) (hr : X0.rows ≠ [])
    (hX : X0.Rect) {adds : List (Mat (Dbl κ))} (ha : ∀ X ∈ adds, X.Rect) {s0 : PyKDT (Dbl κ)}
    (hs : PyKDT.new us cosine hav X0 balanced name = .ok s0) :
    HInv X0.ncols d (KDT.Spec.rows X0 adds) (s0.adds us adds) := by
  obtain ⟨s, h1, h2⟩ := new_spec us cosine hav X0 balanced name d hd hr hc hX
  rw [h1] at hs
  cases hs
  exact adds_spec us X0 hc adds X0.rows s0 h2 ha

/-! ## The kernels are not empty -/

theorem fold_isDot : ∀ (l : List (Flt f64 × Flt f64)) (m : List (ℝ × ℝ)) (acc : Flt f64), AucDbl.IsDot m acc.val →
    AucDbl.IsDot (m ++ l.map fun p => (rd (p.1.val - p.2.val), rd (p.1.val - p.2.val)))
      ((l.map fun p => (p.1 - p.2) * (p.1 - p.2)).foldl (· + ·) acc).val := by
  intro l
  induction l with
  | nil => intro m acc h; simpa using h
  | cons p l ih =>
    intro m acc h
    rw [List.map_cons, List.map_cons, List.foldl_cons]
    have := ih (m ++ [(rd (p.1.val - p.2.val), rd (p.1.val - p.2.val))]) (acc + (p.1 - p.2) * (p.1 - p.2))
      (AucDbl.IsDot.add h (.term _ _))
    rwa [List.append_assoc, List.singleton_append] at this

theorem four_perm {α : Type} (l : List (α × ℕ)) :
    ((l.filter fun p => p.2 % 4 = 0) ++ (l.filter fun p => p.2 % 4 = 1) ++
      ((l.filter fun p => p.2 % 4 = 2) ++ (l.filter fun p => p.2 % 4 = 3))).Perm l := by
  classical
  rw [List.perm_iff_count]
  intro a
  rw [List.count_append, List.count_append, List.count_append]
  have h : ∀ j : ℕ, (l.filter fun p => p.2 % 4 = j).count a = if a.2 % 4 = j then l.count a else 0 := by
    intro j
    split
    · rename_i h; exact List.count_filter (by simpa using h)
    · rename_i h
      rw [List.count_eq_zero]
      intro hm
      exact h (by simpa using (List.mem_filter.1 hm).2)
  rw [h, h, h, h]
  have : a.2 % 4 < 4 := Nat.mod_lt _ (by norm_num)
  rcases (by omega : a.2 % 4 = 0 ∨ a.2 % 4 = 1 ∨ a.2 % 4 = 2 ∨ a.2 % 4 = 3) with e | e | e | e <;> simp [e]

/-- The kernel with four lanes is one of the orders. -/
theorem lanes_isKernel : IsKernel lanes := by
  intro a b
  have hlane : ∀ j : ℕ, AucDbl.IsDot
      ((((a.zip b).zipIdx.filter fun p => p.2 % 4 = j).map (·.1)).map fun p => (rd (p.1.val - p.2.val), rd (p.1.val - p.2.val)))
      ((((((a.zip b).map fun p => (p.1 - p.2) * (p.1 - p.2)).zipIdx).filter fun p => p.2 % 4 = j).map (·.1)).foldl (· + ·)
        (0 : Flt f64)).val := by
    intro j
    have e : ((((a.zip b).map fun p => (p.1 - p.2) * (p.1 - p.2)).zipIdx).filter fun p => p.2 % 4 = j).map (·.1) =
        (((a.zip b).zipIdx.filter fun p => p.2 % 4 = j).map (·.1)).map fun p => (p.1 - p.2) * (p.1 - p.2) := by
      rw [List.zipIdx_map, List.filter_map, List.map_map, List.map_map]
      rfl
    rw [e]
    exact fold_isDot _ [] 0 .nil
  have h := AucDbl.IsDot.add (AucDbl.IsDot.add (hlane 0) (hlane 1)) (AucDbl.IsDot.add (hlane 2) (hlane 3))
  refine AucDbl.IsDot.perm ?_ h
  rw [← List.map_append, ← List.map_append, ← List.map_append, ← List.map_append, ← List.map_append, ← List.map_append]
  refine List.Perm.map _ ?_
  have := (four_perm (a.zip b).zipIdx).map (·.1)
  rwa [List.zipIdx_map_fst] at this

/-- So is the plain loop. -/
theorem loop_isKernel : IsKernel (distFold accSq) := loop_isDot

/-- A tree of two rows of 16 columns, for the examples. -/
theorem two_rows (us : USort) (cosine hav : List (Dbl κ) → List (Dbl κ) → Dbl κ) (balanced : Bool) :
    ∃ s0, PyKDT.new us cosine hav ⟨16, [List.replicate 16 (0 : Dbl κ), List.replicate 16 (ofInt 3 : Flt f64)]⟩ balanced "l2" = .ok s0 := by
  obtain ⟨s, h, _⟩ := new_spec us cosine hav ⟨16, [List.replicate 16 (0 : Dbl κ), List.replicate 16 (ofInt 3 : Flt f64)]⟩ balanced
    "l2" .l2simd (by simp [KDT.Dist.ofString]) (by simp) (by simp) (by
      intro r hr
      rcases List.mem_cons.1 hr with rfl | hr
      · simp
      · rw [List.mem_singleton.1 hr]; exact List.length_replicate)
  exact ⟨s, h⟩

/-- **C162a.** Radius search with `l2` or `sql2` from 16 columns on, after any history of `add`: whatever the order in which the
kernel adds, the result holds only rows whose computed distance is at most the radius, each once and with that
distance; a row in the ball that is missing is at the radius up to `8 n` roundings of its distance (and an underflow term). -/
theorem within_simd_partial (hκ : IsKernel κ) (us : USort) (cosine hav : List (Dbl κ) → List (Dbl κ) → Dbl κ) (X0 : Mat (Dbl κ))
    (balanced : Bool) (name : String) (hm : name = "l2" ∨ name = "sql2") (h16 : 16 ≤ X0.ncols) (hbig : X0.ncols ≤ 2 ^ 40)
    (hr : X0.rows ≠ []) (hX : X0.Rect) (adds : List (Mat (Dbl κ))) (ha : ∀ X ∈ adds, X.Rect) (s0 : PyKDT (Dbl κ))
    (hs : PyKDT.new us cosine hav X0 balanced name = .ok s0) (q : List (Dbl κ)) (r : Dbl κ) (he : 0 + eps < r) (sort : Bool) :
    ∃ d res omitted, KDT.Dist.ofString cosine hav name X0.ncols = .ok d ∧
      within us (s0.adds us adds).cfg (s0.adds us adds).tree q r sort = some (some res) ∧
      (sort = true → res.Pairwise fun a b => a.dist ≤ b.dist) ∧
      (res ++ omitted).Perm (KDT.Spec.ball d q r (KDT.Spec.numbered (KDT.Spec.rows X0 adds))) ∧
      ∀ x ∈ omitted, x.dist.val ≤ r.val ∧ r.val ≤ reach X0.ncols 0 x.dist.val := by
  obtain ⟨d, hd, hw⟩ := wide_metric cosine hav hm h16
  have inv := tree_inv hd (by omega) hr hX ha hs
  have hS := slack_of hκ hw (by omega : 1 ≤ X0.ncols) hbig q (epsilon := 0) le_rfl
  obtain ⟨res, om, g1, g2, g3⟩ := withinLoop_root hS r inv.wf
  have hperm : (res ++ om).Perm (KDT.Spec.ball d q r (KDT.Spec.numbered (KDT.Spec.rows X0 adds))) :=
    g2.trans (ball_perm d q r inv.pts)
  have hom : ∀ x ∈ om, x.dist.val ≤ r.val ∧ r.val ≤ reach X0.ncols 0 x.dist.val := by
    intro x hx
    have hmem := hperm.mem_iff.1 (List.mem_append_right res hx)
    obtain ⟨hm1, hm2⟩ := List.mem_filter.1 hmem
    obtain ⟨p, _, rfl⟩ := List.mem_map.1 hm1
    exact ⟨val_le.1 (by simpa using hm2), g3 _ hx (wide_nonneg hκ hw _ _)⟩
  have hwin : within us (s0.adds us adds).cfg (s0.adds us adds).tree q r sort =
      some (some (if sort then us.run (fun a b => decide (a.dist ≤ b.dist)) res else res)) := by
    unfold within
    rw [if_neg (not_le.2 he), inv.d_eq, g1]
    rfl
  cases sort with
  | false => exact ⟨d, res, om, hd, by simpa using hwin, by simp, hperm, hom⟩
  | true =>
    refine ⟨d, _, om, hd, by simpa using hwin, fun _ => ?_, ((us.perm _ res).append_right om).trans hperm, hom⟩
    have := us.sorted (fun (a b : NB (Dbl κ) ℕ) => decide (a.dist ≤ b.dist)) (by
      intro a b c h1 h2
      simp only [decide_eq_true_eq] at *
      exact h1.trans h2) (by
      intro a b
      simpa using le_total a.dist b.dist) res
    simpa using this

example (us : USort) (cosine hav : List (Dbl lanes) → List (Dbl lanes) → Dbl lanes) (r : Dbl lanes) (he : 0 + eps < r) :
    ∃ s0 res, PyKDT.new us cosine hav ⟨16, [List.replicate 16 (0 : Dbl lanes), List.replicate 16 (ofInt 3 : Flt f64)]⟩ true "l2" = .ok s0 ∧
      within us s0.cfg s0.tree (List.replicate 16 0) r true = some (some res) ∧ res.length ≤ 2 := by
  obtain ⟨s0, hs⟩ := two_rows us cosine hav true
  obtain ⟨d, res, om, _, h, _, hp, _⟩ := within_simd_partial lanes_isKernel us cosine hav _ true "l2" (.inl rfl) (by simp) (by simp)
    (by simp) (by
      intro r hr
      rcases List.mem_cons.1 hr with rfl | hr
      · simp
      · rw [List.mem_singleton.1 hr]; exact List.length_replicate) [] (by simp) s0 hs (List.replicate 16 0) r he true
  refine ⟨s0, res, hs, h, ?_⟩
  have h1 := hp.length_eq
  have h2 : (KDT.Spec.ball d (List.replicate 16 0) r (KDT.Spec.numbered (KDT.Spec.rows
      (⟨16, [List.replicate 16 (0 : Dbl lanes), List.replicate 16 (ofInt 3 : Flt f64)]⟩ : Mat (Dbl lanes)) []))).length ≤ 2 :=
    (List.length_filter_le _ _).trans (by simp [KDT.Spec.all, KDT.Spec.numbered, KDT.Spec.rows])
  rw [List.length_append] at h1
  omega

/-- **C162b.** The same for the k nearest neighbors with a tolerance: at most `k` rows in order of the computed distance, each once and within
the bound; a row that is left out is not nearer than the bound or than `k` returned rows, up to the tolerance and rounding. -/
theorem knn_simd_partial (hκ : IsKernel κ) (us : USort) (cosine hav : List (Dbl κ) → List (Dbl κ) → Dbl κ) (X0 : Mat (Dbl κ))
    (balanced : Bool) (name : String) (hm : name = "l2" ∨ name = "sql2") (h16 : 16 ≤ X0.ncols) (hbig : X0.ncols ≤ 2 ^ 40)
    (hr : X0.rows ≠ []) (hX : X0.Rect) (adds : List (Mat (Dbl κ))) (ha : ∀ X ∈ adds, X.Rect) (s0 : PyKDT (Dbl κ))
    (hs : PyKDT.new us cosine hav X0 balanced name = .ok s0) (q : List (Dbl κ)) (k : ℕ) (hk : 0 < k) (bound epsilon : Dbl κ)
    (he : 0 ≤ epsilon) :
    ∃ d res omitted, KDT.Dist.ofString cosine hav name X0.ncols = .ok d ∧
      knnUnchecked (s0.adds us adds).cfg (s0.adds us adds).tree k q bound epsilon = some res ∧
      res.length ≤ k ∧ (res.Pairwise fun a b => a.dist ≤ b.dist) ∧ (∀ x ∈ res, x.dist ≤ bound) ∧
      (res ++ omitted).Perm (KDT.Spec.all d q (KDT.Spec.numbered (KDT.Spec.rows X0 adds))) ∧
      ∀ x ∈ omitted, bound.val ≤ reach X0.ncols epsilon.val x.dist.val ∨
        (res.length = k ∧ ∀ t ∈ res, t.dist.val ≤ reach X0.ncols epsilon.val x.dist.val) := by
  obtain ⟨d, hd, hw⟩ := wide_metric cosine hav hm h16
  have inv := tree_inv hd (by omega) hr hX ha hs
  have hS := slack_of hκ hw (by omega : 1 ≤ X0.ncols) hbig q (val_le.1 he)
  obtain ⟨res, g1, g2⟩ := knnLoop_root hS hk bound inv.wf
  obtain ⟨om, g3, g4⟩ := g2.split
  have hperm := g3.trans (all_perm d q inv.pts)
  refine ⟨d, res, om, hd, ?_, g2.len, g2.sorted, g2.bounded, hperm, ?_⟩
  · unfold knnUnchecked
    rw [inv.d_eq, g1]
  · intro x hx
    have hmem := hperm.mem_iff.1 (List.mem_append_right res hx)
    obtain ⟨p, _, rfl⟩ := List.mem_map.1 hmem
    have h0 := wide_nonneg hκ hw p.row q
    rcases g4 _ hx with h | h
    · exact .inl (h h0)
    · exact .inr ⟨h.1, fun t ht => h.2 t ht h0⟩

example (us : USort) (cosine hav : List (Dbl lanes) → List (Dbl lanes) → Dbl lanes) (bound : Dbl lanes) :
    ∃ s0 res, PyKDT.new us cosine hav ⟨16, [List.replicate 16 (0 : Dbl lanes), List.replicate 16 (ofInt 3 : Flt f64)]⟩ true "l2" = .ok s0 ∧
      knnUnchecked s0.cfg s0.tree 1 (List.replicate 16 0) bound 0 = some res ∧ res.length ≤ 1 := by
  obtain ⟨s0, hs⟩ := two_rows us cosine hav true
  obtain ⟨d, res, om, _, h, hl, _⟩ := knn_simd_partial lanes_isKernel us cosine hav _ true "l2" (.inl rfl) (by simp) (by simp)
    (by simp) (by
      intro r hr
      rcases List.mem_cons.1 hr with rfl | hr
      · simp
      · rw [List.mem_singleton.1 hr]; exact List.length_replicate) [] (by simp) s0 hs (List.replicate 16 0) 1 one_pos bound 0 le_rfl
  exact ⟨s0, res, hs, h, hl⟩

end Verif.SimdTree
