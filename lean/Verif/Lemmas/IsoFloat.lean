import Verif.Lemmas.IsoGeneric
import Mathlib.Data.Real.Basic
import Mathlib.Algebra.BigOperators.Group.List.Basic
import Mathlib.Tactic.Linarith
import Mathlib.Tactic.Positivity
import Mathlib.Tactic.FieldSimp
import Mathlib.Tactic.Ring

/-!
# Isotonic regression with rounded arithmetic

`Pre` and `Suf` say that prefixes of a block have weighted mean at least the block's value, and suffixes at most, up to
a slack; merging adds to the slack.
-/

set_option linter.unusedSectionVars false

namespace Verif.Iso.Rd
open Verif.Iso Verif.Iso.Gen

/-- Weight of a list of `(value, weight)`. -/
def W (C : List (ℝ × ℝ)) : ℝ := (C.map (·.2)).sum
/-- Weighted sum of the deviations from `v`. -/
def D (C : List (ℝ × ℝ)) (v : ℝ) : ℝ := (C.map fun p => p.2 * (p.1 - v)).sum

def Pre (ε : ℝ) (C : List (ℝ × ℝ)) (v : ℝ) : Prop := ∀ P, P <+: C → -ε * W P ≤ D P v
def Suf (ε : ℝ) (C : List (ℝ × ℝ)) (v : ℝ) : Prop := ∀ S, S <:+ C → D S v ≤ ε * W S

def Pos (C : List (ℝ × ℝ)) : Prop := ∀ p ∈ C, 1 ≤ p.2

@[simp] theorem W_append (A B) : W (A ++ B) = W A + W B := by simp [W]
@[simp] theorem D_append (A B v) : D (A ++ B) v = D A v + D B v := by simp [D]
@[simp] theorem W_nil : W [] = 0 := rfl
@[simp] theorem D_nil (v) : D [] v = 0 := rfl
@[simp] theorem W_cons (p A) : W (p :: A) = p.2 + W A := by simp [W]
@[simp] theorem D_cons (p A v) : D (p :: A) v = p.2 * (p.1 - v) + D A v := by simp [D]

theorem D_shift (C v v') : D C v = D C v' + (v' - v) * W C := by
  induction C with
  | nil => simp
  | cons p C ih => rw [D_cons, D_cons, W_cons, ih]; ring

theorem Pos.prefix {P C} (h : Pos C) (hp : P <+: C) : Pos P := fun p hp' => h p (hp.subset hp')
theorem Pos.suffix {P C} (h : Pos C) (hp : P <:+ C) : Pos P := fun p hp' => h p (hp.subset hp')

theorem W_nonneg {C} (h : Pos C) : 0 ≤ W C := by
  apply List.sum_nonneg
  intro x hx
  obtain ⟨p, hp, rfl⟩ := List.mem_map.1 hx
  linarith [h p hp]

theorem W_one {C} (h : Pos C) (hn : C ≠ []) : 1 ≤ W C := by
  obtain ⟨p, C, rfl⟩ := List.exists_cons_of_ne_nil hn
  rw [W_cons]
  have := h p (by simp)
  have := W_nonneg (C := C) fun q hq => h q (by simp [hq])
  linarith

theorem W_mono_prefix {P C} (h : Pos C) (hp : P <+: C) : W P ≤ W C := by
  obtain ⟨S, rfl⟩ := hp
  rw [W_append]
  linarith [W_nonneg (C := S) fun q hq => h q (by simp [hq])]

theorem W_mono_suffix {S C} (h : Pos C) (hp : S <:+ C) : W S ≤ W C := by
  obtain ⟨P, rfl⟩ := hp
  rw [W_append]
  linarith [W_nonneg (C := P) fun q hq => h q (by simp [hq])]

theorem Pre.mono {ε ε' C v} (h : Pre ε C v) (hC : Pos C) (he : ε ≤ ε') : Pre ε' C v := by
  intro P hP
  have := h P hP
  have := W_nonneg (hC.prefix hP)
  nlinarith

theorem Suf.mono {ε ε' C v} (h : Suf ε C v) (hC : Pos C) (he : ε ≤ ε') : Suf ε' C v := by
  intro P hP
  have := h P hP
  have := W_nonneg (hC.suffix hP)
  nlinarith

/-- Another value for the block. -/
theorem Pre.move {ε C v} (h : Pre ε C v) (hC : Pos C) {v' δ : ℝ} (hd : |v' - v| ≤ δ) : Pre (ε + δ) C v' := by
  intro P hP
  rw [D_shift P v' v]
  have h1 := h P hP
  have h2 := W_nonneg (hC.prefix hP)
  have h3 := (abs_le.1 hd).2
  nlinarith

theorem Suf.move {ε C v} (h : Suf ε C v) (hC : Pos C) {v' δ : ℝ} (hd : |v' - v| ≤ δ) : Suf (ε + δ) C v' := by
  intro P hP
  rw [D_shift P v' v]
  have h1 := h P hP
  have h2 := W_nonneg (hC.suffix hP)
  have h3 := (abs_le.1 hd).1
  nlinarith

theorem interp {a b p α β c : ℝ} (hb : 0 < b) (ha : 0 < a) (hp : 0 ≤ p) (hpb : p ≤ b) (h1 : -c ≤ α)
    (h2 : -c * (a + b) ≤ a * α + b * β) : -c * (a + p) ≤ a * α + p * β := by
  have f0 : 0 ≤ (α + c) * a := mul_nonneg (by linarith) ha.le
  have fb : 0 ≤ (α + c) * a + (β + c) * b := by linarith
  have : 0 ≤ ((α + c) * a + (β + c) * p) * b := by
    have e : ((α + c) * a + (β + c) * p) * b = (α + c) * a * (b - p) + ((α + c) * a + (β + c) * b) * p := by ring
    rw [e]
    exact add_nonneg (mul_nonneg f0 (by linarith)) (mul_nonneg fb hp)
  have := nonneg_of_mul_nonneg_left this hb
  linarith

theorem prefix_append_cases {α : Type} {P A B : List α} (h : P <+: A ++ B) : P <+: A ∨ ∃ P', P = A ++ P' ∧ P' <+: B := by
  obtain ⟨R, hR⟩ := h
  rcases List.append_eq_append_iff.1 hR with ⟨t, h1, h2⟩ | ⟨t, h1, h2⟩
  · exact Or.inl ⟨t, h1.symm⟩
  · exact Or.inr ⟨t, h1, ⟨R, h2.symm⟩⟩

theorem suffix_append_cases {α : Type} {S A B : List α} (h : S <:+ A ++ B) : S <:+ B ∨ ∃ S', S = S' ++ B ∧ S' <:+ A := by
  obtain ⟨R, hR⟩ := h
  rcases List.append_eq_append_iff.1 hR with ⟨t, h1, h2⟩ | ⟨t, h1, h2⟩
  · exact Or.inr ⟨t, h2, ⟨R, h1.symm⟩⟩
  · exact Or.inl ⟨t, h2.symm⟩

/-- Merging two blocks whose values are in the wrong order up to `τ`, into a value that is the mean up to `κ`. -/
theorem merge {A B : List (ℝ × ℝ)} {α β v ε κ τ : ℝ} (hA : Pos A) (hB : Pos B) (nA : A ≠ []) (nB : B ≠ [])
    (hτ : 0 ≤ τ) (h : β ≤ α + τ) (hv : |v * (W A + W B) - (W A * α + W B * β)| ≤ κ * (W A + W B)) :
    (Pre ε A α → Pre ε B β → Pre (ε + (κ + τ)) (A ++ B) v) ∧ (Suf ε A α → Suf ε B β → Suf (ε + (κ + τ)) (A ++ B) v) := by
  have a1 := W_one hA nA
  have b1 := W_one hB nB
  obtain ⟨hv1, hv2⟩ := abs_le.1 hv
  have hs : 0 < W A + W B := by linarith
  have hα : -(κ + τ) ≤ α - v := by
    have : 0 ≤ (α - v + (κ + τ)) * (W A + W B) := by
      have e : (α - v + (κ + τ)) * (W A + W B) =
        (W A * α + W B * β - v * (W A + W B) + κ * (W A + W B)) + (α + τ - β) * W B + τ * W A := by ring
      rw [e]
      have := mul_nonneg (sub_nonneg.2 h) (by linarith : 0 ≤ W B)
      have := mul_nonneg hτ (by linarith : 0 ≤ W A)
      linarith
    have := nonneg_of_mul_nonneg_left this hs
    linarith
  have hβ : -(κ + τ) ≤ v - β := by
    have : 0 ≤ (v - β + (κ + τ)) * (W A + W B) := by
      have e : (v - β + (κ + τ)) * (W A + W B) =
        (v * (W A + W B) - (W A * α + W B * β) + κ * (W A + W B)) + (α + τ - β) * W A + τ * W B := by ring
      rw [e]
      have := mul_nonneg (sub_nonneg.2 h) (by linarith : 0 ≤ W A)
      have := mul_nonneg hτ (by linarith : 0 ≤ W B)
      linarith
    have := nonneg_of_mul_nonneg_left this hs
    linarith
  constructor
  · intro pA pB P hP
    rcases prefix_append_cases hP with h1 | ⟨P', rfl, h1⟩
    · rw [D_shift P v α]
      have := pA P h1
      have := W_nonneg (hA.prefix h1)
      nlinarith
    · rw [D_append, W_append, D_shift A v α, D_shift P' v β]
      have h2 := pA A List.prefix_rfl
      have h3 := pB P' h1
      have := interp (c := κ + τ) (a := W A) (b := W B) (p := W P') (α := α - v) (β := β - v) (by linarith) (by linarith)
        (W_nonneg (hB.prefix h1)) (W_mono_prefix hB h1) hα (by nlinarith)
      nlinarith
  · intro pA pB S hS
    rcases suffix_append_cases hS with h1 | ⟨S', rfl, h1⟩
    · rw [D_shift S v β]
      have := pB S h1
      have := W_nonneg (hB.suffix h1)
      nlinarith
    · rw [D_append, W_append, D_shift B v β, D_shift S' v α]
      have h2 := pB B List.suffix_rfl
      have h3 := pA S' h1
      have := interp (c := κ + τ) (a := W B) (b := W A) (p := W S') (α := v - β) (β := v - α) (by linarith) (by linarith)
        (W_nonneg (hA.suffix h1)) (W_mono_suffix hA h1) hβ (by nlinarith)
      nlinarith

/-- The value of a block is within the range of its data, up to the slack. -/
theorem abs_value {C : List (ℝ × ℝ)} {v ε Y : ℝ} (hC : Pos C) (hn : C ≠ []) (hY : ∀ p ∈ C, |p.1| ≤ Y) (h1 : Pre ε C v)
    (h2 : Suf ε C v) : |v| ≤ Y + ε := by
  have w1 := W_one hC hn
  have key : ∀ C : List (ℝ × ℝ), Pos C → (∀ p ∈ C, |p.1| ≤ Y) → D C 0 ≤ Y * W C ∧ -Y * W C ≤ D C 0 := by
    intro C
    induction C with
    | nil => intro _ _; simp
    | cons p C ih =>
      intro hC hY
      obtain ⟨i1, i2⟩ := ih (fun q hq => hC q (by simp [hq])) fun q hq => hY q (by simp [hq])
      have hp := hC p (by simp)
      obtain ⟨y1, y2⟩ := abs_le.1 (hY p (by simp))
      rw [D_cons, W_cons]
      constructor <;> nlinarith
  obtain ⟨k1, k2⟩ := key C hC hY
  have p1 := h1 C List.prefix_rfl
  have p2 := h2 C List.suffix_rfl
  rw [D_shift C v 0] at p1 p2
  have hpos : 0 < W C := by linarith
  rw [abs_le]
  constructor
  · have : 0 ≤ (v + (Y + ε)) * W C := by nlinarith
    linarith [nonneg_of_mul_nonneg_left this hpos]
  · have : 0 ≤ (Y + ε - v) * W C := by nlinarith
    linarith [nonneg_of_mul_nonneg_left this hpos]

/-- Arithmetic that rounds: results whose exact value is at most `Ω` are off by at most `u` relatively plus `η`, sums of
weights are exact. -/
structure Rounded {K : Type} [Add K] [Mul K] [Div K] [LE K] (val : K → ℝ) (u η Ω : ℝ) (Wt : ℝ → Prop) : Prop where
  le : ∀ a b : K, a ≤ b ↔ val a ≤ val b
  add : ∀ a b : K, |val a + val b| ≤ Ω → |val (a + b) - (val a + val b)| ≤ u * |val a + val b| + η
  mul : ∀ a b : K, |val a * val b| ≤ Ω → |val (a * b) - val a * val b| ≤ u * |val a * val b| + η
  div : ∀ a b : K, |val a / val b| ≤ Ω → |val (a / b) - val a / val b| ≤ u * |val a / val b| + η
  wadd : ∀ a b : K, Wt (val a + val b) → val (a + b) = val a + val b

variable {K : Type} [Add K] [Mul K] [Div K] [Zero K] [One K] [LinearOrder K]

/-- The numbers behind `(value, weight)`. -/
def reals (val : K → ℝ) (C : List (K × K)) : List (ℝ × ℝ) := C.map fun p => (val p.1, val p.2)

@[simp] theorem reals_append (val : K → ℝ) (A B) : reals val (A ++ B) = reals val A ++ reals val B := by simp [reals]
@[simp] theorem reals_length (val : K → ℝ) (A) : (reals val A).length = A.length := by simp [reals]
theorem reals_ne {val : K → ℝ} {A} (h : A ≠ []) : reals val A ≠ [] := by simpa [reals] using h

/-- The data for which the error is bounded. -/
structure Tame (val : K → ℝ) (data : List (K × K)) (u η Ω : ℝ) (Wt : ℝ → Prop) (Y ρ : ℝ) : Prop where
  hu : 0 ≤ u
  hu' : u ≤ 1 / 16
  hη : 0 ≤ η
  hρ : u * Y + η ≤ ρ
  hY : ∀ p ∈ data, |val p.1| ≤ Y
  hw : ∀ p ∈ data, 1 ≤ val p.2
  hWt : ∀ C, C <:+: data → Wt (W (reals val C))
  hΩ : 4 * Y * W (reals val data) ≤ Ω
  hn : 9 * data.length * ρ ≤ Y

variable {val : K → ℝ} {data : List (K × K)} {u η Ω Y ρ : ℝ} {Wt : ℝ → Prop}

def Qp (val : K → ℝ) (data : List (K × K)) (ρ : ℝ) (C : List (K × K)) (v w : K) : Prop :=
  C ≠ [] ∧ C <:+: data ∧ val w = W (reals val C) ∧
    Pre (9 * (C.length - 1) * ρ) (reals val C) (val v) ∧ Suf (9 * (C.length - 1) * ρ) (reals val C) (val v)

def Mp (val : K → ℝ) (data : List (K × K)) (ρ : ℝ) (C : List (K × K)) (s w : K) : Prop :=
  C ≠ [] ∧ C <:+: data ∧ val w = W (reals val C) ∧
    Pre (9 * (C.length - 1) * ρ - 2 * ρ) (reals val C) (val s / val w) ∧
    Suf (9 * (C.length - 1) * ρ - 2 * ρ) (reals val C) (val s / val w)

theorem pos_of (T : Tame val data u η Ω Wt Y ρ) {C} (h : C <:+: data) : Pos (reals val C) := by
  intro p hp
  obtain ⟨q, hq, rfl⟩ := List.mem_map.1 hp
  exact T.hw q (h.subset hq)

theorem hY_of (T : Tame val data u η Ω Wt Y ρ) {C} (h : C <:+: data) : ∀ p ∈ reals val C, |p.1| ≤ Y := by
  intro p hp
  obtain ⟨q, hq, rfl⟩ := List.mem_map.1 hp
  exact T.hY q (h.subset hq)

theorem Y_nonneg (T : Tame val data u η Ω Wt Y ρ) {C} (h : C <:+: data) (hn : C ≠ []) : 0 ≤ Y := by
  obtain ⟨p, C, rfl⟩ := List.exists_cons_of_ne_nil hn
  exact le_trans (abs_nonneg _) (T.hY p (h.subset (by simp)))

theorem ρ_nonneg (T : Tame val data u η Ω Wt Y ρ) {C} (h : C <:+: data) (hn : C ≠ []) : 0 ≤ ρ := by
  have := mul_nonneg T.hu (Y_nonneg T h hn)
  linarith [T.hρ, T.hη]

theorem slack_le (T : Tame val data u η Ω Wt Y ρ) {C} (h : C <:+: data) (hn : C ≠ []) : 9 * (C.length - 1) * ρ ≤ Y := by
  have h1 : (C.length : ℝ) ≤ data.length := by exact_mod_cast h.length_le
  have h2 := ρ_nonneg T h hn
  have := T.hn
  nlinarith

theorem W_le (T : Tame val data u η Ω Wt Y ρ) {C} (h : C <:+: data) : W (reals val C) ≤ W (reals val data) := by
  obtain ⟨a, b, hab⟩ := h
  have := pos_of T (List.infix_rfl (l := data))
  rw [← hab] at this ⊢
  simp only [reals_append, W_append]
  have h1 := W_nonneg (C := reals val a) fun q hq => this q (by simp [hq])
  have h2 := W_nonneg (C := reals val b) fun q hq => this q (by simp [hq])
  linarith

theorem Qp.abs (T : Tame val data u η Ω Wt Y ρ) {C v w} (h : Qp val data ρ C v w) : |val v| ≤ 2 * Y := by
  obtain ⟨h1, h2, -, h3, h4⟩ := h
  have := abs_value (pos_of T h2) (reals_ne h1) (hY_of T h2) h3 h4
  linarith [slack_le T h2 h1]

theorem Mp.abs (T : Tame val data u η Ω Wt Y ρ) {C s w} (h : Mp val data ρ C s w) : |val s / val w| ≤ 2 * Y := by
  obtain ⟨h1, h2, -, h3, h4⟩ := h
  have := abs_value (pos_of T h2) (reals_ne h1) (hY_of T h2) h3 h4
  linarith [slack_le T h2 h1, ρ_nonneg T h2 h1]

/-- Dividing. -/
theorem Mp.div (R : Rounded val u η Ω Wt) (T : Tame val data u η Ω Wt Y ρ) {C s w} (h : Mp val data ρ C s w) :
    |val (s / w) - val s / val w| ≤ 2 * ρ := by
  have ha := h.abs T
  obtain ⟨h1, h2, -⟩ := h
  have hY := Y_nonneg T h2 h1
  have w1 := W_one (pos_of T h2) (reals_ne h1)
  have w2 := W_le T h2
  have hO : 2 * Y ≤ Ω := by have := T.hΩ; nlinarith
  have := R.div s w (by linarith)
  have h3 := T.hρ
  have h4 := T.hη
  have h5 := mul_le_mul_of_nonneg_left ha T.hu
  linarith

/-- Merged slack. -/
theorem Mp.intro (T : Tame val data u η Ω Wt Y ρ) {A B : List (K × K)} {α β : ℝ} {s w : K} (nA : A ≠ []) (nB : B ≠ [])
    (hAB : A ++ B <:+: data) (hA : Pre (9 * (A.length - 1) * ρ) (reals val A) α ∧ Suf (9 * (A.length - 1) * ρ) (reals val A) α)
    (hB : Pre (9 * (B.length - 1) * ρ) (reals val B) β ∧ Suf (9 * (B.length - 1) * ρ) (reals val B) β)
    (hw : val w = W (reals val (A ++ B))) (h : β ≤ α + 2 * ρ)
    (hs : |val s - (W (reals val A) * α + W (reals val B) * β)| ≤ 5 * ρ * (W (reals val A) + W (reals val B))) :
    Mp val data ρ (A ++ B) s w := by
  have iA : A <:+: data := (List.prefix_append A B).isInfix.trans hAB
  have iB : B <:+: data := (List.suffix_append A B).isInfix.trans hAB
  have hρ := ρ_nonneg T iA nA
  have pA := pos_of T iA
  have pB := pos_of T iB
  have wA := W_one pA (reals_ne nA)
  have wB := W_one pB (reals_ne nB)
  have lA : (1 : ℝ) ≤ A.length := by exact_mod_cast List.length_pos_of_ne_nil nA
  have lB : (1 : ℝ) ≤ B.length := by exact_mod_cast List.length_pos_of_ne_nil nB
  have hw' : val w = W (reals val A) + W (reals val B) := by rw [hw, reals_append, W_append]
  have hne : val w ≠ 0 := by rw [hw']; linarith
  set ε := 9 * ((A.length : ℝ) + B.length - 2) * ρ with hε
  have eA : 9 * ((A.length : ℝ) - 1) * ρ ≤ ε := by rw [hε]; nlinarith
  have eB : 9 * ((B.length : ℝ) - 1) * ρ ≤ ε := by rw [hε]; nlinarith
  have := merge (A := reals val A) (B := reals val B) (α := α) (β := β) (v := val s / val w) (ε := ε) (κ := 5 * ρ) (τ := 2 * ρ)
    pA pB (reals_ne nA) (reals_ne nB) (by linarith) h (by rw [← hw', div_mul_cancel₀ _ hne, hw']; exact hs)
  have e : ε + (5 * ρ + 2 * ρ) = 9 * (((A ++ B).length : ℕ) - 1 : ℝ) * ρ - 2 * ρ := by
    rw [hε, List.length_append, Nat.cast_add]; ring
  rw [e] at this
  refine ⟨by simp [nA], hAB, hw, ?_, ?_⟩
  · rw [reals_append]; exact this.1 (hA.1.mono pA eA) (hB.1.mono pB eB)
  · rw [reals_append]; exact this.2 (hA.2.mono pA eA) (hB.2.mono pB eB)

/-- Rounding of a weighted sum of two values. -/
theorem sum_err (R : Rounded val u η Ω Wt) {a b α β : ℝ} {x y : K} (hu : 0 ≤ u) (hu' : u ≤ 1 / 16) (hη : 0 ≤ η) (hY : 0 ≤ Y)
    (hηY : 9 * η ≤ Y) (hρ : u * Y + η ≤ ρ)
    (ha : 1 ≤ a) (hb : 1 ≤ b) (hα : |α| ≤ 2 * Y) (hβ : |β| ≤ 2 * Y) (hO : 4 * Y * (a + b) ≤ Ω)
    (hx : |val x - a * α| ≤ u * (2 * Y * a) + η) (hy : |val y - b * β| ≤ u * (2 * Y * b) + η) :
    |val (x + y) - (a * α + b * β)| ≤ 5 * ρ * (a + b) := by
  have haα : |a * α| ≤ 2 * Y * a := by rw [abs_mul, abs_of_nonneg (by linarith : 0 ≤ a)]; nlinarith
  have hbβ : |b * β| ≤ 2 * Y * b := by rw [abs_mul, abs_of_nonneg (by linarith : 0 ≤ b)]; nlinarith
  have hYa : 0 ≤ Y * (a + b) := mul_nonneg hY (by linarith)
  have huY : u * (Y * (a + b)) ≤ 1 / 16 * (Y * (a + b)) := mul_le_mul_of_nonneg_right hu' hYa
  have huY0 : 0 ≤ u * (Y * (a + b)) := mul_nonneg hu hYa
  have hηab : 2 * η ≤ η * (a + b) := by nlinarith
  have hηab' : 9 * (η * (a + b)) ≤ Y * (a + b) := by nlinarith
  have hsum : |val x + val y| ≤ 2 * (Y * (a + b)) + 2 * (u * (Y * (a + b))) + 2 * η := by
    have e : val x + val y = (val x - a * α) + (val y - b * β) + (a * α + b * β) := by ring
    rw [e]
    refine le_trans (abs_add_le _ _) ?_
    have h1 := abs_add_le (val x - a * α) (val y - b * β)
    have h2 := abs_add_le (a * α) (b * β)
    nlinarith
  have hadd := R.add x y (by nlinarith)
  have e : val (x + y) - (a * α + b * β) = (val (x + y) - (val x + val y)) + ((val x - a * α) + (val y - b * β)) := by ring
  rw [e]
  refine le_trans (abs_add_le _ _) ?_
  have h1 := abs_add_le (val x - a * α) (val y - b * β)
  have h2 := mul_le_mul_of_nonneg_left hsum hu
  have h3 : u * (2 * (Y * (a + b)) + 2 * (u * (Y * (a + b))) + 2 * η) ≤
      2 * (u * (Y * (a + b))) + 1 / 8 * (u * (Y * (a + b))) + 1 / 8 * η := by
    have := mul_le_mul_of_nonneg_right hu' huY0
    have := mul_le_mul_of_nonneg_right hu' hη
    nlinarith
  have h4 : (u * Y + η) * (a + b) ≤ ρ * (a + b) := mul_le_mul_of_nonneg_right hρ (by linarith)
  nlinarith

theorem eta_Y (T : Tame val data u η Ω Wt Y ρ) {C} (h : C <:+: data) (hn : C ≠ []) : 9 * η ≤ Y := by
  have h0 := Y_nonneg T h hn
  have h1 := ρ_nonneg T h hn
  have h2 : (1 : ℝ) ≤ data.length := by
    have := h.length_le
    have := List.length_pos_of_ne_nil hn
    exact_mod_cast (by omega : 1 ≤ data.length)
  have h3 := T.hρ
  have h4 := mul_nonneg T.hu h0
  have h5 := T.hn
  nlinarith

theorem mul_err (R : Rounded val u η Ω Wt) (T : Tame val data u η Ω Wt Y ρ) {C v w} (h : Qp val data ρ C v w) :
    |val (w * v) - W (reals val C) * val v| ≤ u * (2 * Y * W (reals val C)) + η := by
  have ha := h.abs T
  obtain ⟨h1, h2, h3, -⟩ := h
  have hY := Y_nonneg T h2 h1
  have w1 := W_one (pos_of T h2) (reals_ne h1)
  have w2 := W_le T h2
  have hb : |val w * val v| ≤ 2 * Y * W (reals val C) := by
    rw [h3, abs_mul, abs_of_nonneg (by linarith : 0 ≤ W (reals val C))]; nlinarith
  have := R.mul w v (by have := T.hΩ; nlinarith)
  rw [← h3]
  refine le_trans this ?_
  rw [h3] at hb ⊢
  linarith [mul_le_mul_of_nonneg_left hb T.hu]

/-- The slacks are kept by the loops. -/
theorem sound (R : Rounded val u η Ω Wt) (T : Tame val data u η Ω Wt Y ρ) : Sound data (Qp val data ρ) (Mp val data ρ) := by
  have hOm : ∀ A B : List (K × K), A ++ B <:+: data → A ≠ [] → 4 * Y * (W (reals val A) + W (reals val B)) ≤ Ω := by
    intro A B h hn
    have h1 := W_le T h
    rw [reals_append, W_append] at h1
    have h2 := Y_nonneg T h (by simp [hn])
    have := T.hΩ
    nlinarith
  have hwt : ∀ {A B : List (K × K)} {a b : K}, A ++ B <:+: data → val a = W (reals val A) → val b = W (reals val B) →
      val (a + b) = W (reals val (A ++ B)) ∧ val (b + a) = W (reals val (A ++ B)) := by
    intro A B a b h h1 h2
    have h3 := T.hWt _ h
    rw [reals_append, W_append] at h3 ⊢
    rw [← h1, ← h2] at h3 ⊢
    exact ⟨R.wadd a b h3, by rw [R.wadd b a (by rwa [add_comm])]; ring⟩
  constructor
  · intro p hp
    have hi : [p] <:+: data := (List.singleton_infix_iff p data).2 hp
    refine ⟨by simp, hi, by simp [reals], ?_, ?_⟩
    · intro P hP
      rcases prefix_append_cases (A := []) (by simpa using hP) with h | ⟨P', rfl, h⟩
      · rw [List.prefix_nil.1 h]; simp
      · simp only [reals, List.map_cons, List.map_nil] at h ⊢
        rcases List.prefix_cons_iff.1 h with h | ⟨t, h, h'⟩
        · rw [h]; simp
        · rw [List.prefix_nil.1 h'] at h; rw [h]; simp
    · intro P hP
      simp only [reals, List.map_cons, List.map_nil] at hP
      rcases List.suffix_cons_iff.1 hP with h | h
      · rw [h]; simp
      · rw [List.suffix_nil.1 h]; simp
  · intro A B va wa vb wb h hA hB hle
    have hle' := (R.le _ _).1 hle
    have eA := mul_err R T hA
    have eB := mul_err R T hB
    have aA := hA.abs T
    have aB := hB.abs T
    obtain ⟨a1, a2, a3, a4⟩ := hA
    obtain ⟨b1, b2, b3, b4⟩ := hB
    refine Mp.intro T a1 b1 h a4 b4 (hwt h a3 b3).2 (by linarith [ρ_nonneg T a2 a1]) ?_
    exact sum_err R T.hu T.hu' T.hη (Y_nonneg T a2 a1) (eta_Y T a2 a1) T.hρ (W_one (pos_of T a2) (reals_ne a1))
      (W_one (pos_of T b2) (reals_ne b1)) aA aB (hOm A B h a1) eA eB
  · intro C B s w vb wb h hC hB hle
    have hle' := (R.le _ _).1 hle
    have hd := (abs_le.1 (hC.div R T)).2
    have eB := mul_err R T hB
    have aC := hC.abs T
    have aB := hB.abs T
    obtain ⟨a1, a2, a3, a4, a5⟩ := hC
    obtain ⟨b1, b2, b3, b4⟩ := hB
    have hρ := ρ_nonneg T a2 a1
    have pC := pos_of T a2
    have wC := W_one pC (reals_ne a1)
    refine Mp.intro T a1 b1 h ⟨a4.mono pC (by linarith), a5.mono pC (by linarith)⟩ b4 (hwt h a3 b3).1 (by linarith) ?_
    refine sum_err R T.hu T.hu' T.hη (Y_nonneg T a2 a1) (eta_Y T a2 a1) T.hρ wC
      (W_one (pos_of T b2) (reals_ne b1)) aC aB (hOm C B h a1) ?_ eB
    rw [← a3, mul_div_cancel₀ _ (by rw [a3]; linarith), sub_self, abs_zero, a3]
    exact add_nonneg (mul_nonneg T.hu (mul_nonneg (by linarith [Y_nonneg T a2 a1]) (by linarith))) T.hη
  · intro A C s w va wa h hC hA hle
    have hle' := (R.le _ _).1 hle
    have hd := (abs_le.1 (hC.div R T)).1
    have eA := mul_err R T hA
    have aC := hC.abs T
    have aA := hA.abs T
    obtain ⟨c1, c2, c3, c4, c5⟩ := hC
    obtain ⟨a1, a2, a3, a4⟩ := hA
    have hρ := ρ_nonneg T a2 a1
    have pC := pos_of T c2
    have wC := W_one pC (reals_ne c1)
    refine Mp.intro T a1 c1 h a4 ⟨c4.mono pC (by linarith), c5.mono pC (by linarith)⟩ (hwt h a3 c3).2 (by linarith) ?_
    have := sum_err (x := s) (y := wa * va) R T.hu T.hu' T.hη (Y_nonneg T a2 a1) (eta_Y T a2 a1) T.hρ wC
      (W_one (pos_of T a2) (reals_ne a1)) aC aA (by have := hOm A C h a1; linarith) (by
        rw [← c3, mul_div_cancel₀ _ (by rw [c3]; linarith), sub_self, abs_zero, c3]
        exact add_nonneg (mul_nonneg T.hu (mul_nonneg (by linarith [Y_nonneg T a2 a1]) (by linarith))) T.hη) eA
    rw [add_comm (W (reals val A) * val va), add_comm (W (reals val A))]
    exact this
  · intro C s w h
    have hd := h.div R T
    obtain ⟨c1, c2, c3, c4, c5⟩ := h
    have pC := pos_of T c2
    refine ⟨c1, c2, c3, ?_, ?_⟩
    · exact (c4.move pC hd).mono pC (by linarith)
    · exact (c5.move pC hd).mono pC (by linarith)
  · intro C v w h
    exact h.1

/-- All data of blocks of `(value, weight)`. -/
def flatR (xs : List (List (ℝ × ℝ) × ℝ)) : List (ℝ × ℝ) := xs.flatMap (·.1)
/-- Every block repeats its value. -/
def fitR (xs : List (List (ℝ × ℝ) × ℝ)) : List ℝ := xs.flatMap fun B => List.replicate B.1.length B.2

theorem locate : ∀ (xs : List (List (ℝ × ℝ) × ℝ)) (i : ℕ) (v : ℝ), (fitR xs)[i]? = some v →
    ∃ x1 A x2, xs = x1 ++ A :: x2 ∧ A.2 = v ∧ (flatR x1).length ≤ i ∧ i < (flatR x1).length + A.1.length := by
  intro xs
  induction xs with
  | nil => intro i v h; simp [fitR] at h
  | cons B xs ih =>
    intro i v h
    simp only [fitR, List.flatMap_cons] at h
    by_cases hi : i < B.1.length
    · rw [List.getElem?_append_left (by simpa using hi), List.getElem?_replicate_of_lt hi] at h
      exact ⟨[], B, xs, rfl, Option.some.inj h, by simp [flatR], by simpa [flatR] using hi⟩
    · rw [List.getElem?_append_right (by simpa using hi), List.length_replicate] at h
      obtain ⟨x1, A, x2, h1, h2, h3, h4⟩ := ih _ _ h
      refine ⟨B :: x1, A, x2, by rw [h1]; rfl, h2, ?_, ?_⟩ <;> simp only [flatR, List.flatMap_cons, List.length_append] at h3 h4 ⊢ <;> omega

theorem pre_all {ε v : ℝ} : ∀ xs : List (List (ℝ × ℝ) × ℝ), Pos (flatR xs) → (∀ B ∈ xs, Pre ε B.1 B.2 ∧ v ≤ B.2) →
    Pre ε (flatR xs) v := by
  intro xs
  induction xs with
  | nil => intro _ _ P hP; rw [List.prefix_nil.1 hP]; simp
  | cons B xs ih =>
    intro hp h P hP
    simp only [flatR, List.flatMap_cons] at hP hp
    have hB := h B (by simp)
    have pB : Pos B.1 := fun q hq => hp q (by simp [hq])
    have key : ∀ P, P <+: B.1 → -ε * W P ≤ D P v := by
      intro P hP
      rw [D_shift P v B.2]
      have := hB.1 P hP
      have := mul_nonneg (sub_nonneg.2 hB.2) (W_nonneg (pB.prefix hP))
      linarith
    rcases prefix_append_cases hP with h1 | ⟨P', rfl, h1⟩
    · exact key P h1
    · have := ih (fun q hq => hp q (by rw [List.mem_append]; exact Or.inr hq)) (fun A hA => h A (by simp [hA])) P' h1
      have := key B.1 List.prefix_rfl
      rw [D_append, W_append]; linarith

theorem suf_all {ε v : ℝ} : ∀ xs : List (List (ℝ × ℝ) × ℝ), Pos (flatR xs) → (∀ B ∈ xs, Suf ε B.1 B.2 ∧ B.2 ≤ v) →
    Suf ε (flatR xs) v := by
  intro xs
  induction xs with
  | nil => intro _ _ P hP; rw [List.suffix_nil.1 hP]; simp
  | cons B xs ih =>
    intro hp h P hP
    simp only [flatR, List.flatMap_cons] at hP hp
    have hB := h B (by simp)
    have pB : Pos B.1 := fun q hq => hp q (by simp [hq])
    have key : ∀ P, P <:+ B.1 → D P v ≤ ε * W P := by
      intro P hP
      rw [D_shift P v B.2]
      have := hB.1 P hP
      have := mul_nonneg (sub_nonneg.2 hB.2) (W_nonneg (pB.suffix hP))
      linarith
    have ih' := ih (fun q hq => hp q (by rw [List.mem_append]; exact Or.inr hq)) (fun A hA => h A (by simp [hA]))
    rcases suffix_append_cases hP with h1 | ⟨P', rfl, h1⟩
    · exact ih' P h1
    · have h2 := ih' _ List.suffix_rfl
      have h3 := key P' h1
      rw [flatR] at h2
      rw [D_append, W_append]; linarith

/-- Two block fits of the same data are close wherever prefixes of the first and suffixes of the second behave. -/
theorem compare {ε ε' : ℝ} (xs ys : List (List (ℝ × ℝ) × ℝ)) (he : flatR xs = flatR ys) (hp : Pos (flatR xs))
    (hx : ∀ B ∈ xs, Pre ε B.1 B.2) (hy : ∀ B ∈ ys, Suf ε' B.1 B.2) (sx : (xs.map (·.2)).Pairwise (· < ·))
    (sy : (ys.map (·.2)).Pairwise (· < ·)) (i : ℕ) (v z : ℝ) (h1 : (fitR xs)[i]? = some v) (h2 : (fitR ys)[i]? = some z) :
    v - z ≤ ε + ε' := by
  obtain ⟨x1, A, x2, rfl, rfl, a1, a2⟩ := locate xs i v h1
  obtain ⟨y1, B, y2, rfl, rfl, b1, b2⟩ := locate ys i z h2
  set Dt := flatR (x1 ++ A :: x2) with hD
  have hdrop : Dt.drop (flatR x1).length = flatR (A :: x2) := by
    rw [hD]; simp only [flatR, List.flatMap_append]; exact List.drop_left
  have htake : Dt.take ((flatR y1).length + B.1.length) = flatR (y1 ++ [B]) := by
    rw [he]
    have e1 : flatR (y1 ++ B :: y2) = flatR (y1 ++ [B]) ++ flatR y2 := by simp [flatR]
    rw [e1]; exact List.take_left' (by simp [flatR])
  set S := (Dt.drop (flatR x1).length).take ((flatR y1).length + B.1.length - (flatR x1).length) with hS
  have hS1 : S <+: flatR (A :: x2) := by rw [hS, hdrop]; exact List.take_prefix _ _
  have hS2 : S <:+ flatR (y1 ++ [B]) := by rw [hS, ← List.drop_take, htake]; exact List.drop_suffix _ _
  have pS1 : Pos (flatR (A :: x2)) := by rw [← hdrop]; exact hp.suffix (List.drop_suffix _ _)
  have pS2 : Pos (flatR (y1 ++ [B])) := by rw [← htake]; exact hp.prefix (List.take_prefix _ _)
  have hne : S ≠ [] := by
    intro h
    have := congrArg List.length h
    rw [hS, hdrop, List.length_take] at this
    simp only [flatR, List.flatMap_cons, List.length_append, List.length_nil] at this a1 a2 b1 b2
    omega
  have k1 : -ε * W S ≤ D S A.2 := by
    refine pre_all (A :: x2) pS1 ?_ S hS1
    intro C hC
    refine ⟨hx C (by simp only [List.mem_append]; exact Or.inr hC), ?_⟩
    rcases List.mem_cons.1 hC with rfl | hC
    · exact le_refl _
    · rw [List.map_append, List.pairwise_append, List.map_cons, List.pairwise_cons] at sx
      exact (sx.2.1.1 _ (List.mem_map_of_mem hC)).le
  have k2 : D S B.2 ≤ ε' * W S := by
    refine suf_all (y1 ++ [B]) pS2 ?_ S hS2
    intro C hC
    refine ⟨hy C (by simp only [List.mem_append, List.mem_cons] at hC ⊢; tauto), ?_⟩
    rw [List.map_append, List.pairwise_append, List.map_cons] at sy
    rcases List.mem_append.1 hC with hC | hC
    · exact (sy.2.2 _ (List.mem_map_of_mem hC) _ (by simp)).le
    · rw [List.mem_singleton.1 hC]
  have w1 := W_one (pS1.prefix hS1) hne
  rw [D_shift S A.2 B.2] at k1
  have : 0 ≤ (ε + ε' - (A.2 - B.2)) * W S := by linarith
  linarith [nonneg_of_mul_nonneg_left this (by linarith)]

/-- Numbers behind blocks. -/
def realB (val : K → ℝ) (bs : List (Blk K)) : List (List (ℝ × ℝ) × ℝ) := bs.map fun B => (reals val B.data, val B.val)

theorem flatR_realB (val : K → ℝ) (bs : List (Blk K)) : flatR (realB val bs) = reals val (flat bs) := by
  induction bs with
  | nil => rfl
  | cons B bs ih => simp only [flatR, realB, List.map_cons, List.flatMap_cons, flat_cons, reals_append] at ih ⊢; rw [ih]

theorem fitR_realB (val : K → ℝ) (bs : List (Blk K)) : fitR (realB val bs) = (fit bs).map val := by
  induction bs with
  | nil => rfl
  | cons B bs ih =>
    simp only [fitR, realB, List.map_cons, List.flatMap_cons, fit, List.map_append, List.map_replicate, reals_length] at ih ⊢; rw [ih]

/-- Two arithmetics on the same numbers give close results. -/
theorem close {K' : Type} [Add K'] [Mul K'] [Div K'] [Zero K'] [One K'] [LinearOrder K'] {val' : K' → ℝ} {u' η' Ω' ρ' : ℝ} {Wt' : ℝ → Prop}
    (x w : List K) (x' w' : List K') (R : Rounded val u η Ω Wt) (R' : Rounded val' u' η' Ω' Wt')
    (T : Tame val (x.zip w) u η Ω Wt Y ρ) (T' : Tame val' (x'.zip w') u' η' Ω' Wt' Y ρ') (hl : w.length = x.length) (hl' : w'.length = x'.length)
    (hn : x ≠ []) (h64 : x.length ≤ 2 ^ 64) (ex : x'.map val' = x.map val) (ew : w'.map val' = w.map val) :
    ∃ f g, isotonic x w = some f ∧ isotonic x' w' = some g ∧ f.length = x.length ∧ g.length = x.length ∧ f.Pairwise (· ≤ ·) ∧
      ∀ (i : ℕ) a b, f[i]? = some a → g[i]? = some b → |val a - val' b| ≤ 9 * x.length * (ρ + ρ') := by
  have lx : x'.length = x.length := by have := congrArg List.length ex; simpa using this
  have ed : reals val' (x'.zip w') = reals val (x.zip w) := by
    have e : ∀ {T : Type} (f : T → ℝ) (a b : List T), (a.zip b).map (fun p => (f p.1, f p.2)) = (a.map f).zip (b.map f) := by
      intro T f a b; rw [List.zip_map]; rfl
    unfold reals
    rw [e, e, ex, ew]
  obtain ⟨bs, a1, a2, a3, a4⟩ := isotonic_blocks x w (sound R T) hl hn h64
  obtain ⟨cs, b1, b2, b3, b4⟩ := isotonic_blocks x' w' (sound R' T') hl' (by
    intro h; rw [h] at lx; exact hn (List.length_eq_zero_iff.1 (by simpa using lx.symm))) (by rw [lx]; exact h64)
  have ldat : (x.zip w).length = x.length := by rw [List.length_zip]; omega
  have ldat' : (x'.zip w').length = x.length := by rw [List.length_zip]; omega
  refine ⟨fit bs, fit cs, a4, b4, by rw [fit_length, a1, ldat], by rw [fit_length, b1, ldat'], fit_sorted bs a3, ?_⟩
  have hne : x.zip w ≠ [] := by intro h; rw [h] at ldat; exact hn (List.length_eq_zero_iff.1 ldat.symm)
  have hne' : x'.zip w' ≠ [] := by intro h; rw [h] at ldat'; exact hn (List.length_eq_zero_iff.1 ldat'.symm)
  have r1 := ρ_nonneg T List.infix_rfl hne
  have r2 := ρ_nonneg T' List.infix_rfl hne'
  have fe : flatR (realB val bs) = flatR (realB val' cs) := by rw [flatR_realB, flatR_realB, a1, b1, ed]
  have hp : Pos (flatR (realB val bs)) := by rw [flatR_realB, a1]; exact pos_of T List.infix_rfl
  have gp : ∀ B ∈ realB val bs, Pre (9 * x.length * ρ) B.1 B.2 ∧ Suf (9 * x.length * ρ) B.1 B.2 := by
    intro B hB
    obtain ⟨C, hC, rfl⟩ := List.mem_map.1 hB
    obtain ⟨-, q2, -, q4, q5⟩ := a2 C hC
    have : (C.data.length : ℝ) ≤ x.length := by have := q2.length_le; rw [ldat] at this; exact_mod_cast this
    exact ⟨q4.mono (pos_of T q2) (by nlinarith), q5.mono (pos_of T q2) (by nlinarith)⟩
  have gp' : ∀ B ∈ realB val' cs, Pre (9 * x.length * ρ') B.1 B.2 ∧ Suf (9 * x.length * ρ') B.1 B.2 := by
    intro B hB
    obtain ⟨C, hC, rfl⟩ := List.mem_map.1 hB
    obtain ⟨-, q2, -, q4, q5⟩ := b2 C hC
    have : (C.data.length : ℝ) ≤ x.length := by have := q2.length_le; rw [ldat'] at this; exact_mod_cast this
    exact ⟨q4.mono (pos_of T' q2) (by nlinarith), q5.mono (pos_of T' q2) (by nlinarith)⟩
  have vlt : ∀ {a b : K}, a < b → val a < val b := fun {a b} h => lt_of_not_ge fun hh => not_le.2 h ((R.le b a).2 hh)
  have vlt' : ∀ {a b : K'}, a < b → val' a < val' b := fun {a b} h => lt_of_not_ge fun hh => not_le.2 h ((R'.le b a).2 hh)
  have s1 : ((realB val bs).map (·.2)).Pairwise (· < ·) := by
    rw [realB, List.map_map, List.pairwise_map]
    exact (List.pairwise_map.1 a3).imp fun h => vlt h
  have s2 : ((realB val' cs).map (·.2)).Pairwise (· < ·) := by
    rw [realB, List.map_map, List.pairwise_map]
    exact (List.pairwise_map.1 b3).imp fun h => vlt' h
  intro i a b ha hb
  have ha' : (fitR (realB val bs))[i]? = some (val a) := by rw [fitR_realB, List.getElem?_map, ha]; rfl
  have hb' : (fitR (realB val' cs))[i]? = some (val' b) := by rw [fitR_realB, List.getElem?_map, hb]; rfl
  have c1 := compare _ _ fe hp (fun B hB => (gp B hB).1) (fun B hB => (gp' B hB).2) s1 s2 i _ _ ha' hb'
  have c2 := compare _ _ fe.symm (fe ▸ hp) (fun B hB => (gp' B hB).1) (fun B hB => (gp B hB).2) s2 s1 i _ _ hb' ha'
  rw [abs_le]
  constructor <;> linarith

end Verif.Iso.Rd
