import Verif.Lemmas.IsoFloat
import Verif.Props.Isotonic
import Verif.Props.Ieee
import Verif.Lemmas.Doubles

/-!
# Property C154: isotonic regression in double arithmetic
-/

namespace Verif.Iso
open Verif Verif.Ieee
open Verif.FloatBits (f64)

namespace Spec

/-- `val` reads a type with operations as numbers that are compared by value and whose operations round the exact result
to the nearest double as long as that is at most `2 ^ 1023` (nothing is said about results beyond). -/
structure IsDouble {K : Type} [Add K] [Mul K] [Div K] [Zero K] [One K] [LE K] (val : K → ℝ) : Prop where
  le : ∀ a b : K, a ≤ b ↔ val a ≤ val b
  zero : val 0 = 0
  one : val 1 = 1
  add : ∀ a b : K, |val a + val b| ≤ 2 ^ 1023 → val (a + b) = fl f64 (val a + val b)
  mul : ∀ a b : K, |val a * val b| ≤ 2 ^ 1023 → val (a * b) = fl f64 (val a * val b)
  div : ∀ a b : K, |val a / val b| ≤ 2 ^ 1023 → val (a / b) = fl f64 (val a / val b)

/-- Monotone in the requested direction. -/
def Mono {K : Type} [LE K] (inc : Bool) (f : List K) : Prop := f.Pairwise fun a b => if inc then a ≤ b else b ≤ a

/-- The monotone column of least weighted squared error. -/
structure IsBest (inc : Bool) (y w z : List ℝ) : Prop where
  len : z.length = y.length
  mono : Mono inc z
  best : ∀ z' : List ℝ, z'.length = y.length → Mono inc z' → cost (y.zip w) z ≤ cost (y.zip w) z'

end Spec

section any
set_option linter.unusedSectionVars false
variable {K : Type} [Add K] [Mul K] [Div K] [Zero K] [One K] [LinearOrder K]

theorem mapM_some (l : List K) : (l.map some).mapM id = some l := by
  induction l with
  | nil => rfl
  | cons a l ih => simp [ih]

theorem weights_given (ws : Option (List K)) (n : Nat) (inc : Bool) (hl : ∀ w, ws = some w → w.length = n)
    (hp : ∀ w, ws = some w → ∀ v ∈ w, 0 < v) :
    weights (ws.map (·.map some)) n inc = .ok (if inc then Spec.weightsOf ws n else (Spec.weightsOf ws n).reverse) := by
  cases ws with
  | none => cases inc <;> simp [weights, Spec.weightsOf]
  | some w =>
    have hl := hl w rfl
    have hp := hp w rfl
    simp only [Spec.weightsOf, Option.getD_some]
    have hany : w.any (fun x => decide (x ≤ 0)) = false := by
      rw [List.any_eq_false]
      intro x hx
      simpa using hp x hx
    simp only [weights, Option.map_some, List.length_map, hl, ne_eq, not_true_eq_false, if_false, mapM_some, hany,
      Bool.false_eq_true]

theorem weightsOf_length {ws : Option (List K)} {n : Nat} (hl : ∀ w, ws = some w → w.length = n) : (Spec.weightsOf ws n).length = n := by
  cases ws with
  | none => simp [Spec.weightsOf]
  | some w => simpa [Spec.weightsOf] using hl w rfl

/-- The expression in terms of the loops. -/
theorem plIsotonic_eq (y : List K) (ws : Option (List K)) (inc : Bool) (h2 : 2 ≤ y.length)
    (hl : ∀ w, ws = some w → w.length = y.length) (hp : ∀ w, ws = some w → ∀ v ∈ w, 0 < v) (f : List K)
    (hf : isotonic (if inc then y else y.reverse)
      (if inc then Spec.weightsOf ws y.length else (Spec.weightsOf ws y.length).reverse) = some f) :
    plIsotonic (y.map some) (ws.map (·.map some)) inc = .ok ((if inc then f else f.reverse).map some) := by
  have hlen : ¬ (y.map some).length ≤ 1 := by simp; omega
  simp only [plIsotonic, if_neg hlen, mapM_some, weights_given ws _ inc hl hp, hf]

/-- **C154**, first part: whatever `+`, `*` and `/` do (rounding, overflow), the expression does not fail and its result is
as long as the input and monotone in the requested direction. -/
theorem isotonic_any_arithmetic (y : List K) (ws : Option (List K)) (inc : Bool) (h2 : 2 ≤ y.length) (h64 : y.length ≤ 2 ^ 64)
    (hl : ∀ w, ws = some w → w.length = y.length) (hp : ∀ w, ws = some w → ∀ v ∈ w, 0 < v) :
    ∃ f : List K, plIsotonic (y.map some) (ws.map (·.map some)) inc = .ok (f.map some) ∧ f.length = y.length ∧ Spec.Mono inc f := by
  have hwl := weightsOf_length hl
  have key : ∀ x w : List K, x ≠ [] → w.length = x.length → x.length ≤ 2 ^ 64 →
      ∃ f, isotonic x w = some f ∧ f.length = x.length ∧ f.Pairwise (· ≤ ·) := by
    intro x w hx hw h64
    obtain ⟨bs, h1, -, h3, h4⟩ := Gen.isotonic_blocks (Q := fun C _ _ => C ≠ []) (M := fun C _ _ => C ≠ []) x w
      ⟨by simp, by simp +contextual, by simp +contextual, by simp +contextual, by simp +contextual, by simp⟩ hw hx h64
    exact ⟨_, h4, by rw [Gen.fit_length, h1, List.length_zip]; omega, Gen.fit_sorted bs h3⟩
  cases inc with
  | true =>
    obtain ⟨f, f1, f2, f3⟩ := key y _ (by intro h; simp [h] at h2) hwl h64
    exact ⟨f, plIsotonic_eq y ws true h2 hl hp f f1, f2, by simpa [Spec.Mono] using f3⟩
  | false =>
    obtain ⟨f, f1, f2, f3⟩ := key y.reverse (Spec.weightsOf ws y.length).reverse (by intro h; simp at h; simp [h] at h2)
      (by simpa using hwl) (by simpa using h64)
    exact ⟨f.reverse, plIsotonic_eq y ws false h2 hl hp f f1, by simpa using f2, by
      rw [Spec.Mono, List.pairwise_reverse]; simpa using f3⟩

/-- **C154**, second part: whatever the arithmetic does, a column that is already strictly monotone in the requested direction
comes back unchanged. -/
theorem isotonic_strict (y : List K) (ws : Option (List K)) (inc : Bool) (h2 : 2 ≤ y.length) (h64 : y.length ≤ 2 ^ 64)
    (hl : ∀ w, ws = some w → w.length = y.length) (hp : ∀ w, ws = some w → ∀ v ∈ w, 0 < v)
    (hs : y.Pairwise fun a b => if inc then a < b else b < a) :
    plIsotonic (y.map some) (ws.map (·.map some)) inc = .ok (y.map some) := by
  have hwl := weightsOf_length hl
  have key : ∀ x w : List K, x ≠ [] → w.length = x.length → x.length ≤ 2 ^ 64 → x.Pairwise (· < ·) → isotonic x w = some x := by
    intro x w hx hw h64 hs
    have hd : (x.zip w).Pairwise fun a b => a.1 < b.1 := by
      have e : (x.zip w).map (·.1) = x := List.map_fst_zip (by omega)
      rw [← e, List.pairwise_map] at hs
      exact hs
    obtain ⟨bs, h1, h2, -, h4⟩ := Gen.isotonic_blocks (Q := fun C v u => C = [(v, u)]) (M := fun _ _ _ => False) x w
      ⟨by simp, by
        rintro A B va wa vb wb h rfl rfl hle
        have := List.Pairwise.sublist h.sublist hd
        simp at this
        exact absurd hle (not_le.2 this), by simp, by simp, by simp, by simp +contextual⟩ hw hx h64
    rw [h4]
    have : ∀ bs : List (Gen.Blk K), (∀ B ∈ bs, B.data = [(B.val, B.wgt)]) → Gen.fit bs = (Gen.flat bs).map (·.1) := by
      intro bs
      induction bs with
      | nil => intro _; rfl
      | cons B bs ih =>
        intro h
        have h1 := h B (by simp)
        have h2 := ih fun A hA => h A (by simp [hA])
        simp only [Gen.fit, List.flatMap_cons, Gen.flat_cons, List.map_append] at h2 ⊢
        rw [h2, h1]; simp
    rw [this bs h2, h1, List.map_fst_zip (by omega)]
  cases inc with
  | true =>
    have := key y _ (by intro h; simp [h] at h2) hwl h64 (by simpa using hs)
    simpa using plIsotonic_eq y ws true h2 hl hp y this
  | false =>
    have := key y.reverse (Spec.weightsOf ws y.length).reverse (by intro h; simp at h; simp [h] at h2)
      (by simpa using hwl) (by simpa using h64) (by rw [List.pairwise_reverse]; simpa using hs)
    simpa using plIsotonic_eq y ws false h2 hl hp y.reverse this

end any

section double
variable {K : Type} [Add K] [Mul K] [Div K] [Zero K] [One K] [LinearOrder K] {val : K → ℝ}

/-- Sums of weights that are integers up to `2 ^ 53`. -/
def IsWt (x : ℝ) : Prop := ∃ n : ℕ, x = n ∧ n ≤ 2 ^ 53

theorem unit64 : unit f64 = 2 ^ (-53 : ℤ) := by norm_num [unit, f64]
theorem tiny64 : tiny f64 = 2 ^ (-1075 : ℤ) := by norm_num [tiny, f64]

theorem rounded (h : Spec.IsDouble val) : Rd.Rounded val (2 ^ (-53 : ℤ)) (2 ^ (-1075 : ℤ)) (2 ^ 1023) IsWt := by
  rw [← unit64, ← tiny64]
  constructor
  · exact h.le
  · intro a b hab; rw [h.add a b hab]; exact fl_err_mixed f64 _
  · intro a b hab; rw [h.mul a b hab]; exact fl_err_mixed f64 _
  · intro a b hab; rw [h.div a b hab]; exact fl_err_mixed f64 _
  · rintro a b ⟨n, hn, hn'⟩
    have h1 : (n : ℝ) ≤ 2 ^ 53 := by exact_mod_cast hn'
    have h2 : (2 : ℝ) ^ 53 ≤ 2 ^ 1023 := pow_le_pow_right₀ (by norm_num) (by norm_num)
    rw [h.add a b (by rw [hn, abs_of_nonneg (by positivity)]; exact h1.trans h2), hn]
    exact Doubles.rd_nat hn'

theorem rounded_real {Y s : ℝ} : Rd.Rounded (fun x : ℝ => x) 0 0 (4 * Y * s) (fun _ => True) := by
  constructor <;> simp

theorem wt_of : ∀ (C : List (ℝ × ℝ)), (∀ p ∈ C, ∃ n : ℕ, 1 ≤ n ∧ p.2 = n) → ∃ n : ℕ, Rd.W C = n := by
  intro C
  induction C with
  | nil => intro _; exact ⟨0, by simp⟩
  | cons p C ih =>
    intro h
    obtain ⟨n, hn⟩ := ih fun q hq => h q (by simp [hq])
    obtain ⟨m, -, hm⟩ := h p (by simp)
    exact ⟨m + n, by rw [Rd.W_cons, hn, hm]; push_cast; rfl⟩

/-- **C154**, third part: in double arithmetic, for weights that are positive integers (or none) of total at most `2 ^ 53`,
at most `2 ^ 49` values of size at most `Y` (which is at least `2 ^ -1020`) with `4 Y` times the total weight at most `2 ^ 1023`, the
result is monotone and every value is within `9 n (2 ^ -53 Y + 2 ^ -1075)` of the monotone fit of least weighted
squared error. -/
theorem isotonic_double (hv : Spec.IsDouble val) (y : List K) (ws : Option (List K)) (inc : Bool) (h2 : 2 ≤ y.length)
    (hn : y.length ≤ 2 ^ 49) (hl : ∀ w, ws = some w → w.length = y.length)
    (hw : ∀ w, ws = some w → ∀ v ∈ w, ∃ n : ℕ, 1 ≤ n ∧ val v = n)
    (hW : ((Spec.weightsOf ws y.length).map val).sum ≤ 2 ^ 53) {Y : ℝ} (hY : ∀ v ∈ y, |val v| ≤ Y)
    (hY0 : (2 : ℝ) ^ (-1020 : ℤ) ≤ Y) (hYW : 4 * Y * ((Spec.weightsOf ws y.length).map val).sum ≤ 2 ^ 1023) {z : List ℝ}
    (hz : Spec.IsBest inc (y.map val) ((Spec.weightsOf ws y.length).map val) z) :
    ∃ f : List K, plIsotonic (y.map some) (ws.map (·.map some)) inc = .ok (f.map some) ∧ f.length = y.length ∧ Spec.Mono inc f ∧
      ∀ (i : ℕ) a b, f[i]? = some a → z[i]? = some b →
        |val a - b| ≤ 9 * y.length * (2 ^ (-53 : ℤ) * Y + 2 ^ (-1075 : ℤ)) := by
  have hwl := weightsOf_length hl
  have hYpos : 0 < Y := lt_of_lt_of_le (by positivity) hY0
  have h64 : y.length ≤ 2 ^ 64 := hn.trans (by norm_num)
  have hp : ∀ w, ws = some w → ∀ v ∈ w, 0 < v := by
    intro w h v hv'
    obtain ⟨n, h1, h2⟩ := hw w h v hv'
    rw [← not_le, hv.le, hv.zero, h2, not_le]
    exact_mod_cast h1
  have hnat : ∀ v ∈ Spec.weightsOf ws y.length, ∃ n : ℕ, 1 ≤ n ∧ val v = n := by
    intro v hv'
    cases ws with
    | none => exact ⟨1, le_refl _, by rw [List.eq_of_mem_replicate hv', hv.one]; simp⟩
    | some w => exact hw w rfl v hv'
  generalize hρ : (2 : ℝ) ^ (-53 : ℤ) * Y + 2 ^ (-1075 : ℤ) = ρ
  have hslack : 9 * (y.length : ℝ) * ρ ≤ Y := by
    have h1 : (y.length : ℝ) ≤ 2 ^ 49 := by exact_mod_cast hn
    have h0 : 0 ≤ ρ := by rw [← hρ]; positivity
    have e1 : 9 * 2 ^ 49 * ρ = 9 / 16 * Y + 9 / 64 * 2 ^ (-1020 : ℤ) := by
      have e2 : (2 : ℝ) ^ (-1075 : ℤ) = 2 ^ (-1020 : ℤ) * 2 ^ (-55 : ℤ) := by rw [← zpow_add₀ (by norm_num)]; norm_num
      rw [← hρ, e2]
      generalize (2 : ℝ) ^ (-1020 : ℤ) = t
      norm_num
      ring
    nlinarith
  -- everything for data in the order the loops see
  have key : ∀ (x w : List K), x.length = y.length → w.length = x.length → (∀ v ∈ x, |val v| ≤ Y) →
      (∀ v ∈ w, ∃ n : ℕ, 1 ≤ n ∧ val v = n) → (w.map val).sum = ((Spec.weightsOf ws y.length).map val).sum →
      ∃ f g, isotonic x w = some f ∧ isotonic (x.map val) (w.map val) = some g ∧ f.length = x.length ∧ g.length = x.length ∧
        f.Pairwise (· ≤ ·) ∧ ∀ (i : ℕ) a b, f[i]? = some a → g[i]? = some b → |val a - b| ≤ 9 * x.length * ρ := by
    intro x w hx hwx hxY hwn hsum
    have hdl : (x.zip w).length = x.length := by rw [List.length_zip]; omega
    have hre : Rd.reals val (x.zip w) = (x.map val).zip (w.map val) := by rw [List.zip_map]; rfl
    have hre' : Rd.reals (fun x : ℝ => x) ((x.map val).zip (w.map val)) = (x.map val).zip (w.map val) := by
      simp [Rd.reals]
    have hWs : Rd.W ((x.map val).zip (w.map val)) = ((Spec.weightsOf ws y.length).map val).sum := by
      rw [Rd.W, List.map_snd_zip (by simp; omega), hsum]
    have hnn : ∀ p ∈ (x.map val).zip (w.map val), ∃ n : ℕ, 1 ≤ n ∧ p.2 = n := by
      intro p hp
      have := (List.of_mem_zip (a := p.1) (b := p.2) hp).2
      obtain ⟨v, hv, hv'⟩ := List.mem_map.1 this
      obtain ⟨n, h1, h2⟩ := hwn v hv
      exact ⟨n, h1, by rw [← hv', h2]⟩
    have T : Rd.Tame val (x.zip w) (2 ^ (-53 : ℤ)) (2 ^ (-1075 : ℤ)) (2 ^ 1023) IsWt Y ρ := by
      refine ⟨by positivity, by norm_num, by positivity, hρ.le, ?_, ?_, ?_, ?_, ?_⟩
      · intro p hp; exact hxY _ (List.of_mem_zip (a := p.1) (b := p.2) hp).1
      · intro p hp
        obtain ⟨n, h1, h2⟩ := hwn _ (List.of_mem_zip (a := p.1) (b := p.2) hp).2
        rw [h2]; exact_mod_cast h1
      · rintro C ⟨a, b, hab⟩
        have hall : ∀ p ∈ Rd.reals val (x.zip w), ∃ n : ℕ, 1 ≤ n ∧ p.2 = n := by rw [hre]; exact hnn
        rw [← hab] at hall
        simp only [Rd.reals_append] at hall
        obtain ⟨n, e1⟩ := wt_of (Rd.reals val C) fun p hp => hall p (by simp [hp])
        obtain ⟨m, e2⟩ := wt_of (Rd.reals val a) fun p hp => hall p (by simp [hp])
        obtain ⟨k, e3⟩ := wt_of (Rd.reals val b) fun p hp => hall p (by simp [hp])
        refine ⟨n, e1, ?_⟩
        have ht : Rd.W (Rd.reals val (x.zip w)) ≤ 2 ^ 53 := by rw [hre, hWs]; exact hW
        rw [← hab] at ht
        simp only [Rd.reals_append, Rd.W_append, e1, e2, e3] at ht
        have : m + n + k ≤ 2 ^ 53 := by exact_mod_cast ht
        omega
      · rw [hre, hWs]; exact hYW
      · rw [hdl, hx]; exact hslack
    have T' : Rd.Tame (fun x : ℝ => x) ((x.map val).zip (w.map val)) 0 0
        (4 * Y * ((Spec.weightsOf ws y.length).map val).sum) (fun _ => True) Y 0 := by
      refine ⟨le_refl _, by norm_num, le_refl _, by simp, ?_, ?_, by simp, ?_, by simpa using hYpos.le⟩
      · intro p hp
        obtain ⟨v, hv, hv'⟩ := List.mem_map.1 (List.of_mem_zip (a := p.1) (b := p.2) hp).1
        rw [← hv']; exact hxY v hv
      · intro p hp
        obtain ⟨n, h1, h2⟩ := hnn p hp
        rw [h2]; exact_mod_cast h1
      · rw [hre', hWs]
    have := Rd.close x w (x.map val) (w.map val) (rounded hv) rounded_real T T' hwx (by simpa using hwx)
      (by intro h; rw [h] at hx; simp at hx; omega) (by omega) (by simp) (by simp)
    simpa using this
  have hposR : ∀ v ∈ Spec.weightsOf (some ((Spec.weightsOf ws y.length).map val)) (y.map val).length, 0 < v := by
    intro v hv'
    obtain ⟨u, hu, rfl⟩ := List.mem_map.1 (by simpa [Spec.weightsOf] using hv')
    obtain ⟨n, h1, h2⟩ := hnat u (by simpa [Spec.weightsOf] using hu)
    rw [h2]; exact_mod_cast h1
  have hexact := isotonic_unique (y.map val) (some ((Spec.weightsOf ws y.length).map val)) inc (by simpa using h2)
    (by simpa using h64) (by simp [Spec.weightsOf] at hwl ⊢; exact hwl) hposR z hz.len hz.mono hz.best
  have hgz : ∀ g, isotonic (if inc then y.map val else (y.map val).reverse)
      (if inc then (Spec.weightsOf ws y.length).map val else ((Spec.weightsOf ws y.length).map val).reverse) = some g →
      z = if inc then g else g.reverse := by
    intro g hg
    have := plIsotonic_eq (y.map val) (some ((Spec.weightsOf ws y.length).map val)) inc (by simpa using h2)
      (by rintro w ⟨⟩; simpa using hwl) (by rintro w ⟨⟩; simpa [Spec.weightsOf] using hposR) g (by simpa [Spec.weightsOf] using hg)
    rw [hexact] at this
    have := Out.ok.inj this
    exact (List.map_injective_iff.2 (Option.some_injective ℝ)) this
  cases inc with
  | true =>
    obtain ⟨f, g, f1, g1, f2, g2, f3, f4⟩ := key y _ rfl hwl hY hnat rfl
    have := hgz g (by simpa using g1)
    simp only [if_true] at this
    subst this
    exact ⟨f, plIsotonic_eq y ws true h2 hl hp f f1, f2, by simpa [Spec.Mono] using f3, f4⟩
  | false =>
    obtain ⟨f, g, f1, g1, f2, g2, f3, f4⟩ := key y.reverse (Spec.weightsOf ws y.length).reverse (by simp) (by simpa using hwl)
      (by simpa using hY) (by simpa using hnat) (by simp [List.map_reverse, List.sum_reverse])
    have := hgz g (by simpa [List.map_reverse] using g1)
    simp only [Bool.false_eq_true, if_false] at this
    subst this
    refine ⟨f.reverse, plIsotonic_eq y ws false h2 hl hp f f1, by simpa using f2, ?_, ?_⟩
    · rw [Spec.Mono, List.pairwise_reverse]; simpa using f3
    · intro i a b ha hb
      rw [List.length_reverse] at f2 g2
      have hi : i < f.length := by
        have := (List.getElem?_eq_some_iff.1 ha).1; simpa using this
      rw [List.getElem?_reverse hi] at ha
      rw [List.getElem?_reverse (by omega), g2, ← f2] at hb
      have := f4 _ a b ha hb
      simpa using this

theorem ulp_eq {x : ℝ} {e k : ℤ} (h1 : (2 : ℝ) ^ e ≤ x) (h2 : x < 2 ^ (e + 1)) (h3 : e - (f64.frac : ℤ) = k) (h4 : f64.low ≤ k) :
    ulp f64 x = k := by
  have hp : 0 < x := lt_of_lt_of_le (by positivity) h1
  have hlog : Int.log 2 x = e := by
    refine le_antisymm ?_ ?_
    · have := (Int.lt_zpow_iff_log_lt (b := 2) (by norm_num) (x := e + 1) hp).1 (by exact_mod_cast h2)
      omega
    · exact (Int.zpow_le_iff_le_log (b := 2) (by norm_num) hp).1 (by exact_mod_cast h1)
  rw [ulp, abs_of_pos hp, hlog, h3, max_eq_left h4]

/-- **C154**, disagreement: three equal values are pooled and come back as another number, above all of the data: in units of
`2 ^ -56` the value is the double next to `0.1`. -/
theorem isotonic_ties_move (hv : Spec.IsDouble val) (y : K) (hy : val y = 7205759403792794) :
    ∃ f : K, plIsotonic [some y, some y, some y] none true = .ok [some f, some f, some f] ∧ val f = val y + 1 := by
  have r1 : ∀ n : ℕ, n ≤ 2 ^ 53 → fl f64 (n : ℝ) = n := fun n hn => Doubles.rd_nat hn
  have hbig : (2 : ℝ) ^ 60 ≤ 2 ^ 1023 := pow_le_pow_right₀ (by norm_num) (by norm_num)
  have hN : (2 : ℝ) ^ 60 = 1152921504606846976 := by norm_num
  rw [hN] at hbig
  generalize hB : (2 : ℝ) ^ 1023 = B at hbig
  have add : ∀ a b : K, |val a + val b| ≤ B → val (a + b) = fl f64 (val a + val b) := by rw [← hB]; exact hv.add
  have mul : ∀ a b : K, |val a * val b| ≤ B → val (a * b) = fl f64 (val a * val b) := by rw [← hB]; exact hv.mul
  have div : ∀ a b : K, |val a / val b| ≤ B → val (a / b) = fl f64 (val a / val b) := by rw [← hB]; exact hv.div
  clear hB hN
  have v1 : val (1 * y) = 7205759403792794 := by
    rw [mul _ _ (by rw [hv.one, hy]; norm_num; linarith), hv.one, hy, one_mul]
    exact_mod_cast r1 7205759403792794 (by norm_num)
  have v2 : val (1 * y + 1 * y) = 14411518807585588 := by
    rw [add _ _ (by rw [v1]; norm_num; linarith), v1]
    have : fl f64 ((7205759403792794 : ℤ) * 2 ^ (1 : ℤ)) = (7205759403792794 : ℤ) * 2 ^ (1 : ℤ) :=
      fl_rep f64 ⟨_, _, by norm_num [f64], by norm_num [f64], rfl⟩
    norm_num at this ⊢; exact this
  have v3 : val ((1 : K) + 1) = 2 := by
    rw [add _ _ (by rw [hv.one]; norm_num; linarith), hv.one]
    have := r1 2 (by norm_num); norm_num at this ⊢; exact this
  have v4 : val ((1 : K) + 1 + 1) = 3 := by
    rw [add _ _ (by rw [v3, hv.one]; norm_num; linarith), v3, hv.one]
    have := r1 3 (by norm_num); norm_num at this ⊢; exact this
  have v5 : val ((1 * y + 1 * y) / (1 + 1)) = 7205759403792794 := by
    rw [div _ _ (by rw [v2, v3]; norm_num; linarith), v2, v3]
    have := r1 7205759403792794 (by norm_num); norm_num at this ⊢; exact this
  have v6 : val (1 * y + 1 * y + 1 * y) = 21617278211378384 := by
    rw [add _ _ (by rw [v2, v1]; norm_num; linarith), v2, v1, show (14411518807585588 + 7205759403792794 : ℝ) = 21617278211378382 by norm_num]
    have hu : ulp f64 21617278211378382 = 2 := ulp_eq (e := 54) (by norm_num) (by norm_num) (by norm_num [f64]) (by norm_num [f64])
    have hf : ⌊(21617278211378382 : ℝ) / 2 ^ (2 : ℤ)⌋ = 5404319552844595 := by
      rw [Int.floor_eq_iff]; norm_num
    have hr : Int.fract ((21617278211378382 : ℝ) / 2 ^ (2 : ℤ)) = 1 / 2 := by
      rw [Int.fract, hf]; norm_num
    unfold fl
    rw [hu]
    unfold rne
    rw [hr, hf, if_neg (lt_irrefl _), if_neg (lt_irrefl _), if_neg (by decide)]
    norm_num
  have v7 : val ((1 * y + 1 * y + 1 * y) / (1 + 1 + 1)) = 7205759403792795 := by
    rw [div _ _ (by rw [v6, v4]; norm_num; linarith), v6, v4]
    have hu : ulp f64 (21617278211378384 / 3) = 0 := ulp_eq (e := 52) (by norm_num) (by norm_num) (by norm_num [f64]) (by norm_num [f64])
    unfold fl
    rw [hu, Doubles.rne_eq (m := 7205759403792795) (by rw [abs_lt]; constructor <;> norm_num)]
    norm_num
  have hle : y ≤ (1 * y + 1 * y) / (1 + 1) := by rw [hv.le, hy, v5]
  refine ⟨(1 * y + 1 * y + 1 * y) / (1 + 1 + 1), ?_, by rw [v7, hy]; norm_num⟩
  simp [plIsotonic, weights, isotonic, mainLoop, step, fwd, bwd, store, expand, fill, hle, List.replicate, List.range', List.foldlM]

end double

/-! ### Instances -/

/-- The best fit exists for positive weights. -/
theorem best_exists (y w : List ℝ) (inc : Bool) (h2 : 2 ≤ y.length) (h64 : y.length ≤ 2 ^ 64) (hl : w.length = y.length)
    (hp : ∀ v ∈ w, 0 < v) : ∃ z, Spec.IsBest inc y w z := by
  obtain ⟨f, -, f2, f3, -, f5⟩ := isotonic_optimal y (some w) inc h2 h64 hl hp
  refine ⟨f, f2, f3, fun z' h1 h2 => ?_⟩
  have h3 := f5 z' h1 h2
  have h4 : 0 ≤ Spec.cost (f.zip w) z' := by
    apply List.sum_nonneg
    intro t ht
    obtain ⟨p, hp', rfl⟩ := List.mem_map.1 ht
    have h1 := (List.of_mem_zip (a := p.1) (b := p.2) hp').1
    have h2 := (List.of_mem_zip (a := p.1.1) (b := p.1.2) h1).2
    have := hp p.1.2 h2
    positivity
  simp only [Spec.weightsOf, Option.getD_some] at h3
  linarith

/-- The doubles without overflow are an instance; `1` and `/` as on the machine. -/
noncomputable local instance : One (Flt f64) := ⟨ofInt 1⟩
noncomputable local instance : Div (Flt f64) := ⟨fun a b => (ieee f64).round (a.val / b.val)⟩

theorem isDouble_flt : Spec.IsDouble (fun x : Flt f64 => x.val) :=
  ⟨fun _ _ => Iff.rfl, rfl, (ofInt_val (n := 1) (by norm_num)).trans (by simp), fun _ _ _ => rfl, fun _ _ _ => rfl, fun _ _ _ => rfl⟩

/-- Integer division as the arithmetic: pooled values are rounded down, the result is still monotone. -/
example : plIsotonic ([5, 2, 4, 9, 7].map some : List (Option ℕ)) (some ([1, 2, 1, 1, 1].map some)) true =
    .ok ([3, 3, 4, 8, 8].map some) := by decide +kernel

example : ∃ f : List ℕ, plIsotonic ([5, 2, 4, 9, 7].map some) (some ([1, 2, 1, 1, 1].map some)) false = .ok (f.map some) ∧
    f.length = 5 ∧ Spec.Mono false f :=
  isotonic_any_arithmetic [5, 2, 4, 9, 7] (some [1, 2, 1, 1, 1]) false (by decide) (by simp) (by rintro w ⟨⟩; rfl) (by rintro w ⟨⟩; decide)

/-- Already strictly decreasing. -/
example : plIsotonic ([7, 5, 2].map some : List (Option ℕ)) none false = .ok ([7, 5, 2].map some) :=
  isotonic_strict [7, 5, 2] none false (by decide) (by simp) (by simp) (by simp) (by decide)

/-- `[3, 1, 2]` in doubles with weights `[1, 1, 2]`: the hypotheses of `isotonic_double` are met. -/
example : ∃ (f : List (Flt f64)) (z : List ℝ),
    plIsotonic ([ofInt 3, ofInt 1, ofInt 2].map some) (some ([ofInt 1, ofInt 1, ofInt 2].map some)) true = .ok (f.map some) ∧
    Spec.IsBest true [3, 1, 2] [1, 1, 2] z ∧
    ∀ (i : ℕ) a b, f[i]? = some a → z[i]? = some b → |a.val - b| ≤ 9 * 3 * (2 ^ (-53 : ℤ) * 3 + 2 ^ (-1075 : ℤ)) := by
  have e1 : (ofInt 1).val = 1 := by have := ofInt_val (n := 1) (by norm_num); simpa using this
  have e2 : (ofInt 2).val = 2 := by have := ofInt_val (n := 2) (by norm_num); simpa using this
  have e3 : (ofInt 3).val = 3 := by have := ofInt_val (n := 3) (by norm_num); simpa using this
  obtain ⟨z, hz⟩ := best_exists [3, 1, 2] [1, 1, 2] true (by decide) (by simp) rfl (by simp)
  obtain ⟨f, f1, -, -, f4⟩ := isotonic_double isDouble_flt [ofInt 3, ofInt 1, ofInt 2] (some [ofInt 1, ofInt 1, ofInt 2]) true
    (by simp) (by simp) (by rintro w ⟨⟩; rfl) (by
      rintro w ⟨⟩ v hv
      simp only [List.mem_cons, List.not_mem_nil, or_false] at hv
      rcases hv with rfl | rfl | rfl
      · exact ⟨1, le_refl _, by simpa using e1⟩
      · exact ⟨1, le_refl _, by simpa using e1⟩
      · exact ⟨2, by norm_num, by simpa using e2⟩)
    (by simp [Spec.weightsOf, e1, e2]; norm_num) (Y := 3) (by simp [e1, e2, e3]; norm_num)
    (le_trans (zpow_le_zpow_right₀ (by norm_num) (by norm_num : (-1020 : ℤ) ≤ 0)) (by norm_num))
    (by
      simp only [Spec.weightsOf, Option.getD_some, List.map_cons, List.map_nil, e1, e2]
      have : (2 : ℝ) ^ 10 ≤ 2 ^ 1023 := pow_le_pow_right₀ (by norm_num) (by norm_num)
      refine le_trans ?_ this
      norm_num) (z := z) (by simpa [Spec.weightsOf, e1, e2, e3] using hz)
  exact ⟨f, z, f1, hz, by simpa using f4⟩

/-- Such a value exists. -/
example : ∃ f : Flt f64, plIsotonic [some (ofInt 7205759403792794), some (ofInt 7205759403792794), some (ofInt 7205759403792794)] none true =
    .ok [some f, some f, some f] ∧ f.val = 7205759403792795 := by
  have e : (ofInt 7205759403792794).val = 7205759403792794 := by
    have := ofInt_val (n := 7205759403792794) (by norm_num); simpa using this
  obtain ⟨f, f1, f2⟩ := isotonic_ties_move isDouble_flt (ofInt 7205759403792794) e
  exact ⟨f, f1, by rw [f2, e]; norm_num⟩

end Verif.Iso
