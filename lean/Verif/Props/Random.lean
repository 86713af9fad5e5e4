import Verif.Model.Random
import Mathlib.Data.List.Forall2
import Mathlib.Algebra.Order.Ring.Abs
import Mathlib.Algebra.Order.Ring.Rat
import Mathlib.Algebra.Field.Rat
import Mathlib.Tactic.Linarith
import Mathlib.Tactic.Positivity
import Mathlib.Tactic.NormNum
import Mathlib.Tactic.Ring

/-!
# Random columns (C110, C111)
-/

namespace Verif.Random

variable {K σ : Type}

namespace Spec

variable [Field K] [LinearOrder K]

/-- What the distributions promise. -/
structure Lawful (r : Rng K σ) : Prop where
  unif : ∀ lo hi s, lo < hi → lo ≤ (r.unif lo hi s).1 ∧ (r.unif lo hi s).1 < hi
  unifInt : ∀ lo hi s, lo < hi → lo ≤ (r.unifInt lo hi s).1 ∧ (r.unifInt lo hi s).1 < hi
  unifIncl : ∀ lo hi s, lo ≤ hi → lo ≤ (r.unifIncl lo hi s).1 ∧ (r.unifIncl lo hi s).1 ≤ hi
  exp1 : ∀ s, 0 ≤ (r.exp1 s).1
  binomial : ∀ n p s, 0 ≤ p → p ≤ 1 → (r.binomial n p s).1 ≤ n
  alnum : ∀ s, (r.alnum s).1.isAlphanum = true

/-- The same generator with another entropy source. -/
def reentropy (r : Rng K σ) (e : σ) : Rng K σ := { r with entropy := e }

/-- Same rows null, and the present values in the given relation. -/
def Cells {α β : Type} (R : α → β → Prop) : List (Option α) → List (Option β) → Prop :=
  List.Forall₂ fun a b => match a, b with
    | none, none => True
    | some x, some y => R x y
    | _, _ => False

/-- A counter as a generator: state `s` yields a number from `s mod 10`. -/
def ctr : Rng ℚ ℕ where
  seeded := id
  entropy := 7
  unif lo hi s := (lo + (hi - lo) * ((s % 10 : ℕ) / 10), s + 1)
  unifInt lo hi s := (lo + (s : ℤ) % (hi - lo), s + 1)
  unifIncl lo hi s := (lo + s % (hi - lo + 1), s + 1)
  normal s := ((s % 10 : ℕ) - 5, s + 1)
  exp1 s := ((s % 10 : ℕ), s + 1)
  binomial n _ s := (s % (n + 1), s + 1)
  alnum s := (if s % 2 = 0 then 'a' else 'Z', s + 1)

end Spec

open Spec

theorem ctr_lawful : Lawful ctr where
  unif lo hi s h := by
    have h1 : ((s % 10 : ℕ) : ℚ) < 10 := by exact_mod_cast Nat.mod_lt s (by norm_num)
    have h0 : (0 : ℚ) ≤ ((s % 10 : ℕ) : ℚ) := Nat.cast_nonneg _
    have hd : 0 < hi - lo := by linarith
    constructor
    · show lo ≤ lo + (hi - lo) * (((s % 10 : ℕ) : ℚ) / 10)
      have : 0 ≤ (hi - lo) * (((s % 10 : ℕ) : ℚ) / 10) := by positivity
      linarith
    · show lo + (hi - lo) * (((s % 10 : ℕ) : ℚ) / 10) < hi
      have h2 : ((s % 10 : ℕ) : ℚ) / 10 < 1 := by rw [div_lt_one (by norm_num)]; exact h1
      nlinarith
  unifInt lo hi s h := by
    constructor
    · show lo ≤ lo + (s : ℤ) % (hi - lo)
      have := Int.emod_nonneg (s : ℤ) (show hi - lo ≠ 0 by omega)
      omega
    · show lo + (s : ℤ) % (hi - lo) < hi
      have := Int.emod_lt_of_pos (s : ℤ) (show 0 < hi - lo by omega)
      omega
  unifIncl lo hi s h := by
    constructor
    · exact Nat.le_add_right _ _
    · show lo + s % (hi - lo + 1) ≤ hi
      have := Nat.mod_lt s (show hi - lo + 1 > 0 by omega)
      omega
  exp1 s := by
    show (0 : ℚ) ≤ ((s % 10 : ℕ) : ℚ)
    exact Nat.cast_nonneg _
  binomial n p s _ _ := by
    show s % (n + 1) ≤ n
    have := Nat.mod_lt s (show n + 1 > 0 by omega)
    omega
  alnum s := by
    show (if s % 2 = 0 then 'a' else 'Z').isAlphanum = true
    split <;> decide

theorem take_length {α : Type} (f : σ → α × σ) (n : ℕ) (s : σ) : (take f n s).length = n := by
  induction n generalizing s with
  | zero => rfl
  | succ n ih => simp [take, ih]

theorem take_mem {α : Type} {f : σ → α × σ} {P : α → Prop} (h : ∀ s, P (f s).1) (n : ℕ) (s : σ) (v : α)
    (hv : v ∈ take f n s) : P v := by
  induction n generalizing s with
  | zero => simp [take] at hv
  | succ n ih =>
    rcases List.mem_cons.1 hv with rfl | hv
    · exact h s
    · exact ih _ hv

theorem take_prefix {α : Type} (f : σ → α × σ) (n m : ℕ) (s : σ) (h : n ≤ m) : take f n s <+: take f m s := by
  induction n generalizing s m with
  | zero => exact List.nil_prefix
  | succ n ih =>
    obtain ⟨m, rfl⟩ : ∃ k, m = k + 1 := ⟨m - 1, by omega⟩
    exact List.cons_prefix_cons.2 ⟨rfl, ih m _ (by omega)⟩

theorem litLen_int (n : ℕ) (hn : n < 4294967296) : litLen (.int n : Arg K) = .ok (.u32 (some n)) := by
  have h : fitsU32 (n : ℤ) = true := by
    simp only [fitsU32, Bool.and_eq_true, decide_eq_true_eq]
    omega
  simp only [litLen, h, if_true, Int.toNat_natCast]

theorem litI32_int (i : ℤ) (h : -2147483648 ≤ i ∧ i < 2147483648) : (litI32 i : Out (Ser K)) = .ok (.i32 (some i)) := by
  have h : fitsI32 i = true := by
    simp only [fitsI32, Bool.and_eq_true, decide_eq_true_eq]
    exact h
  simp only [litI32, h, if_true]

section
variable {r : Rng K σ} {seed : Option ℕ} {len : Arg K} {n : ℕ} (h : litLen len = .ok (.u32 (some n)))
include h

theorem random_of_len [LinearOrder K] (lo hi : Arg K) :
    random r lo hi seed len = plRandom r (.u32 (some n)) (litF64 lo) (litF64 hi) seed := by
  unfold random
  rw [h]
  rfl

theorem randomInt_of_len {a b : ℤ} (hab : a ≠ b) {x y : Ser K} (ha : litI32 a = .ok x) (hb : litI32 b = .ok y) :
    randomInt r (.int a) (.int b) seed len = plRandInt r (.u32 (some n)) x y seed := by
  unfold randomInt
  simp only
  rw [if_neg hab, ha, hb, h]
  rfl

theorem randomStr_of_len {a b : ℤ} {x y : Ser K} (ha : litU32 (if b < a then b else a) = .ok x)
    (hb : litU32 (if b < a then a else b) = .ok y) :
    randomStr r a b seed len = plRandStr r (.u32 (some n)) x y seed := by
  unfold randomStr
  simp only
  rw [h, ha, hb]
  rfl

theorem randomExp_of_len [Field K] [LinearOrder K] (lam : K) :
    randomExp r lam seed len = plRandExp r (.u32 (some n)) (.f64 (some lam)) seed := by
  unfold randomExp
  rw [h]
  rfl

theorem randomNormal_of_len [Field K] [LinearOrder K] (m s : Arg K) :
    randomNormal r m s seed len = plRandNormal r (.u32 (some n)) (litF64 m) (litF64 s) seed := by
  unfold randomNormal
  rw [h]
  rfl

end

/-! ## `random` -/

section
variable [Field K] [LinearOrder K]

/-- `random(lower, upper, length)`: the column has the requested length and every number is in `[lower, upper)`. -/
theorem random_range (r : Rng K σ) (hr : Lawful r) (lo hi : K) (h : lo < hi) (seed : Option ℕ) (n : ℕ)
    (hn : n < 4294967296) :
    ∃ out, random r (.float lo) (.float hi) seed (.int n) = .ok out ∧ out.length = n ∧ ∀ v ∈ out, lo ≤ v ∧ v < hi := by
  refine ⟨take (r.unif lo hi) n (r.start seed), ?_, take_length .., take_mem (fun s => hr.unif lo hi s h) _ _⟩
  have : (0 : ℤ) ≤ n ∧ (n : ℤ) < 4294967296 := by omega
  rw [random_of_len (litLen_int n hn)]
  simp only [plRandom, litF64, Ser.asU32, Ser.asF64, unwrap, bind, Except.bind]
  rw [if_pos h]

example : ∃ out, random ctr (.float 1) (.float 3) (some 8) (.int 4) = .ok out ∧ out.length = 4 ∧
    ∀ v ∈ out, (1 : ℚ) ≤ v ∧ v < 3 := random_range ctr ctr_lawful 1 3 (by norm_num) _ 4 (by norm_num)

omit [Field K] in
/-- With a seed the result is determined by the arguments, whatever the system's entropy; and a longer column starts
with the shorter one. -/
theorem random_seeded (r : Rng K σ) (e : σ) (lo hi : Arg K) (seed : ℕ) (len : Arg K) :
    random (reentropy r e) lo hi (some seed) len = random r lo hi (some seed) len := rfl

omit [Field K] in
theorem random_prefix (r : Rng K σ) (lo hi : Arg K) (seed : Option ℕ) (n m : ℕ) (h : n ≤ m) (hm : m < 4294967296)
    (a b : List K) (ha : random r lo hi seed (.int n) = .ok a) (hb : random r lo hi seed (.int m) = .ok b) :
    a <+: b := by
  rw [random_of_len (litLen_int n (lt_of_le_of_lt h hm))] at ha
  rw [random_of_len (litLen_int m hm)] at hb
  simp only [plRandom, Ser.asU32, unwrap, bind, Except.bind] at ha hb
  generalize litF64 lo = lo at *
  generalize litF64 hi = hi at *
  cases lo with
  | f64 lo =>
    cases lo with
    | some lo =>
      cases hi with
      | f64 hi =>
        cases hi with
        | some hi =>
          simp only [Ser.asF64] at ha hb
          by_cases hlt : lo < hi
          · rw [if_pos hlt] at ha hb
            cases ha
            cases hb
            exact take_prefix _ n m _ h
          · rw [if_neg hlt] at ha
            cases ha
        | none => simp [Ser.asF64] at ha
      | _ => simp [Ser.asF64] at ha
    | none => simp [Ser.asF64] at ha
  | _ => simp [Ser.asF64] at ha

example : random (reentropy ctr 3) (.float 1) (.float 3) (some 8) (.int 2) = .ok [13/5, 14/5] ∧
    random ctr (.float 1) (.float 3) (some 8) (.int 2) = .ok [13/5, 14/5] ∧
    random ctr (.float 1) (.float 3) (some 8) (.int 4) = .ok [13/5, 14/5, 1, 6/5] := by
  simp only [random_seeded]
  exact ⟨by decide +kernel, by decide +kernel, by decide +kernel⟩

omit [Field K] in
/-- Entry `i` is the draw made after `i` draws: the generator moves on between the entries. -/
theorem random_successive (r : Rng K σ) (lo hi : K) (h : lo < hi) (seed : Option ℕ) (n : ℕ) (hn : n < 4294967296) :
    ∃ out, random r (.float lo) (.float hi) seed (.int n) = .ok out ∧
      ∀ i, i < n → out[i]? = some (r.unif lo hi ((fun s => (r.unif lo hi s).2)^[i] (r.start seed))).1 := by
  refine ⟨take (r.unif lo hi) n (r.start seed), ?_, fun i hi' => ?_⟩
  · rw [random_of_len (litLen_int n hn)]
    simp only [plRandom, litF64, Ser.asU32, Ser.asF64, unwrap, bind, Except.bind]
    rw [if_pos h]
  · generalize r.start seed = s0
    induction n generalizing s0 i with
    | zero => omega
    | succ n ih =>
      cases i with
      | zero => rfl
      | succ i =>
        rw [Function.iterate_succ_apply]
        exact ih (by omega) i (by omega) _

example : ∃ out, random ctr (.float 1) (.float 3) (some 8) (.int 4) = .ok out ∧
    ∀ i, i < 4 → out[i]? = some (ctr.unif 1 3 ((fun s => (ctr.unif 1 3 s).2)^[i] (ctr.start (some 8)))).1 :=
  random_successive ctr 1 3 (by norm_num) _ 4 (by norm_num)

/-- `random(0, 1)` with Python integers fails: the bounds are sent as `Int32`; and so do integer arguments of
`random_normal`.  Bounds that are not increasing panic. -/
theorem random_int_bounds (r : Rng K σ) (i j : ℤ) (seed : Option ℕ) (n : ℕ) (hn : n < 4294967296) :
    random r (.int i) (.int j) seed (.int n) = .error .schema ∧
    randomNormal r (.int i) (.int j) seed (.int n) = .error .schema ∧
    ∀ a b : K, b ≤ a → random r (.float a) (.float b) seed (.int n) = .error .panic := by
  refine ⟨?_, ?_, fun a b hab => ?_⟩
  · rw [random_of_len (litLen_int n hn)]
    simp only [plRandom, litF64, Ser.asU32, Ser.asF64, unwrap, bind, Except.bind]
  · rw [randomNormal_of_len (litLen_int n hn)]
    simp only [plRandNormal, litF64, Ser.asU32, Ser.asF64, unwrap, bind, Except.bind]
  · rw [random_of_len (litLen_int n hn)]
    simp only [plRandom, litF64, Ser.asU32, Ser.asF64, unwrap, bind, Except.bind]
    rw [if_neg (not_lt.2 hab)]

example : random ctr (.int 0) (.int 1) none (.int 3) = .error .schema :=
  (random_int_bounds ctr 0 1 none 3 (by norm_num)).1

/-! ## `random_null` -/

/-- The rows `random_null` keeps are those whose draw is at least `pct`. -/
theorem random_null_rows {α : Type} (r : Rng K σ) (h01 : (0 : K) < 1) (col : List (Option α)) (pct : K)
    (hp : 0 < pct) (hp1 : pct < 1) (seed : Option ℕ) :
    ∃ u out, random r (.float 0) (.float 1) seed (.expr (.u32 (some col.length))) = .ok u ∧
      u.length = col.length ∧ randomNull r col pct seed = .ok out ∧ out.length = col.length ∧
      ∀ i, ∀ hu : i < u.length, ∀ hc : i < col.length, ∀ ho : i < out.length,
        (u[i] < pct → out[i] = none) ∧ (pct ≤ u[i] → out[i] = col[i]) := by
  have hu : random r (.float 0) (.float 1) seed (.expr (.u32 (some col.length))) =
      .ok (take (r.unif 0 1) col.length (r.start seed)) := by
    simp only [random, litLen, plRandom, litF64, Ser.asU32, Ser.asF64, unwrap, bind, Except.bind]
    rw [if_pos h01]
  refine ⟨_, List.zipWith (fun u v => if u < pct then none else v) (take (r.unif 0 1) col.length (r.start seed)) col,
    hu, take_length .., ?_, ?_, ?_⟩
  · unfold randomNull
    rw [if_neg (by push Not; exact ⟨hp, hp1⟩), hu]
    rfl
  · simp [take_length]
  · intro i hu hc ho
    rw [List.getElem_zipWith]
    exact ⟨fun h => if_pos h, fun h => if_neg (not_lt.2 h)⟩

/-- `random_null` only removes values: nulls stay null, and a value that is present is the original one. -/
theorem random_null_only_removes {α : Type} (r : Rng K σ) (h01 : (0 : K) < 1) (col : List (Option α)) (pct : K)
    (hp : 0 < pct) (hp1 : pct < 1) (seed : Option ℕ) :
    ∃ out, randomNull r col pct seed = .ok out ∧ List.Forall₂ (fun o c => o = none ∨ o = c) out col := by
  obtain ⟨u, out, -, hlu, ho, hlo, hrow⟩ := random_null_rows r h01 col pct hp hp1 seed
  refine ⟨out, ho, List.forall₂_iff_get.2 ⟨hlo, fun i h1 h2 => ?_⟩⟩
  obtain ⟨h3, h4⟩ := hrow i (by omega) h2 h1
  rcases lt_or_ge (u[i]'(by omega)) pct with h | h
  · exact .inl (h3 h)
  · exact .inr (h4 h)

/-- A percentage outside `(0, 1)` is a `ValueError`. -/
theorem random_null_pct {α : Type} (r : Rng K σ) (col : List (Option α)) (pct : K) (seed : Option ℕ)
    (h : pct ≤ 0 ∨ 1 ≤ pct) : randomNull r col pct seed = .error .value := if_pos h

example : randomNull ctr [some 'a', none, some 'b', some 'c'] (1/2) (some 3) = .ok [none, none, some 'b', some 'c'] := by
  decide +kernel

example : ∃ out, randomNull ctr [some 'a', none, some 'b'] (1/2) (some 3) = .ok out ∧
    List.Forall₂ (fun o c => o = none ∨ o = c) out [some 'a', none, some 'b'] :=
  random_null_only_removes ctr (by norm_num) _ _ (by norm_num) (by norm_num) _

/-! ## `random_int`, `random_str`, `random_binomial`, `random_exp`, `random_normal` -/

/-- `random_int` with two different Python integers: numbers from the smaller bound, inclusive, to the larger one,
exclusive. -/
theorem random_int_range (r : Rng K σ) (hr : Lawful r) (a b : ℤ) (hab : a ≠ b) (ha : -2147483648 ≤ a ∧ a < 2147483648)
    (hb : -2147483648 ≤ b ∧ b < 2147483648) (seed : Option ℕ) (n : ℕ) (hn : n < 4294967296) :
    ∃ out, randomInt r (.int a) (.int b) seed (.int n) = .ok out ∧ out.length = n ∧
      ∀ v ∈ out, min a b ≤ v ∧ v < max a b := by
  rw [randomInt_of_len (litLen_int n hn) hab (litI32_int a ha) (litI32_int b hb)]
  simp only [plRandInt, Ser.asU32, Ser.asI32,
    unwrap, bind, Except.bind]
  rcases lt_or_gt_of_ne hab with h | h
  · rw [if_neg hab, if_neg (not_lt.2 h.le), min_eq_left h.le, max_eq_right h.le]
    exact ⟨_, rfl, take_length .., take_mem (fun s => hr.unifInt a b s h) _ _⟩
  · rw [if_neg hab, if_pos h, min_eq_right h.le, max_eq_left h.le]
    exact ⟨_, rfl, take_length .., take_mem (fun s => hr.unifInt b a s h) _ _⟩

example : ∃ out, randomInt ctr (.int 9) (.int (-3)) (some 0) (.int 5) = .ok out ∧ out.length = 5 ∧
    ∀ v ∈ out, min (9 : ℤ) (-3) ≤ v ∧ v < max 9 (-3) :=
  random_int_range ctr ctr_lawful 9 (-3) (by decide) (by norm_num) (by norm_num) _ 5 (by norm_num)

omit [Field K] [LinearOrder K] in
/-- An expression as bound, which the signature of `random_int` allows, always raises; and equal bounds raise. -/
theorem random_int_expr (r : Rng K σ) (s : Ser K) (x : Arg K) (seed : Option ℕ) (len : Arg K) (a : ℤ) :
    randomInt r (.expr s) x seed len = .error .type ∧ randomInt r x (.expr s) seed len = .error .type ∧
    randomInt r (.int a) (.int a) seed len = .error .value := by
  refine ⟨by cases x <;> rfl, by cases x <;> rfl, by simp [randomInt]⟩

example : randomInt ctr (.int 0) (.expr (.i32 (some 10))) (some 0) (.int 5) = .error .type :=
  (random_int_expr ctr _ _ _ _ 0).2.1

/-- `random_str`: every string has a length between the two sizes, both included and in either order, and consists
of letters and digits. -/
theorem random_str_range (r : Rng K σ) (hr : Lawful r) (a b : ℕ) (ha : a < 4294967296) (hb : b < 4294967296)
    (seed : Option ℕ) (n : ℕ) (hn : n < 4294967296) :
    ∃ declared out, randomStr r a b seed (.int n) = .ok (declared, .string, out) ∧ out.length = n ∧
      ∀ s ∈ out, min a b ≤ s.length ∧ s.length ≤ max a b ∧ ∀ c ∈ s, c.isAlphanum = true := by
  have key : ∀ mi ma : ℕ, mi ≤ ma → ∀ st, mi ≤ (oneStr r mi ma st).1.length ∧ (oneStr r mi ma st).1.length ≤ ma ∧
      ∀ c ∈ (oneStr r mi ma st).1, c.isAlphanum = true := fun mi ma h st => by
    have := hr.unifIncl mi ma st h
    simp only [oneStr, take_length]
    exact ⟨this.1, this.2, take_mem (fun s => hr.alnum s) _ _⟩
  refine ⟨.float64, take (oneStr r (min a b) (max a b)) n (r.start seed), ?_, take_length ..,
    take_mem (key _ _ min_le_max) _ _⟩
  rcases lt_or_ge b a with h | h
  · have hz : (b : ℤ) < a := by exact_mod_cast h
    rw [randomStr_of_len (litLen_int n hn) (x := .u32 (some b)) (y := .u32 (some a))
      (by rw [if_pos hz]; exact litLen_int b hb) (by rw [if_pos hz]; exact litLen_int a ha)]
    simp only [plRandStr, Ser.asU32, unwrap, bind, Except.bind]
    rw [if_pos h.le, min_eq_right h.le, max_eq_left h.le]
  · have hz : ¬(b : ℤ) < a := by push Not; exact_mod_cast h
    rw [randomStr_of_len (litLen_int n hn) (x := .u32 (some a)) (y := .u32 (some b))
      (by rw [if_neg hz]; exact litLen_int a ha) (by rw [if_neg hz]; exact litLen_int b hb)]
    simp only [plRandStr, Ser.asU32, unwrap, bind, Except.bind]
    rw [if_pos h, min_eq_left h, max_eq_right h]

example : ∃ declared out, randomStr ctr (5 : ℕ) (2 : ℕ) (some 1) (.int (3 : ℕ)) = .ok (declared, .string, out) ∧
    out.length = 3 ∧ ∀ s ∈ out, min 5 2 ≤ s.length ∧ s.length ≤ max 5 2 ∧ ∀ c ∈ s, c.isAlphanum = true :=
  random_str_range ctr ctr_lawful 5 2 (by norm_num) (by norm_num) _ 3 (by norm_num)

omit [Field K] [LinearOrder K] in
/-- The string plugin declares a column of floats and returns one of strings, every time it succeeds. -/
theorem random_str_dtype (r : Rng K σ) (a b : ℤ) (seed : Option ℕ) (len : Arg K) (d t : DType) (out : List (List Char))
    (h : randomStr r a b seed len = .ok (d, t, out)) : d ≠ t := by
  have key : ∀ x y z : Ser K, plRandStr r x y z seed = .ok (d, t, out) → d ≠ t := by
    intro x y z h
    rcases x with _ | _ | x | _ <;> try (simp [plRandStr, Ser.asU32, bind, Except.bind] at h; done)
    rcases x with _ | x <;> try (simp [plRandStr, Ser.asU32, unwrap, bind, Except.bind] at h; done)
    rcases y with _ | _ | y | _ <;> try (simp [plRandStr, Ser.asU32, unwrap, bind, Except.bind] at h; done)
    rcases y with _ | y <;> try (simp [plRandStr, Ser.asU32, unwrap, bind, Except.bind] at h; done)
    rcases z with _ | _ | z | _ <;> try (simp [plRandStr, Ser.asU32, unwrap, bind, Except.bind] at h; done)
    rcases z with _ | z <;> try (simp [plRandStr, Ser.asU32, unwrap, bind, Except.bind] at h; done)
    simp only [plRandStr, Ser.asU32, unwrap, bind, Except.bind] at h
    split at h
    · cases h
      decide
    · cases h
  simp only [randomStr, bind, Except.bind] at h
  split at h
  · cases h
  · split at h
    · cases h
    · split at h
      · cases h
      · exact key _ _ _ h

example : (DType.float64 : DType) ≠ .string :=
  random_str_dtype ctr 2 5 (some 1) (.int 1) _ _ (take (oneStr ctr 2 5) 1 1) rfl

/-- `random_binomial` never works: `n` is sent as `Int32` and read as `UInt32`. -/
theorem random_binomial_fails (r : Rng K σ) (n : ℤ) (p : K) (seed : Option ℕ) (len : Arg K) :
    ∃ e, randomBinomial r n p seed len = .error e := by
  unfold randomBinomial
  split
  · exact ⟨_, rfl⟩
  · cases hl : litLen len with
    | error e => exact ⟨e, rfl⟩
    | ok s =>
      simp only [litI32]
      split
      · rcases s with _ | _ | v | _
        · exact ⟨_, rfl⟩
        · exact ⟨_, rfl⟩
        · cases v <;> exact ⟨_, rfl⟩
        · exact ⟨_, rfl⟩
      · exact ⟨_, rfl⟩

/-- The plugin itself is right: given an unsigned `n`, numbers of successes out of `n`. -/
theorem plugin_binomial_range (r : Rng K σ) (hr : Lawful r) (len n : ℕ) (p : K) (h0 : 0 ≤ p) (h1 : p ≤ 1)
    (seed : Option ℕ) :
    ∃ out, plRandBinomial r (.u32 (some len)) (.u32 (some n)) (.f64 (some p)) seed = .ok out ∧ out.length = len ∧
      ∀ v ∈ out, v ≤ n :=
  ⟨take (r.binomial n p) len (r.start seed), by
    simp only [plRandBinomial, Ser.asU32, Ser.asF64, unwrap, bind, Except.bind]
    rw [if_pos ⟨h0, h1⟩], take_length .., take_mem (fun s => hr.binomial n p s h0 h1) _ _⟩

example : randomBinomial ctr 5 (1/2) (some 3) (.int 4) = .error .schema ∧
    plRandBinomial ctr (.u32 (some 4)) (.u32 (some 5)) (.f64 (some (1/2))) (some 3) = .ok [3, 4, 5, 0] := by
  decide +kernel

end

section
variable [Field K] [LinearOrder K] [IsStrictOrderedRing K]

/-- `random_exp` with a positive rate gives non-negative numbers, and the rate is a scale: with the same seed, the
numbers times the rate do not depend on it.  A negative rate is an error. -/
theorem random_exp_range (r : Rng K σ) (hr : Lawful r) (lam : K) (hl : 0 < lam) (seed : Option ℕ) (n : ℕ)
    (hn : n < 4294967296) :
    ∃ out base : List K, randomExp r lam seed (.int n) = .ok (out.map some) ∧ randomExp r 1 seed (.int n) = .ok (base.map some) ∧
      out.length = n ∧ (∀ v ∈ out, 0 ≤ v) ∧ out.map (fun v => v * lam) = base := by
  have hb : ∀ v ∈ take r.exp1 n (r.start seed), 0 ≤ v := take_mem (fun s => hr.exp1 s) _ _
  refine ⟨(take r.exp1 n (r.start seed)).map fun v => v * (1 / lam), take r.exp1 n (r.start seed), ?_, ?_, by
    simp [take_length], ?_, ?_⟩
  · rw [randomExp_of_len (litLen_int n hn)]
    simp only [plRandExp, Ser.asU32, Ser.asF64, unwrap, bind, Except.bind]
    by_cases h : lam = 1
    · subst h
      simp
    · rw [if_neg h, if_neg (not_lt.2 hl.le)]
      simp [hl.ne']
  · rw [randomExp_of_len (litLen_int n hn)]
    simp only [plRandExp, Ser.asU32, Ser.asF64, unwrap, bind, Except.bind]
    simp
  · intro v hv
    obtain ⟨w, hw, rfl⟩ := List.mem_map.1 hv
    have := hb w hw
    positivity
  · rw [List.map_map]
    conv_rhs => rw [← List.map_id (take r.exp1 n (r.start seed))]
    refine List.map_congr_left fun v _ => ?_
    simp only [Function.comp, id]
    rw [mul_assoc, one_div, inv_mul_cancel₀ hl.ne', mul_one]

theorem random_exp_negative (r : Rng K σ) (lam : K) (hl : lam < 0) (seed : Option ℕ) (n : ℕ) (hn : n < 4294967296) :
    randomExp r lam seed (.int n) = .error .compute := by
  rw [randomExp_of_len (litLen_int n hn)]
  simp only [plRandExp, Ser.asU32, Ser.asF64, unwrap, bind, Except.bind]
  rw [if_neg (by intro h; rw [h] at hl; exact absurd hl (not_lt.2 zero_le_one)), if_pos hl]

example : randomExp ctr 2 (some 3) (.int 3) = .ok [some (3/2), some 2, some (5/2)] ∧
    randomExp ctr (-1) (some 3) (.int 3) = .error .compute := by decide +kernel

omit [IsStrictOrderedRing K] in
/-- `random_normal(mean, std)` is `mean + std * z` of the standard normal column with the same seed. -/
theorem random_normal_scale (r : Rng K σ) (mean std : K) (seed : Option ℕ) (n : ℕ) (hn : n < 4294967296) :
    ∃ z, randomNormal r (.float 0) (.float 1) seed (.int n) = .ok z ∧ z.length = n ∧
      randomNormal r (.float mean) (.float std) seed (.int n) = .ok (z.map fun x => mean + std * x) := by
  refine ⟨take r.normal n (r.start seed), ?_, take_length .., ?_⟩
  · rw [randomNormal_of_len (litLen_int n hn)]
    simp only [litF64, plRandNormal, Ser.asU32, Ser.asF64, unwrap, bind, Except.bind,
      Option.getD_some, and_self, if_true]
  · rw [randomNormal_of_len (litLen_int n hn)]
    simp only [litF64, plRandNormal, Ser.asU32, Ser.asF64, unwrap, bind, Except.bind,
      Option.getD_some]
    split
    · next h => rw [h.1, h.2]; simp
    · rfl

example : randomNormal ctr (.float 10) (.float 2) (some 3) (.int 3) = .ok [6, 8, 10] ∧
    randomNormal ctr (.float 0) (.float 1) (some 3) (.int 3) = .ok [-2, -1, 0] := by decide +kernel

/-! ## `perturb` and `jitter` -/

omit [Field K] [LinearOrder K] [IsStrictOrderedRing K] in
theorem applyNonnull_cells (f : K → σ → K × σ) (R : K → K → Prop) (h : ∀ x s, R x (f x s).1) (c : List (Option K)) (s : σ) :
    Cells R c (applyNonnull f c s) := by
  induction c generalizing s with
  | nil => exact List.Forall₂.nil
  | cons a t ih =>
    cases a with
    | none => exact List.Forall₂.cons trivial (ih s)
    | some x => exact List.Forall₂.cons (h x s) (ih _)

/-- `perturb` keeps nulls and moves every value by an amount in `[0, ε)`, or in `[-ε/2, ε/2)`. -/
theorem perturb_range (r : Rng K σ) (hr : Lawful r) (c : List (Option K)) (e : K) (he : e ≠ 0) (seed : Option ℕ) :
    (∃ out, perturb r (some c) e true seed = .ok out ∧ Cells (fun x y => 0 ≤ y - x ∧ y - x < |e|) c out) ∧
    ∃ out, perturb r (some c) e false seed = .ok out ∧
      Cells (fun x y => -(|e| / 2) ≤ y - x ∧ y - x < |e| / 2) c out := by
  have hp : 0 < |e| := abs_pos.2 he
  have hm : max e (-e) = |e| := rfl
  constructor
  · unfold perturb plPerturb
    simp only [hm, if_true]
    rw [if_pos hp]
    refine ⟨_, rfl, applyNonnull_cells _ _ (fun x s => ?_) _ _⟩
    have := hr.unif 0 |e| s hp
    simpa using this
  · unfold perturb plPerturb
    simp only [hm]
    rw [if_neg (by simp), if_pos (by linarith)]
    refine ⟨_, rfl, applyNonnull_cells _ _ (fun x s => ?_) _ _⟩
    have := hr.unif (-(|e| / 2)) (|e| / 2) s (by linarith)
    simpa using this

omit [IsStrictOrderedRing K] in
/-- With `epsilon = 0`, no perturbation, `perturb` panics on every float column. -/
theorem perturb_zero (r : Rng K σ) (c : List (Option K)) (positive : Bool) (seed : Option ℕ) :
    perturb r (some c) 0 positive seed = .error .panic := by
  cases positive <;> simp [perturb, plPerturb]

omit [IsStrictOrderedRing K] in
/-- Other columns are an error. -/
theorem perturb_other (r : Rng K σ) (e : K) (positive : Bool) (seed : Option ℕ) :
    perturb r none e positive seed = .error .compute := by
  cases positive <;> rfl

example : perturb ctr (some [some 1, none, some 2]) (-2) false (some 8) = .ok [some (8/5), none, some (14/5)] ∧
    perturb ctr (some [some 1, none, some 2]) 0 false (some 8) = .error .panic := by decide +kernel

/-- `jitter` keeps nulls, and the noise is `std` times the noise of `std = 1` with the same seed, for every
non-negative `std` (zero leaves the column as it is). -/
theorem jitter_scale (r : Rng K σ) (c : List (Option K)) (std : K) (hs : 0 ≤ std) (seed : Option ℕ) :
    ∃ base out, jitter r (some c) (.float 1) seed = .ok (some base) ∧ jitter r (some c) (.float std) seed = .ok (some out) ∧
      ∃ d : List K, Cells (fun _ _ => True) c base ∧
        d.length = c.length ∧
        base = List.zipWith (fun x d => x.map (· + d)) c d ∧ out = List.zipWith (fun x d => x.map (· + std * d)) c d := by
  have key : ∀ (c : List (Option K)) (s : σ), ∃ d : List K, d.length = c.length ∧ ∀ q : K,
      applyNonnull (fun x s => (x + q * (r.normal s).1, (r.normal s).2)) c s =
        List.zipWith (fun x d => x.map (· + q * d)) c d := by
    intro c
    induction c with
    | nil => exact fun s => ⟨[], rfl, fun q => rfl⟩
    | cons a t ih =>
      intro s
      cases a with
      | none =>
        obtain ⟨d, hd, h⟩ := ih s
        exact ⟨0 :: d, by simp [hd], fun q => by simp [applyNonnull, h q]⟩
      | some x =>
        obtain ⟨d, hd, h⟩ := ih (r.normal s).2
        exact ⟨(r.normal s).1 :: d, by simp [hd], fun q => by simp [applyNonnull, h q]⟩
  obtain ⟨d, hd, h⟩ := key c (r.start seed)
  have h1 : ∀ q : K, 0 < q → jitter r (some c) (.float q) seed =
      .ok (some (List.zipWith (fun x d => x.map (· + q * d)) c d)) := fun q hq => by
    simp only [jitter, if_neg (not_lt.2 hq.le), if_neg hq.ne', plJitter, Ser.asF64, unwrap, bind, Except.bind, h q]
    rfl
  have hid : c = List.zipWith (fun x (d : K) => x.map (· + 0 * d)) c d := by
    clear h h1
    induction c generalizing d with
    | nil => rfl
    | cons a t ih =>
      obtain _ | ⟨e, d⟩ := d
      · simp at hd
      · rw [List.zipWith_cons_cons, ← ih d (by simpa using hd)]
        cases a <;> simp
  refine ⟨_, List.zipWith (fun x d => x.map (· + std * d)) c d, h1 1 one_pos, ?_, d, ?_, hd, by simp, rfl⟩
  · rcases hs.lt_or_eq with hs | rfl
    · exact h1 std hs
    · rw [← hid]
      simp [jitter]
  · have := applyNonnull_cells (fun x s => (x + 1 * (r.normal s).1, (r.normal s).2)) (fun _ _ => True)
      (fun _ _ => trivial) c (r.start seed)
    rwa [h 1] at this

omit [IsStrictOrderedRing K] in
/-- A negative deviation is a `ValueError`; a Python integer deviation raises. -/
theorem jitter_rejects (r : Rng K σ) (c : Option (List (Option K))) (std : K) (hs : std < 0) (i : ℤ) (seed : Option ℕ) :
    jitter r c (.float std) seed = .error .value ∧ jitter r c (.int i) seed = .error .type :=
  ⟨by simp [jitter, hs], rfl⟩

example : jitter ctr (some [some 1, none, some 2]) (.float 3) (some 8) = .ok (some [some 10, none, some 14]) ∧
    jitter ctr (some [some 1, none, some 2]) (.float 1) (some 8) = .ok (some [some 4, none, some 6]) ∧
    jitter ctr (some [some 1, none, some 2]) (.int 1) (some 8) = .error .type := by decide +kernel

omit [IsStrictOrderedRing K] in
/-- With a seed no function uses the system's entropy. -/
theorem seeded_all {α : Type} (r : Rng K σ) (e : σ) (seed : ℕ) (x y len : Arg K) (p : K) (i j : ℤ) (b : Bool)
    (col : List (Option α)) (c : Option (List (Option K))) :
    randomNull (reentropy r e) col p (some seed) = randomNull r col p (some seed) ∧
    randomInt (reentropy r e) x y (some seed) len = randomInt r x y (some seed) len ∧
    randomStr (reentropy r e) i j (some seed) len = randomStr r i j (some seed) len ∧
    randomExp (reentropy r e) p (some seed) len = randomExp r p (some seed) len ∧
    randomNormal (reentropy r e) x y (some seed) len = randomNormal r x y (some seed) len ∧
    perturb (reentropy r e) c p b (some seed) = perturb r c p b (some seed) ∧
    jitter (reentropy r e) c x (some seed) = jitter r c x (some seed) :=
  ⟨rfl, rfl, rfl, rfl, rfl, rfl, rfl⟩

example : perturb (reentropy ctr 4) (some [some 1]) 1 true (some 8) = .ok [some (9/5)] ∧
    perturb (reentropy ctr 4) (some [some 1]) 1 true none = .ok [some (7/5)] ∧
    perturb ctr (some [some 1]) 1 true none = .ok [some (17/10)] := by decide +kernel

end

end Verif.Random
