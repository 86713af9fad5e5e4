import Mathlib.Algebra.Order.Field.Basic
import Mathlib.Data.Nat.Notation

/-!
# Random columns (`src/stats/sample.rs`, `python/polars_ds/exprs/stats.py`)

The generator is a state machine.  What its distributions return is the contract `Lawful`; `f64` and `f32` arithmetic
is arithmetic of an ordered field.
-/

namespace Verif.Random

variable {K σ : Type}

/-- What can go wrong: `ValueError`/`TypeError`/`AttributeError` in Python, a column of another type than the plugin
expects, an error returned by the plugin, a panic in it. -/
inductive Err where
  | value
  | type
  | schema
  | compute
  | panic
deriving Repr, DecidableEq

abbrev Out (α : Type) := Except Err α

/-- The generator and the distributions used (`rand` and `rand_distr`); `entropy` is the state when there is no
seed. -/
structure Rng (K σ : Type) where
  seeded : ℕ → σ
  entropy : σ
  unif : K → K → σ → K × σ
  unifInt : ℤ → ℤ → σ → ℤ × σ
  unifIncl : ℕ → ℕ → σ → ℕ × σ
  normal : σ → K × σ
  exp1 : σ → K × σ
  binomial : ℕ → K → σ → ℕ × σ
  alnum : σ → Char × σ

/-- `rng_from_seed` (`src/stats/sample.rs:11-16`). -/
def Rng.start (r : Rng K σ) : Option ℕ → σ
  | some s => r.seeded s
  | none => r.entropy

/-- `rng.sample_iter(dist).take(n)`. -/
def take {α : Type} (f : σ → α × σ) : ℕ → σ → List α
  | 0, _ => []
  | n + 1, s => (f s).1 :: take f n (f s).2

/-- A plugin input, by type, with its first value (null is `none`). -/
inductive Ser (K : Type) where
  | f64 (v : Option K)
  | i32 (v : Option ℤ)
  | u32 (v : Option ℕ)
  | other

/-- A Python argument. -/
inductive Arg (K : Type) where
  | float (v : K)
  | int (i : ℤ)
  | expr (s : Ser K)

/-- `s.f64()?`. -/
def Ser.asF64 : Ser K → Out (Option K)
  | .f64 v => .ok v
  | _ => .error .schema

/-- `s.i32()?`. -/
def Ser.asI32 : Ser K → Out (Option ℤ)
  | .i32 v => .ok v
  | _ => .error .schema

/-- `s.u32()?`. -/
def Ser.asU32 : Ser K → Out (Option ℕ)
  | .u32 v => .ok v
  | _ => .error .schema

/-- `.get(0).unwrap()`. -/
def unwrap {α : Type} : Option α → Out α
  | some a => .ok a
  | none => .error .panic

/-- `pl.lit(x, pl.Float64) if isinstance(x, float) else x` (`python/polars_ds/exprs/stats.py:507-508`, `:696-697`): a
Python int is handed on as it is, and polars makes an `Int32` literal of it. -/
def litF64 : Arg K → Ser K
  | .float v => .f64 (some v)
  | .int i => .i32 (some i)
  | .expr s => s

/-- `i` fits in `UInt32`. -/
def fitsU32 (i : ℤ) : Bool := decide (0 ≤ i) && decide (i < 4294967296)

/-- `i` fits in `Int32`. -/
def fitsI32 (i : ℤ) : Bool := decide (-2147483648 ≤ i) && decide (i < 2147483648)

/-- `pl.lit(length, pl.UInt32) if isinstance(length, int) else length` (`stats.py:509` and elsewhere); a literal that
does not fit is an error. -/
def litLen : Arg K → Out (Ser K)
  | .int i => if fitsU32 i then .ok (.u32 (some i.toNat)) else .error .value
  | .float v => .ok (.f64 (some v))
  | .expr s => .ok s

section
variable [LinearOrder K]

/-- `pl_random` (`src/stats/sample.rs:77-89`).  `Uniform::new` panics unless `low < high`. -/
def plRandom (r : Rng K σ) (len low high : Ser K) (seed : Option ℕ) : Out (List K) := do
  let len ← unwrap (← len.asU32)
  let low ← unwrap (← low.asF64)
  let high ← unwrap (← high.asF64)
  if low < high then .ok (take (r.unif low high) len (r.start seed)) else .error .panic

/-- `random` (`python/polars_ds/exprs/stats.py:487-514`). -/
def random (r : Rng K σ) (lower upper : Arg K) (seed : Option ℕ) (length : Arg K) : Out (List K) := do
  let len ← litLen length
  plRandom r len (litF64 lower) (litF64 upper) seed

/-- `random_null` (`stats.py:517-536`): a row where the draw is below `pct` becomes null. -/
def randomNull {α : Type} [Zero K] [One K] (r : Rng K σ) (col : List (Option α)) (pct : K) (seed : Option ℕ) :
    Out (List (Option α)) :=
  if pct ≤ 0 ∨ 1 ≤ pct then .error .value
  else (random r (.float 0) (.float 1) seed (.expr (.u32 (some col.length)))).map fun u =>
    List.zipWith (fun u v => if u < pct then none else v) u col

end

/-- `pl_rand_int` (`src/stats/sample.rs:19-37`). -/
def plRandInt (r : Rng K σ) (len low high : Ser K) (seed : Option ℕ) : Out (List ℤ) := do
  let len ← unwrap (← len.asU32)
  let low ← unwrap (← low.asI32)
  let high ← unwrap (← high.asI32)
  if low = high then .ok (List.replicate len low)
  else if high < low then .ok (take (r.unifInt high low) len (r.start seed))
  else .ok (take (r.unifInt low high) len (r.start seed))

/-- A bound of `random_int` as an `Int32` literal (`stats.py:562-563`); a literal that does not fit is an error. -/
def litI32 (i : ℤ) : Out (Ser K) :=
  if fitsI32 i then .ok (.i32 (some i)) else .error .value

/-- `random_int` (`stats.py:539-574`).  `lower == upper` with an expression on either side is an expression, and
`if` on it raises a `TypeError`; a float bound has no `cast`. -/
def randomInt (r : Rng K σ) (lower upper : Arg K) (seed : Option ℕ) (length : Arg K) : Out (List ℤ) :=
  match lower, upper with
  | .int a, .int b =>
    if a = b then .error .value
    else do
      let lo ← litI32 a
      let hi ← litI32 b
      let len ← litLen length
      plRandInt r len lo hi seed
  | _, _ => .error .type

/-- One string (`src/stats/sample.rs:200-203`). -/
def oneStr (r : Rng K σ) (mi ma : ℕ) (s : σ) : List Char × σ :=
  let l := r.unifIncl mi ma s
  (take r.alnum l.1 l.2, Nat.rec l.2 (fun _ s => (r.alnum s).2) l.1)

/-- The type a plugin declares for its output, and the one it returns. -/
inductive DType where
  | float64
  | string
deriving Repr, DecidableEq

/-- `pl_rand_str` (`src/stats/sample.rs:187-206`): declared type, returned type, and the strings. -/
def plRandStr (r : Rng K σ) (len mi ma : Ser K) (seed : Option ℕ) : Out (DType × DType × List (List Char)) := do
  let len ← unwrap (← len.asU32)
  let mi ← unwrap (← mi.asU32)
  let ma ← unwrap (← ma.asU32)
  if mi ≤ ma then .ok (.float64, .string, take (oneStr r mi ma) len (r.start seed)) else .error .panic

/-- A `UInt32` literal. -/
def litU32 (i : ℤ) : Out (Ser K) := litLen (.int i)

/-- `random_str` (`stats.py:577-611`). -/
def randomStr (r : Rng K σ) (minSize maxSize : ℤ) (seed : Option ℕ) (length : Arg K) :
    Out (DType × DType × List (List Char)) := do
  let mi := if maxSize < minSize then maxSize else minSize
  let ma := if maxSize < minSize then minSize else maxSize
  let len ← litLen length
  let mi ← litU32 mi
  let ma ← litU32 ma
  plRandStr r len mi ma seed

section
variable [Field K] [LinearOrder K]

/-- `pl_rand_binomial` (`src/stats/sample.rs:40-53`): `Binomial::new` fails unless `0 ≤ p ≤ 1`. -/
def plRandBinomial (r : Rng K σ) (len n p : Ser K) (seed : Option ℕ) : Out (List ℕ) := do
  let len ← unwrap (← len.asU32)
  let n ← unwrap (← n.asU32)
  let p ← unwrap (← p.asF64)
  if 0 ≤ p ∧ p ≤ 1 then .ok (take (r.binomial n p) len (r.start seed)) else .error .compute

/-- `random_binomial` (`stats.py:614-643`): `n` is sent as `Int32`. -/
def randomBinomial (r : Rng K σ) (n : ℤ) (p : K) (seed : Option ℕ) (length : Arg K) : Out (List ℕ) := do
  if n < 1 then .error .value
  else
    let len ← litLen length
    let n ← litI32 n
    plRandBinomial r len n (.f64 (some p)) seed

/-- `pl_rand_exp` (`src/stats/sample.rs:56-74`): `Exp::new` fails on a negative rate; at rate zero the scale is
infinite (`none`).  `Exp` divides `Exp1` by the rate. -/
def plRandExp (r : Rng K σ) (len lambda : Ser K) (seed : Option ℕ) : Out (List (Option K)) := do
  let len ← unwrap (← len.asU32)
  let lambda ← unwrap (← lambda.asF64)
  if lambda = 1 then .ok ((take r.exp1 len (r.start seed)).map some)
  else if lambda < 0 then .error .compute
  else .ok ((take r.exp1 len (r.start seed)).map fun v => if lambda = 0 then none else some (v * (1 / lambda)))

/-- `random_exp` (`stats.py:646-669`). -/
def randomExp (r : Rng K σ) (lambda : K) (seed : Option ℕ) (length : Arg K) : Out (List (Option K)) := do
  let len ← litLen length
  plRandExp r len (.f64 (some lambda)) seed

/-- `pl_rand_normal` (`src/stats/sample.rs:163-185`): `Normal` samples `mean + std * StandardNormal`.  Non-finite
deviations, which panic, are not numbers of `K`. -/
def plRandNormal (r : Rng K σ) (len mean std : Ser K) (seed : Option ℕ) : Out (List K) := do
  let len ← unwrap (← len.asU32)
  let mean := (← mean.asF64).getD 0
  let std := (← std.asF64).getD 1
  if mean = 0 ∧ std = 1 then .ok (take r.normal len (r.start seed))
  else .ok ((take r.normal len (r.start seed)).map fun z => mean + std * z)

/-- `random_normal` (`stats.py:672-701`). -/
def randomNormal (r : Rng K σ) (mean std : Arg K) (seed : Option ℕ) (length : Arg K) : Out (List K) := do
  let len ← litLen length
  plRandNormal r len (litF64 mean) (litF64 std) seed

/-- `apply_nonnull_values_generic` with a sampling closure: a draw for each value that is not null. -/
def applyNonnull (f : K → σ → K × σ) : List (Option K) → σ → List (Option K)
  | [], _ => []
  | none :: t, s => none :: applyNonnull f t s
  | some x :: t, s => some (f x s).1 :: applyNonnull f t (f x s).2

/-- `pl_perturb` (`src/stats/sample.rs:94-124`) on a float column (`none` is a column of another type). -/
def plPerturb (r : Rng K σ) (col : Option (List (Option K))) (low high : K) (seed : Option ℕ) : Out (List (Option K)) :=
  match col with
  | none => .error .compute
  | some c =>
    if low < high then
      .ok (applyNonnull (fun x s => (x + (r.unif low high s).1, (r.unif low high s).2)) c (r.start seed))
    else .error .panic

/-- `perturb` (`stats.py:368-402`); `epsilon` is finite. -/
def perturb (r : Rng K σ) (col : Option (List (Option K))) (epsilon : K) (positive : Bool) (seed : Option ℕ) :
    Out (List (Option K)) :=
  let ep := max epsilon (-epsilon)
  if positive then plPerturb r col 0 ep seed else plPerturb r col (-(ep / 2)) (ep / 2) seed

/-- `pl_jitter` (`src/stats/sample.rs:127-160`) with a finite deviation. -/
def plJitter (r : Rng K σ) (col : Option (List (Option K))) (std : Ser K) (seed : Option ℕ) : Out (List (Option K)) := do
  let std ← unwrap (← std.asF64)
  match col with
  | none => .error .compute
  | some c => .ok (applyNonnull (fun x s => (x + std * (r.normal s).1, (r.normal s).2)) c (r.start seed))

/-- `jitter` (`stats.py:405-432`): a Python int has no `cast`. -/
def jitter (r : Rng K σ) (col : Option (List (Option K))) (std : Arg K) (seed : Option ℕ) :
    Out (Option (List (Option K))) :=
  match std with
  | .float v =>
    if v < 0 then .error .value
    else if v = 0 then .ok col
    else (plJitter r col (.f64 (some v)) seed).map some
  | .int _ => .error .type
  | .expr s =>
    match s with
    | .f64 v => (plJitter r col (.f64 v) seed).map some
    | .i32 v => (plJitter r col (.f64 (v.map fun i => (i : K))) seed).map some
    | .u32 v => (plJitter r col (.f64 (v.map fun i => (i : K))) seed).map some
    | .other => .error .schema

end

end Verif.Random
