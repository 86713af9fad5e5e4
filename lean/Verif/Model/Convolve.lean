import Mathlib.Algebra.Field.Defs
import Mathlib.Algebra.BigOperators.Group.List.Basic
import Mathlib.Algebra.BigOperators.Group.Finset.Basic

/-!
# Convolution (`src/num_ext/convolve.rs`, `python/polars_ds/exprs/num.py:754-809`)

Arithmetic is exact.  The `parallel` branch maps the same function over the same windows, so one model covers both
(`src/num_ext/convolve.rs:175-187`).
-/

namespace Verif.Convolve
variable {K : Type} [Field K]

/-- `ConvMode` (`src/num_ext/convolve.rs:23-29`). -/
inductive Mode
  | full
  | same
  | left
  | right
  | valid
  deriving DecidableEq, Repr

/-- `cfavml::dot`. -/
def dot (a b : List K) : K := (List.zipWith (· * ·) a b).sum

/-- `input.windows(k)`, for `k ≥ 1`. -/
def windows (k : Nat) (xs : List K) : List (List K) :=
  (List.range (xs.length + 1 - k)).map fun i => (xs.drop i).take k

/-- The padded input (`src/num_ext/convolve.rs:153-156`). -/
def pad (t : Nat) (xs : List K) : List K := List.replicate t 0 ++ xs ++ List.replicate t 0

/-- `convolve`, mode `VALID` (`src/num_ext/convolve.rs:174-188`). -/
def directValid (xs ker : List K) : List K := (windows ker.length xs).map fun sl => dot ker sl

/-- The modes in terms of the `VALID` computation (`src/num_ext/convolve.rs:109-143, 145-190`); both methods treat
them alike. -/
def modes (valid : List K → List K → List K) (xs ker : List K) : Mode → List K
  | .full => valid (pad (ker.length - 1) xs) ker
  | .same => ((valid (pad (ker.length - 1) xs) ker).drop ((ker.length - 1) / 2)).take xs.length
  | .left => (valid (pad (ker.length - 1) xs) ker).take xs.length
  | .right => (valid (pad (ker.length - 1) xs) ker).drop (ker.length - 1)
  | .valid => valid xs ker

/-- `valid_fft_convolve` (`src/num_ext/convolve.rs:74-107`).  `realfft` is not in this repository; the contract is
that the unnormalised inverse transform of the product of two transforms is `n` times the circular convolution of
the input with the zero-extended kernel. -/
def circular (xs ker : List K) : List K :=
  let n := xs.length
  (List.range n).map fun i =>
    (n : K) * ((List.range n).map fun j => (ker ++ List.replicate (n - ker.length) 0).getD j 0 *
      xs.getD ((i + n - j) % n) 0).sum

/-- `fft_convolve`, mode `VALID` (`src/num_ext/convolve.rs:133-142`). -/
def fftValid (xs ker : List K) : List K :=
  let out := circular xs ker
  (out.drop (ker.length - 1)).map fun x => x / (out.length : K)

/-- `ConvMethod` (`src/num_ext/convolve.rs:47-50`). -/
inductive Method
  | fft
  | direct
  deriving DecidableEq, Repr

/-- `pl_convolve` (`src/num_ext/convolve.rs:193-220`); `none` is the error for a kernel that is longer than the input
or shorter than two. -/
def plConvolve (xs ker : List K) (mode : Mode) (m : Method) : Option (List K) :=
  if xs.length < ker.length ∨ ker.length < 2 then none
  else match m with
    | .fft => some (modes fftValid xs ker mode)
    | .direct => some (modes directValid xs ker mode)

/-- The Python function (`python/polars_ds/exprs/num.py:754-809`): the kernel is reversed for the direct method.  The
null fill of `x` and the filter that drops non-finite kernel entries happen before this. -/
def convolve (xs ker : List K) (mode : Mode) (m : Method) : Option (List K) :=
  match m with
  | .direct => plConvolve xs ker.reverse mode .direct
  | .fft => plConvolve xs ker mode .fft

end Verif.Convolve
