import Mathlib.Algebra.Order.Field.Basic

/-!
# Binary confusion matrix and MCC (`src/num_ext/tp_fp.rs`)
-/

namespace Verif.Confusion

/-- The four counters. -/
structure Counts where
  tn : Nat
  fp : Nat
  fn : Nat
  tp : Nat
deriving Repr, DecidableEq

/-- One loop step of `binary_confusion_matrix` (`src/num_ext/tp_fp.rs:188-191`). -/
def bump (c : Counts) (i : Nat) : Counts :=
  match i % 4 with
  | 0 => { c with tn := c.tn + 1 }
  | 1 => { c with fp := c.fp + 1 }
  | 2 => { c with fn := c.fn + 1 }
  | _ => { c with tp := c.tp + 1 }

/-- `binary_confusion_matrix` (`src/num_ext/tp_fp.rs:182-193`).  `into_no_null_iter` ignores the validity mask,
so a null contributes whatever its slot of the buffer holds: `slot`.  Column lengths are below `2^32`
(polars' index type), so the `u32` counters do not wrap and are naturals here. -/
def confusion (slot : Nat) (col : List (Option Nat)) : Counts :=
  col.foldl (fun c v => bump c (v.getD slot)) ⟨0, 0, 0, 0⟩

/-- The column sent by `query_confusion_matrix` (`python/polars_ds/exprs/metrics.py:465-471`): `2*act + p` with
`act` the label as 0/1 and `p` whether the score is above the threshold; null when either is null. -/
def combined {K : Type} [LT K] [DecidableLT K] (threshold : K) (row : Option Bool × Option K) : Option Nat :=
  match row.1, row.2 with
  | some a, some s => some (2 * a.toNat + (decide (threshold < s)).toNat)
  | _, _ => none

/-- A `f64` result: a finite number, an infinity, or NaN. -/
inductive Val (K : Type) where
  | num (v : K)
  | inf (pos : Bool)
  | nan
deriving Repr, DecidableEq

/-- How polars evaluates `/` on the columns of the frame.  polars is not part of this repository, so both
readings are kept: `float` is IEEE division; `legacy` is integer division with null on a zero divisor, which
`fill_null` turns into NaN. -/
inductive DivSem where
  | float
  | legacy
deriving Repr, DecidableEq

variable {K : Type} [Field K] [LinearOrder K]

namespace Val

/-- IEEE division of finite numbers; only finite operands and infinities met here are needed. -/
def fdiv : Val K → Val K → Val K
  | num a, num b => if b = 0 then (if a = 0 then nan else inf (decide (0 < a))) else num (a / b)
  | num _, inf _ => num 0
  | inf p, num b => inf (p == decide (0 ≤ b))
  | _, _ => nan

def fsub : Val K → Val K → Val K
  | num a, num b => num (a - b)
  | _, _ => nan

def fadd : Val K → Val K → Val K
  | num a, num b => num (a + b)
  | _, _ => nan

def fmul : Val K → Val K → Val K
  | num a, num b => num (a * b)
  | _, _ => nan

def fsqrt (sqrt : K → K) : Val K → Val K
  | num a => if a < 0 then nan else num (sqrt a)
  | _ => nan

end Val

/-- Quotient of two `u32` columns under each reading. -/
def ratio (sem : DivSem) (a b : Nat) : Val K :=
  match sem with
  | .float => Val.fdiv (.num (a : K)) (.num (b : K))
  | .legacy => if b = 0 then .nan else .num ((a / b : Nat) : K)

/-- The 25 columns of `pl_binary_confusion_matrix` that are not counts. -/
structure Metrics (K : Type) where
  tpr : Val K
  fpr : Val K
  precision : Val K
  falseOmission : Val K
  prevalence : Val K
  threat : Val K
  fnr : Val K
  tnr : Val K
  npv : Val K
  fdr : Val K
  plr : Val K
  nlr : Val K
  informedness : Val K
  markedness : Val K
  prevalenceThreshold : Val K
  balancedAccuracy : Val K
  f1 : Val K
  folkesMallows : Val K
  mcc : Val K
  acc : Val K
  dor : Val K
deriving Repr, DecidableEq

open Val in
/-- `pl_binary_confusion_matrix` (`src/num_ext/tp_fp.rs:306-395`).  Simplification: sums and products of
infinities are not computed exactly (they do not reach any column except through `dor`, whose operands are
divided only), and under `legacy` the second-level columns are computed by float operations. -/
def metrics (sem : DivSem) (sqrt : K → K) (c : Counts) : Metrics K :=
  let p := c.tp + c.fn
  let n := c.fp + c.tn
  let tpr : Val K := ratio sem c.tp p
  let fpr : Val K := ratio sem c.fp n
  let precision : Val K := ratio sem c.tp (c.tp + c.fp)
  let fomr : Val K := ratio sem c.fn (c.fn + c.tn)
  let prevalence : Val K := ratio sem p (p + n)
  let threat : Val K := ratio sem c.tp (c.tp + c.fn + c.fp)
  let fnr := fsub (num 1) tpr
  let tnr := fsub (num 1) fpr
  let npv := fsub (num 1) fomr
  let fdr := fsub (num 1) precision
  let plr := fdiv tpr fpr
  let nlr := fdiv fnr tnr
  { tpr, fpr, precision, falseOmission := fomr, prevalence, threat, fnr, tnr, npv, fdr, plr, nlr
    informedness := fsub (fadd tpr tnr) (num 1)
    markedness := fsub precision fomr
    prevalenceThreshold := fdiv (fsub (fsqrt sqrt (fmul tpr fpr)) fpr) (fsub tpr fpr)
    balancedAccuracy := fdiv (fadd tpr tnr) (num 2)
    f1 := fdiv (fmul (fmul (num 2) precision) tpr) (fadd precision tpr)
    folkesMallows := fsqrt sqrt (fmul precision tpr)
    mcc := fsub (fsqrt sqrt (fmul (fmul (fmul tpr tnr) precision) npv))
      (fsqrt sqrt (fmul (fmul (fmul fnr fpr) fomr) fdr))
    acc := ratio sem (c.tp + c.tn) (p + n)
    dor := fdiv plr nlr }

/-- `pl_mcc` (`src/num_ext/tp_fp.rs:196-213`): the products `n11 * n00` and `n10 * n01` are `u32` products and
wrap in a release build; everything after is `f64`. -/
def plMcc (sqrt : K → K) (c : Counts) : Val K :=
  let n1 := ((c.tp + c.fn : Nat) : K)
  let m1 := ((c.tp + c.fp : Nat) : K)
  let n0 := ((c.fp + c.tn : Nat) : K)
  let m0 := ((c.fn + c.tn : Nat) : K)
  Val.fdiv (.num (((c.tp * c.tn % 2 ^ 32 : Nat) : K) - ((c.fn * c.fp % 2 ^ 32 : Nat) : K)))
    (.num (sqrt (n1 * m1 * n0 * m0)))

/-- The column sent by `query_mcc` (`python/polars_ds/exprs/metrics.py:608-610`). -/
def mccColumn (rows : List (Nat × Nat)) : List (Option Nat) := rows.map fun r => some (2 * r.1 + r.2)

end Verif.Confusion
