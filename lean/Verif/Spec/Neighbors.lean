import Verif.Model.KDTree
import Mathlib.Data.List.Sort

/-!
# Specification of neighbor queries: brute force over the list of rows

Nothing here mentions trees, boxes or stacks.
-/

namespace Verif.KDT
open Verif

variable {K : Type} [LinearOrder K] [Zero K] [Add K] [Sub K] [Mul K] [FloatOps K] {A : Type}

/-- All rows with their distance to `q`. -/
def Spec.all (d : Dist K) (q : List K) (rows : List (Leaf K A)) : List (NB K A) :=
  rows.map fun p => ⟨d.dist p.row q, p.item⟩

/-- The rows in the closed ball. -/
def Spec.ball (d : Dist K) (q : List K) (r : K) (rows : List (Leaf K A)) : List (NB K A) :=
  (Spec.all d q rows).filter fun nb => decide (nb.dist ≤ r)

/-- The `k` smallest distances below `bound`, in order. -/
def Spec.kSmallest (d : Dist K) (q : List K) (k : Nat) (bound : K) (rows : List (Leaf K A)) : List K :=
  ((((Spec.all d q rows).map (·.dist)).filter fun x => decide (x < bound)).insertionSort (· ≤ ·)).take k

end Verif.KDT

namespace Verif.KDT
open Verif
variable {K : Type} [LinearOrder K] [Zero K] [Add K] [Sub K] [Mul K]

/-- A matrix whose rows all have the declared number of columns. -/
def Mat.Rect (X : Mat K) : Prop := ∀ r ∈ X.rows, r.length = X.ncols

/-- Rows numbered from zero in the order they were supplied. -/
def Spec.numbered (rows : List (List K)) : List (Leaf K Nat) :=
  rows.zipIdx.map fun p => ⟨p.2, p.1⟩

/-- Which later `add` calls are accepted: right width and at least one row. -/
def Spec.accepted (X0 X : Mat K) : Bool := X.ncols == X0.ncols && !X.rows.isEmpty

/-- All rows ever supplied in accepted calls, in order. -/
def Spec.rows (X0 : Mat K) (adds : List (Mat K)) : List (List K) :=
  X0.rows ++ (adds.filter (Spec.accepted X0)).flatMap (·.rows)

/-- The metric names with a vector-space metric. -/
def Spec.metricNames : List String := ["l1", "l2", "sql2", "linf", "inf"]

end Verif.KDT

namespace Verif.KDT
open Verif
variable {K : Type} [LinearOrder K] {A : Type}

/-- `res` is an answer to "the `k` nearest within `bound`" among `all`: sorted, at most `k`, nobody beyond the
bound, and whoever is left out is not closer than the bound or loses against `k` returned ones. -/
structure Spec.Nearest (k : Nat) (bound : K) (res all : List (NB K A)) : Prop where
  sorted : res.Pairwise (fun a b => a.dist ≤ b.dist)
  len : res.length ≤ k
  bounded : ∀ t ∈ res, t.dist ≤ bound
  split : ∃ left, (res ++ left).Perm all ∧
    ∀ x ∈ left, bound ≤ x.dist ∨ (res.length = k ∧ ∀ t ∈ res, t.dist ≤ x.dist)

end Verif.KDT

namespace Verif.KDT
open Verif
variable {K : Type} {A : Type}

/-- The rows of a frame that can be neighbors: admitted and without missing coordinate, each with its
payload. -/
def Spec.candidates (ids : List A) (admit : List Bool) (rows : List (List (Option K))) : List (Leaf K A) :=
  ((ids.zip (admit.zip rows)).filter fun p => p.2.1 && p.2.2.all Option.isSome).map
    fun p => ⟨p.1, p.2.2.filterMap id⟩

/-- Which rows a data mask admits: all without a mask, otherwise those with `true`. -/
def Spec.admitted (dataMask : Option (List (Option Bool))) (n : Nat) : List Bool :=
  match dataMask with
  | none => List.replicate n true
  | some m => m.map fun b => b == some true

end Verif.KDT
