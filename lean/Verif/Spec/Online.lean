import Verif.Spec.LinReg
import Mathlib.Data.List.Basic
import Mathlib.Data.Matrix.Mul

/-!
# Histories of added and removed rows, prefixes and windows
-/

namespace Verif.Online.Spec
open Verif.LinReg.Spec
variable {K : Type} [Field K] {d : Nat}

/-- A row without missing entries. -/
def complete (r : (Fin d → K) × K) : (Fin d → Option K) × Option K := (fun i => some (r.1 i), some r.2)

/-- What one call `update(x, y, c)` is meant to do to the data set (up to the order of its rows): `c = 1` adds
the row, `c = -1` removes a row that is there, rows with a missing entry are ignored. -/
inductive Effect : List ((Fin d → K) × K) → ((Fin d → Option K) × Option K) × K → List ((Fin d → K) × K) → Prop
  | add (r : (Fin d → K) × K) (rows : List ((Fin d → K) × K)) : Effect rows (complete r, 1) (r :: rows)
  | remove (r : (Fin d → K) × K) (rows rows' : List ((Fin d → K) × K)) (h : rows.Perm (r :: rows')) :
      Effect rows (complete r, -1) rows'
  | ignored (x : Fin d → Option K) (y : Option K) (c : K) (rows : List ((Fin d → K) × K))
      (h : (∃ i, x i = none) ∨ y = none) : Effect rows ((x, y), c) rows

/-- A sequence of calls leads from one data set to another, and every data set on the way satisfies `P`. -/
inductive History (P : List ((Fin d → K) × K) → Prop) :
    List ((Fin d → K) × K) → List (((Fin d → Option K) × Option K) × K) → List ((Fin d → K) × K) → Prop
  | nil (rows : List ((Fin d → K) × K)) : History P rows [] rows
  | cons (rows rows' rows'' : List ((Fin d → K) × K)) (e : ((Fin d → Option K) × Option K) × K)
      (es : List (((Fin d → Option K) × Option K) × K)) (h : Effect rows e rows') (hp : P rows')
      (ht : History P rows' es rows'') : History P rows (e :: es) rows''

/-- `Xᵀ X + lam I`. -/
def ridgeMatrix (rows : List ((Fin d → K) × K)) (lam : K) : Matrix (Fin d) (Fin d) K :=
  fun i j => (rows.map fun r => r.1 i * r.1 j).sum + if i = j then lam else 0

variable [LinearOrder K]

/-- `w` is the one and only minimiser of the ridge objective. -/
def IsRidge (rows : List ((Fin d → K) × K)) (lam : K) (w : Fin d → K) : Prop :=
  ∀ b, ridge rows lam w ≤ ridge rows lam b ∧ (ridge rows lam b = ridge rows lam w → b = w)

/-- `(w, c)` is the one and only minimiser of the ridge objective with free intercept. -/
def IsRidgeBias (rows : List ((Fin d → K) × K)) (lam : K) (w : Fin d → K) (c : K) : Prop :=
  ∀ b e, ridgeBias rows lam w c ≤ ridgeBias rows lam b e ∧
    (ridgeBias rows lam b e = ridgeBias rows lam w c → b = w ∧ e = c)

/-- Rows `i+1-n .. i` (inclusive) of a list. -/
def window {α : Type} (rows : List α) (n i : Nat) : List α := (rows.drop (i + 1 - n)).take n

/-- The complete rows of a list, in order. -/
def valid (rows : List ((Fin d → Option K) × Option K)) : List ((Fin d → K) × K) :=
  rows.filterMap fun r =>
    if h : (∀ i, (r.1 i).isSome) ∧ r.2.isSome then some (fun i => (r.1 i).get (h.1 i), r.2.get h.2) else none

end Verif.Online.Spec
