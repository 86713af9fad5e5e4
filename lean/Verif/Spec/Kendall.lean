import Mathlib.Order.Defs.LinearOrder

/-!
# Specification of Kendall's tau: counting over all pairs of rows
-/

namespace Verif.Kendall

/-- Number of pairs of positions `i < j` whose rows satisfy `P`. -/
def Spec.pairs {α : Type} (P : α → α → Bool) : List α → Nat
  | [] => 0
  | a :: l => l.countP (P a) + Spec.pairs P l

variable {α β : Type} [LinearOrder α] [LinearOrder β]

/-- Both columns move in the same strict direction. -/
def Spec.concordant (a b : α × β) : Bool := (a.1 < b.1 && a.2 < b.2) || (b.1 < a.1 && b.2 < a.2)
/-- The columns move in strictly opposite directions. -/
def Spec.discordant (a b : α × β) : Bool := (a.1 < b.1 && b.2 < a.2) || (b.1 < a.1 && a.2 < b.2)
def Spec.tiedX (a b : α × β) : Bool := a.1 == b.1
def Spec.tiedY (a b : α × β) : Bool := a.2 == b.2

/-- The rows where both columns are present. -/
def Spec.complete {α β : Type} (rows : List (Option α × Option β)) : List (α × β) :=
  rows.flatMap fun r => match r with
    | (some x, some y) => [(x, y)]
    | _ => []

end Verif.Kendall
