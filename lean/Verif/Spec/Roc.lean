import Verif.Spec.MannWhitney

/-!
# Ranking metrics by their definitions
-/

namespace Verif.Roc
variable {K : Type} [Field K] [LinearOrder K]

/-- Scores of the positive rows. -/
def Spec.positives (rows : List (K × Nat)) : List K :=
  (rows.filter fun r => decide (r.2 = 1)).map Prod.fst

/-- Scores of the negative rows. -/
def Spec.negatives (rows : List (K × Nat)) : List K :=
  (rows.filter fun r => decide (r.2 = 0)).map Prod.fst

/-- Probability that a random positive is scored above a random negative, ties counting one half. -/
def Spec.auc (rows : List (K × Nat)) : K :=
  MWU.Spec.wins (Spec.positives rows) (Spec.negatives rows) /
    ((Spec.positives rows).length * (Spec.negatives rows).length : K)

/-- Recall at threshold `t` (a row is predicted positive when its score is at least `t`). -/
def Spec.recall (rows : List (K × Nat)) (t : K) : K :=
  (((Spec.positives rows).countP fun s => decide (t ≤ s) : Nat) : K) / ((Spec.positives rows).length : K)

/-- Precision at threshold `t`. -/
def Spec.precision (rows : List (K × Nat)) (t : K) : K :=
  (((Spec.positives rows).countP fun s => decide (t ≤ s) : Nat) : K) /
    ((rows.countP fun r => decide (t ≤ r.1) : Nat) : K)

/-- Average precision over thresholds listed from low to high: each threshold contributes the recall gained
there (against the next higher threshold, or against 0 for the highest) times its precision. -/
def Spec.avgPrecision (rows : List (K × Nat)) : List K → K
  | [] => 0
  | [t] => Spec.recall rows t * Spec.precision rows t
  | t :: u :: ts => (Spec.recall rows t - Spec.recall rows u) * Spec.precision rows t +
      Spec.avgPrecision rows (u :: ts)

end Verif.Roc
