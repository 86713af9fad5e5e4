import Verif.Lemmas.LinReg
import Mathlib.Data.Rat.Defs
import Mathlib.Algebra.Order.Ring.Rat
import Mathlib.Data.Fin.VecNotation
import Mathlib.Tactic.FinCases
import Mathlib.Tactic.NormNum

/-!
# Batch linear regression: theorems
-/
set_option linter.unusedSectionVars false

namespace Verif.LinReg
open Verif.LinReg.Spec Matrix
variable {K : Type} [Field K] [LinearOrder K] [IsStrictOrderedRing K] {d t : Nat}

theorem identifiable_unit (rows : List ((Fin d → K) × K)) (lam : K) (h : 0 < lam ∨ FullRank rows) (n1 : Nat)
    (hn : d ≤ n1) : Identifiable (unit rows) (pen (effLam lam) n1) := by
  intro v h1 h2
  rcases h with h | h
  · funext i
    apply h2
    have : i.val < n1 := by omega
    simp only [pen, this, if_true, effLam, h.le]
    exact h.ne'
  · apply h
    intro r hr
    exact h1 (1, r) (List.mem_map_of_mem hr) one_ne_zero

theorem obj_pen (rows : List ((Fin d → K) × K)) (lam : K) (h : 0 ≤ lam) (n1 : Nat) (hn : d ≤ n1) (b : Fin d → K) :
    obj (unit rows) (pen (effLam lam) n1) b = ridge rows lam b := by
  unfold obj ridge
  rw [wsse_unit, Finset.mul_sum]
  congr 1
  apply Finset.sum_congr rfl
  intro i _
  have : i.val < n1 := by omega
  simp [pen, this, effLam, h]

/-- Without a bias, the coefficients of every target minimise the ridge objective over all coefficient vectors,
and nothing else does.  The data must have full column rank or the penalty must be positive. -/
theorem lin_reg_optimal (S : Solver K) (rows : List (Row d t K)) (lam : K) (hl : 0 ≤ lam) (solver : String)
    (k : Fin t) (h : 0 < lam ∨ FullRank (rows.map fun r => (r.1, r.2 k))) (b : Fin d → K) :
    let w := fun i => linReg S rows lam solver i k
    ridge (rows.map fun r => (r.1, r.2 k)) lam w ≤ ridge (rows.map fun r => (r.1, r.2 k)) lam b ∧
    (ridge (rows.map fun r => (r.1, r.2 k)) lam b = ridge (rows.map fun r => (r.1, r.2 k)) lam w → b = w) := by
  have hn : d ≤ absDiff d (false : Bool).toNat := by simp [absDiff]
  have hid := identifiable_unit (rows.map fun r => (r.1, r.2 k)) lam h _ hn
  have := obj_optimal _ _ _ (unit_nonneg _) (pen_nonneg' lam _) hid
    (solve_normal S rows lam false (Method.ofString solver) k hid) b
  rw [obj_pen _ _ hl _ hn, obj_pen _ _ hl _ hn] at this
  exact this

theorem dot_snoc (x v : Fin d → K) (c : K) :
    dot (Fin.snoc x 1 : Fin (d + 1) → K) (Fin.snoc v c : Fin (d + 1) → K) = dot x v + c := by
  unfold dot
  rw [Fin.sum_univ_castSucc]
  simp

theorem snoc_split (v : Fin (d + 1) → K) :
    v = Fin.snoc (fun i => v i.castSucc) (v (Fin.last d)) := by
  funext i
  refine Fin.lastCases ?_ (fun j => ?_) i <;> simp

theorem target_withOne (rows : List (Row d t K)) (k : Fin t) :
    target (rows.map withOne) k = (rows.map fun r => (r.1, r.2 k)).map fun r => (Fin.snoc r.1 1, r.2) := by
  unfold target withOne
  simp [List.map_map, Function.comp_def]

theorem identifiable_bias (rows : List ((Fin d → K) × K)) (lam : K)
    (h : (0 < lam ∧ rows ≠ []) ∨ FullRankBias rows) :
    Identifiable (unit (rows.map fun r => ((Fin.snoc r.1 1 : Fin (d + 1) → K), r.2))) (pen (effLam lam) d) := by
  intro v h1 h2
  have key : ∀ r ∈ rows, dot r.1 (fun i => v i.castSucc) + v (Fin.last d) = 0 := by
    intro r hr
    have := h1 (1, (Fin.snoc r.1 1, r.2)) (by
      unfold unit
      simp only [List.map_map, List.mem_map]
      exact ⟨r, hr, rfl⟩) one_ne_zero
    rw [snoc_split v, dot_snoc] at this
    exact this
  have hz : (fun i : Fin d => v i.castSucc) = 0 ∧ v (Fin.last d) = 0 := by
    rcases h with ⟨h, hne⟩ | h
    · have h0 : (fun i : Fin d => v i.castSucc) = 0 := by
        funext i
        apply h2
        have : i.castSucc.val < d := by simp
        simp only [pen, this, if_true, effLam, h.le]
        exact h.ne'
      refine ⟨h0, ?_⟩
      obtain ⟨r, hr⟩ := List.exists_mem_of_ne_nil rows hne
      have := key r hr
      rw [h0] at this
      simpa [dot] using this
    · exact h _ _ key
  rw [snoc_split v, hz.1, hz.2]
  funext i
  refine Fin.lastCases ?_ (fun j => ?_) i <;> simp

theorem obj_bias (rows : List ((Fin d → K) × K)) (lam : K) (hl : 0 ≤ lam) (b : Fin d → K) (c : K) :
    obj (unit (rows.map fun r => ((Fin.snoc r.1 1 : Fin (d + 1) → K), r.2))) (pen (effLam lam) d) (Fin.snoc b c) =
      ridgeBias rows lam b c := by
  unfold obj ridgeBias
  rw [wsse_unit]
  unfold sse
  congr 1
  · rw [List.map_map]
    congr 1
    apply List.map_congr_left
    intro r _
    simp only [Function.comp_def, dot_snoc]
  · rw [Fin.sum_univ_castSucc, Finset.mul_sum]
    simp [pen, effLam, hl]

/-- With a bias, coefficients and intercept minimise the objective in which the intercept is not penalised. -/
theorem lin_reg_bias_optimal (S : Solver K) (rows : List (Row d t K)) (lam : K) (hl : 0 ≤ lam) (solver : String)
    (k : Fin t) (h : (0 < lam ∧ rows ≠ []) ∨ FullRankBias (rows.map fun r => (r.1, r.2 k)))
    (b : Fin d → K) (c : K) :
    let w := fun i : Fin d => linRegBias S rows lam solver i.castSucc k
    let c0 := linRegBias S rows lam solver (Fin.last d) k
    ridgeBias (rows.map fun r => (r.1, r.2 k)) lam w c0 ≤ ridgeBias (rows.map fun r => (r.1, r.2 k)) lam b c ∧
    (ridgeBias (rows.map fun r => (r.1, r.2 k)) lam b c = ridgeBias (rows.map fun r => (r.1, r.2 k)) lam w c0 →
      b = w ∧ c = c0) := by
  have hn : absDiff (d + 1) (true : Bool).toNat = d := by simp [absDiff]
  have h' : (0 < lam ∧ (rows.map fun r => (r.1, r.2 k)) ≠ []) ∨ FullRankBias (rows.map fun r => (r.1, r.2 k)) := by
    simpa using h
  have hid := identifiable_bias (rows.map fun r => (r.1, r.2 k)) lam h'
  have hs := solve_normal S (rows.map withOne) lam true (Method.ofString solver) k
  rw [hn, target_withOne] at hs
  have := obj_optimal _ _ _ (unit_nonneg _) (pen_nonneg' lam d) hid (hs hid) (Fin.snoc b c)
  rw [snoc_split (fun i => solveLstsq S (rows.map withOne) lam true (Method.ofString solver) i k),
    obj_bias _ _ hl, obj_bias _ _ hl] at this
  refine ⟨this.1, fun he => ?_⟩
  have e := this.2 he
  constructor
  · funext i
    have := congrFun e i.castSucc
    rw [Fin.snoc_castSucc, Fin.snoc_castSucc] at this
    exact this
  · have := congrFun e (Fin.last d)
    rw [Fin.snoc_last, Fin.snoc_last] at this
    exact this

theorem wnormal_eq (rows : List (K × Row d t K)) (k : Fin t) :
    wgram rows = normal (rows.map fun r => (r.1, r.2.1, r.2.2 k)) 0 := by
  ext i j
  unfold wgram normal
  simp only [List.map_map, Function.comp_def, Pi.zero_apply, ite_self, add_zero]
  congr 1
  apply List.map_congr_left
  intro r _
  ring

theorem wxty_col (rows : List (K × Row d t K)) (k : Fin t) :
    (fun i => wxty rows i k) = rhs (rows.map fun r => (r.1, r.2.1, r.2.2 k)) := by
  funext i
  unfold wxty rhs
  simp only [List.map_map, Function.comp_def]
  congr 1
  apply List.map_congr_left
  intro r _
  ring

/-- Weighted least squares: with non-negative weights the coefficients minimise the weighted sum of squared
residuals, and nothing else does, when the rows of positive weight have full column rank. -/
theorem weighted_optimal (S : Solver K) (rows : List (K × Row d t K)) (how : Method) (k : Fin t)
    (hw : ∀ r ∈ rows, 0 ≤ r.1)
    (h : FullRank ((rows.filter fun r => decide (r.1 ≠ 0)).map fun r => (r.2.1, r.2.2 k))) (b : Fin d → K) :
    let w := fun i => weightedLstsq S rows how i k
    let data := rows.map fun r => (r.1, r.2.1, r.2.2 k)
    wsse data w ≤ wsse data b ∧ (wsse data b = wsse data w → b = w) := by
  have hid : Identifiable (rows.map fun r => (r.1, r.2.1, r.2.2 k)) (0 : Fin d → K) := by
    intro v h1 _
    apply h
    intro r hr
    obtain ⟨x, hx, rfl⟩ := List.mem_map.1 hr
    have hx := List.mem_filter.1 hx
    exact h1 _ (List.mem_map.2 ⟨x, hx.1, rfl⟩) (by simpa using hx.2)
  have hw' : ∀ r ∈ rows.map fun r => (r.1, r.2.1, r.2.2 k), 0 ≤ r.1 := by
    intro r hr
    obtain ⟨x, hx, rfl⟩ := List.mem_map.1 hr
    exact hw x hx
  have hu := normal_isUnit _ (0 : Fin d → K) hw' (fun i => le_refl _) hid
  rw [← wnormal_eq rows k] at hu
  have hn := col_of_mul (weighted_mul S rows how hu) k
  rw [wxty_col, wnormal_eq rows k] at hn
  have := obj_optimal _ (0 : Fin d → K) _ hw' (fun i => le_refl _) hid hn b
  simpa [obj] using this

/-- A multi-target fit gives, column by column, the single-target fits. -/
theorem multi_target_columns (S S' : Solver K) (rows : List (Row d t K)) (lam : K) (hl : 0 ≤ lam)
    (solver solver' : String) (k : Fin t) (h : 0 < lam ∨ FullRank (rows.map fun r => (r.1, r.2 k))) (i : Fin d) :
    linReg S rows lam solver i k = linReg S' (rows.map fun r => (r.1, fun _ : Fin 1 => r.2 k)) lam solver' i 0 := by
  have hm : ((rows.map fun r => (r.1, fun _ : Fin 1 => r.2 k)).map fun r => (r.1, r.2 0)) =
      rows.map fun r => (r.1, r.2 k) := by simp [List.map_map, Function.comp_def]
  have h1 := lin_reg_optimal S rows lam hl solver k h
    (fun i => linReg S' (rows.map fun r => (r.1, fun _ : Fin 1 => r.2 k)) lam solver' i 0)
  have h2 := lin_reg_optimal S' (rows.map fun r => (r.1, fun _ : Fin 1 => r.2 k)) lam hl solver' 0
    (by rw [hm]; exact h) (fun i => linReg S rows lam solver i k)
  rw [hm] at h2
  have := h1.2 (le_antisymm h2.1 h1.1)
  exact (congrFun this i).symm

/-- Weighted least squares with a bias: the last feature is the constant one. -/
theorem weighted_bias_optimal (S : Solver K) (rows : List (K × Row d t K)) (how : Method) (k : Fin t)
    (hw : ∀ r ∈ rows, 0 ≤ r.1)
    (h : FullRankBias ((rows.filter fun r => decide (r.1 ≠ 0)).map fun r => (r.2.1, r.2.2 k)))
    (b : Fin d → K) (c : K) :
    let m := weightedLstsq S (rows.map fun r => (r.1, withOne r.2)) how
    let w := fun i : Fin d => m i.castSucc k
    let data := rows.map fun r => (r.1, r.2.1, r.2.2 k)
    wsseBias data w (m (Fin.last d) k) ≤ wsseBias data b c ∧
    (wsseBias data b c = wsseBias data w (m (Fin.last d) k) → b = w ∧ c = m (Fin.last d) k) := by
  have hb : ∀ (b : Fin d → K) (c : K), wsse ((rows.map fun r => (r.1, withOne r.2)).map
      fun r => (r.1, r.2.1, r.2.2 k)) (Fin.snoc b c) = wsseBias (rows.map fun r => (r.1, r.2.1, r.2.2 k)) b c := by
    intro b c
    unfold wsse wsseBias
    simp only [List.map_map]
    congr 1
    apply List.map_congr_left
    intro r _
    simp only [Function.comp_def, withOne, dot_snoc]
  have := weighted_optimal S (rows.map fun r => (r.1, withOne r.2)) how k
    (by
      intro r hr
      obtain ⟨x, hx, rfl⟩ := List.mem_map.1 hr
      exact hw x hx)
    (by
      intro v hv
      have hz := h (fun i => v i.castSucc) (v (Fin.last d)) (by
        intro r hr
        obtain ⟨x, hx, rfl⟩ := List.mem_map.1 hr
        have hx := List.mem_filter.1 hx
        have := hv ((withOne x.2).1, (withOne x.2).2 k) (by
          apply List.mem_map.2
          exact ⟨(x.1, withOne x.2), List.mem_filter.2 ⟨List.mem_map.2 ⟨x, hx.1, rfl⟩, hx.2⟩, rfl⟩)
        rw [snoc_split v] at this
        unfold withOne at this
        rw [dot_snoc] at this
        exact this)
      rw [snoc_split v, hz.1, hz.2]
      funext i
      refine Fin.lastCases ?_ (fun j => ?_) i <;> simp)
    (Fin.snoc b c)
  simp only at this
  rw [snoc_split (fun i => weightedLstsq S (rows.map fun r => (r.1, withOne r.2)) how i k), hb, hb] at this
  refine ⟨this.1, fun he => ?_⟩
  have e := this.2 he
  constructor
  · funext i
    have := congrFun e i.castSucc
    rw [Fin.snoc_castSucc, Fin.snoc_castSucc] at this
    exact this
  · have := congrFun e (Fin.last d)
    rw [Fin.snoc_last, Fin.snoc_last] at this
    exact this

/-- Multi-target columns with a bias. -/
theorem multi_target_columns_bias (S S' : Solver K) (rows : List (Row d t K)) (lam : K) (hl : 0 ≤ lam)
    (solver solver' : String) (k : Fin t)
    (h : (0 < lam ∧ rows ≠ []) ∨ FullRankBias (rows.map fun r => (r.1, r.2 k))) (i : Fin (d + 1)) :
    linRegBias S rows lam solver i k =
      linRegBias S' (rows.map fun r => (r.1, fun _ : Fin 1 => r.2 k)) lam solver' i 0 := by
  have hm : ((rows.map fun r => (r.1, fun _ : Fin 1 => r.2 k)).map fun r => (r.1, r.2 0)) =
      rows.map fun r => (r.1, r.2 k) := by simp [List.map_map, Function.comp_def]
  have h1 := lin_reg_bias_optimal S rows lam hl solver k h
    (fun i => linRegBias S' (rows.map fun r => (r.1, fun _ : Fin 1 => r.2 k)) lam solver' i.castSucc 0)
    (linRegBias S' (rows.map fun r => (r.1, fun _ : Fin 1 => r.2 k)) lam solver' (Fin.last d) 0)
  have h2 := lin_reg_bias_optimal S' (rows.map fun r => (r.1, fun _ : Fin 1 => r.2 k)) lam hl solver' 0
    (by rw [hm]; simpa using h) (fun i => linRegBias S rows lam solver i.castSucc k)
    (linRegBias S rows lam solver (Fin.last d) k)
  rw [hm] at h2
  have := h1.2 (le_antisymm h2.1 h1.1)
  refine Fin.lastCases this.2.symm (fun j => (congrFun this.1 j).symm) i

/-- A negative penalty is the same as none. -/
theorem negative_penalty (S : Solver K) (rows : List (Row d t K)) (lam : K) (hl : lam < 0) (solver : String) :
    linReg S rows lam solver = linReg S rows 0 solver := by
  have e : ¬ (0 ≤ lam ∧ 1 ≤ absDiff d false.toNat) := fun h => absurd hl (not_lt.2 h.1)
  have z : gram rows = (if (0 : K) ≤ 0 ∧ 1 ≤ absDiff d false.toNat then
      addDiag (gram rows) 0 (absDiff d false.toNat) else gram rows) := by
    split
    · ext i j; simp [addDiag]
    · rfl
  unfold linReg solveLstsq
  simp only [if_neg e, ← z]

/-! ## Examples -/

/-- Cramer's rule: a solver meeting the contract. -/
def cramerSolver : Solver ℚ where
  qr A B := A.det⁻¹ • (A.adjugate * B)
  qrInverse A := A.det⁻¹ • A.adjugate
  svd A B := some (A.det⁻¹ • (A.adjugate * B))
  llt _ _ := none
  qr_spec A B h := by
    rw [Matrix.mul_smul, ← Matrix.mul_assoc, Matrix.mul_adjugate, Matrix.smul_mul, Matrix.one_mul, smul_smul,
      inv_mul_cancel₀ h.ne_zero, one_smul]
  qrInverse_spec A h := by
    rw [Matrix.mul_smul, Matrix.mul_adjugate, smul_smul, inv_mul_cancel₀ h.ne_zero, one_smul]
  svd_spec A B M h e := by
    cases e
    rw [Matrix.mul_smul, ← Matrix.mul_assoc, Matrix.mul_adjugate, Matrix.smul_mul, Matrix.one_mul, smul_smul,
      inv_mul_cancel₀ h.ne_zero, one_smul]
  llt_spec A B M h e := by cases e

def exRows : List (Row 1 1 ℚ) := [(![1], ![2]), (![2], ![3]), (![3], ![7])]

theorem exRows_fullRank : FullRank (exRows.map fun r => (r.1, r.2 0)) := by
  intro v hv
  have := hv (![1], 2) (by simp [exRows])
  funext i
  fin_cases i
  simpa [dot] using this

theorem exRows_fullRankBias : FullRankBias (exRows.map fun r => (r.1, r.2 0)) := by
  intro v c hv
  have h1 := hv (![1], 2) (by simp [exRows])
  have h2 := hv (![2], 3) (by simp [exRows])
  simp [dot] at h1 h2
  have : v 0 = 0 := by linarith
  refine ⟨?_, by linarith⟩
  funext i
  fin_cases i
  exact this

example (b : Fin 1 → ℚ) : ridge (exRows.map fun r => (r.1, r.2 0)) 0 (fun i => linReg cramerSolver exRows 0 "qr" i 0) ≤
    ridge (exRows.map fun r => (r.1, r.2 0)) 0 b :=
  (lin_reg_optimal cramerSolver exRows 0 (le_refl _) "qr" 0 (.inr exRows_fullRank) b).1

example : linReg cramerSolver exRows 0 "svd" 0 0 = 29 / 14 := by decide +kernel

example : linRegBias cramerSolver exRows 0 "qr" 0 0 = 5 / 2 ∧ linRegBias cramerSolver exRows 0 "qr" 1 0 = -1 := by
  decide +kernel

example (b : Fin 1 → ℚ) (c : ℚ) : ridgeBias (exRows.map fun r => (r.1, r.2 0)) 0 (fun _ => 5 / 2) (-1) ≤
    ridgeBias (exRows.map fun r => (r.1, r.2 0)) 0 b c := by
  have := (lin_reg_bias_optimal cramerSolver exRows 0 (le_refl _) "qr" 0 (.inr exRows_fullRankBias) b c).1
  have e1 : (fun i : Fin 1 => linRegBias cramerSolver exRows 0 "qr" i.castSucc 0) = fun _ => 5 / 2 := by
    decide +kernel
  have e2 : linRegBias cramerSolver exRows 0 "qr" (Fin.last 1) 0 = -1 := by decide +kernel
  simpa only [e1, e2] using this

/-- A penalty moves the slope but the intercept stays free. -/
example : linRegBias cramerSolver exRows 2 "qr" 0 0 = 5 / 4 ∧ linRegBias cramerSolver exRows 2 "qr" 1 0 = 3 / 2 := by
  decide +kernel

def exWeighted : List (ℚ × Row 1 1 ℚ) := [(1, ![1], ![2]), (0, ![2], ![3]), (3, ![3], ![7])]

example : weightedLstsq cramerSolver exWeighted .qr 0 0 = 65 / 28 := by decide +kernel

example (b : Fin 1 → ℚ) : wsse (exWeighted.map fun r => (r.1, r.2.1, r.2.2 0))
    (fun i => weightedLstsq cramerSolver exWeighted .qr i 0) ≤ wsse (exWeighted.map fun r => (r.1, r.2.1, r.2.2 0)) b :=
  (weighted_optimal cramerSolver exWeighted .qr 0 (by simp [exWeighted]) (by
    intro v hv
    have := hv (![1], 2) (by simp [exWeighted])
    funext i
    fin_cases i
    simpa [dot] using this) b).1

example : linReg cramerSolver exRows (-3) "qr" = linReg cramerSolver exRows 0 "qr" :=
  negative_penalty _ _ _ (by norm_num) _

def exMulti : List (Row 1 2 ℚ) := [(![1], ![2, 0]), (![2], ![3, 5]), (![3], ![7, 1])]

example (i : Fin 1) : linReg cramerSolver exMulti 1 "qr" i 1 =
    linReg cramerSolver (exMulti.map fun r => (r.1, fun _ : Fin 1 => r.2 1)) 1 "svd" i 0 :=
  multi_target_columns cramerSolver cramerSolver exMulti 1 (by norm_num) "qr" "svd" 1 (.inl (by norm_num)) i

end Verif.LinReg
