import Verif.Lemmas.LossDbl

/-! # C164: regression losses in double arithmetic -/

namespace Verif.LossDbl
open Verif Verif.Ieee Verif.Ieee.Spec Verif.ConfDbl Verif.ScaleDbl
open Verif.FloatBits (f64)
open Verif.Doubles (rd)
open Verif.Confusion (Val)
open Verif.Pl (Col vals map1 map2 count)

namespace Spec

/-- The rows where both are known. -/
def pairs (a p : List (Option ℝ)) : List (ℝ × ℝ) :=
  (a.zip p).filterMap fun r => r.1.bind fun x => r.2.map fun y => (x, y)

/-- The number of known actual values. -/
def known (a : List (Option ℝ)) : ℕ := (a.filter Option.isSome).length

/-- The sum of the absolute errors. -/
noncomputable def l1 (a p : List (Option ℝ)) : ℝ := ((pairs a p).map fun r => |r.1 - r.2|).sum

/-- The sum of the squared errors. -/
noncomputable def l2 (a p : List (Option ℝ)) : ℝ := ((pairs a p).map fun r => (r.1 - r.2) ^ 2).sum

end Spec

theorem vals_map2 {β : Type} (f : ℝ → ℝ → β) : ∀ (a p : Col ℝ), vals (map2 f a p) = (Spec.pairs a p).map fun r => f r.1 r.2
  | [], p => by simp [vals, map2, Spec.pairs]
  | a :: as, [] => by simp [vals, map2, Spec.pairs]
  | a :: as, p :: ps => by
    have ih := vals_map2 f as ps
    simp only [vals, map2, Spec.pairs, List.zipWith_cons_cons, List.zip_cons_cons] at ih ⊢
    cases a <;> cases p <;> simpa [Pl.opt2] using ih

theorem diff_eq (a p : Col ℝ) : diff a p = (Spec.pairs a p).map fun r => rd (r.1 - r.2) := vals_map2 _ a p

theorem pairs_rep {a p : Col ℝ} (ha : ScaleDbl.Spec.Doubles a) (hp : ScaleDbl.Spec.Doubles p) :
    ∀ r ∈ Spec.pairs a p, Rep f64 r.1 ∧ Rep f64 r.2 := by
  intro r hr
  obtain ⟨⟨x, y⟩, hx, h⟩ := List.mem_filterMap.1 hr
  cases x with
  | none => simp at h
  | some x =>
    cases y with
    | none => simp at h
    | some y =>
      obtain rfl : (x, y) = r := by simpa using h
      exact ⟨ha x (List.of_mem_zip hx).1, hp y (List.of_mem_zip hx).2⟩

theorem count_eq (a : Col ℝ) : count a = Spec.known a := by
  unfold count Spec.known vals
  induction a with
  | nil => rfl
  | cons x a ih => cases x <;> simpa using ih

theorem pairs_le (a p : Col ℝ) : (Spec.pairs a p).length ≤ Spec.known a := by
  unfold Spec.pairs Spec.known
  induction a generalizing p with
  | nil => simp
  | cons x a ih =>
    cases p with
    | nil => simp
    | cons y p =>
      have := ih p
      cases x <;> cases y <;> simp at this ⊢ <;> omega

theorem pairs_swap (a p : Col ℝ) : Spec.pairs p a = (Spec.pairs a p).map fun r => (r.2, r.1) := by
  unfold Spec.pairs
  induction a generalizing p with
  | nil => simp
  | cons x a ih =>
    cases p with
    | nil => simp
    | cons y p =>
      have := ih p
      cases x <;> cases y <;> simp [this]

theorem abs_rd_sub (x y : ℝ) : |rd (x - y)| = |rd (y - x)| := by
  rw [← neg_sub y x, Doubles.rd_neg, abs_neg]

theorem absdiff_eq (a p : Col ℝ) : (diff a p).map abs = (Spec.pairs a p).map fun r => |rd (r.1 - r.2)| := by
  rw [diff_eq, List.map_map]; rfl

theorem absdiff_swap (a p : Col ℝ) : (diff p a).map abs = (diff a p).map abs := by
  rw [absdiff_eq, absdiff_eq, pairs_swap a p, List.map_map]
  exact List.map_congr_left fun r _ => abs_rd_sub _ _

theorem sqdiff_eq (a p : Col ℝ) : (diff a p).map (fun x => rd (x * x)) = (Spec.pairs a p).map fun r => rd (rd (r.1 - r.2) * rd (r.1 - r.2)) := by
  rw [diff_eq, List.map_map]; rfl

theorem sqdiff_swap (a p : Col ℝ) : (diff p a).map (fun x => rd (x * x)) = (diff a p).map fun x => rd (x * x) := by
  rw [sqdiff_eq, sqdiff_eq, pairs_swap a p, List.map_map]
  refine List.map_congr_left fun r _ => ?_
  show rd (rd (r.2 - r.1) * rd (r.2 - r.1)) = _
  rw [← neg_sub r.1 r.2, Doubles.rd_neg, neg_mul_neg]

theorem sub_err {x y : ℝ} (hx : Rep f64 x) (hy : Rep f64 y) : |rd (x - y) - (x - y)| ≤ 2 ^ (-53 : ℤ) * |x - y| := by
  have := fl_sub_err f64 hx hy
  rwa [AucDbl.unit_eq] at this

theorem sub_zero_iff {x y : ℝ} (hx : Rep f64 x) (hy : Rep f64 y) : rd (x - y) = 0 ↔ x = y := by
  constructor
  · intro h
    rcases lt_trichotomy x y with c | c | c
    · have := sub_pos_rd hy hx c
      rw [← neg_sub x y, Doubles.rd_neg, h] at this
      simp at this
    · exact c
    · have := sub_pos_rd hx hy c
      rw [h] at this
      exact absurd this (lt_irrefl _)
  · rintro rfl
    rw [sub_self]
    exact Doubles.rd_zero

theorem rep_abs {x : ℝ} (h : Rep f64 x) : Rep f64 |x| := by
  rw [← rd_rep h, Doubles.rd_abs]
  exact isRep _

theorem num_of {c : ℝ} (h : c ≠ 0) (x : ℝ) : fdiv x c = .num (rd (x / c)) := by simp [fdiv, h]

theorem l1_core {sum : List ℝ → ℝ} (hs : IsSumFn sum) {a p : Col ℝ} (ha : ScaleDbl.Spec.Doubles a) (hp : ScaleDbl.Spec.Doubles p)
    (hn : (Spec.pairs a p).length ≤ 2 ^ 32) :
    |sum ((diff a p).map abs) - Spec.l1 a p| ≤ (2 * (Spec.pairs a p).length + 1 + 1) * 2 ^ (-53 : ℤ) * Spec.l1 a p + 2 * (Spec.pairs a p).length * 0 := by
  have hr := pairs_rep ha hp
  refine sum_close (fun r : ℝ × ℝ => |rd (r.1 - r.2)|) (fun r => |r.1 - r.2|) zero_le_one (by norm_num) le_rfl _ hn
    (fun r _ => rep_abs (isRep _)) (fun r _ => abs_nonneg _) (fun r _ => abs_nonneg _) (fun r h => ?_) (by rw [absdiff_eq]; exact hs _)
  rw [one_mul, add_zero]
  exact (abs_abs_sub_abs_le _ _).trans (sub_err (hr r h).1 (hr r h).2)

theorem sq_err {x y : ℝ} (hx : Rep f64 x) (hy : Rep f64 y) :
    |rd (rd (x - y) * rd (x - y)) - (x - y) ^ 2| ≤ 4 * 2 ^ (-53 : ℤ) * (x - y) ^ 2 + 2 ^ (-1075 : ℤ) := by
  have e1 := sub_err hx hy
  have e2 := fl_err_mixed f64 (rd (x - y) * rd (x - y))
  rw [AucDbl.unit_eq, AucDbl.tiny_eq] at e2
  change |rd (rd (x - y) * rd (x - y)) - rd (x - y) * rd (x - y)| ≤ _ at e2
  generalize rd (rd (x - y) * rd (x - y)) = r at *
  generalize rd (x - y) = d at *
  generalize x - y = z at *
  have hu0 : (0 : ℝ) < 2 ^ (-53 : ℤ) := by positivity
  have hu1 : (2 : ℝ) ^ (-53 : ℤ) ≤ 1 / 16 := by norm_num
  generalize (2 : ℝ) ^ (-53 : ℤ) = u at *
  generalize (2 : ℝ) ^ (-1075 : ℤ) = t at *
  rw [abs_of_nonneg (mul_self_nonneg d)] at e2
  have e3 : |d * d - z ^ 2| ≤ (2 * u + u ^ 2) * z ^ 2 := by
    have : d * d - z ^ 2 = (d - z) * (d - z + 2 * z) := by ring
    rw [this, abs_mul]
    have h1 : |d - z + 2 * z| ≤ u * |z| + 2 * |z| := by
      refine (abs_add_le _ _).trans ?_
      rw [abs_mul 2 z, abs_two]
      linarith
    calc |d - z| * |d - z + 2 * z| ≤ (u * |z|) * (u * |z| + 2 * |z|) := mul_le_mul e1 h1 (abs_nonneg _) (by positivity)
      _ = (2 * u + u ^ 2) * |z| ^ 2 := by ring
      _ = _ := by rw [sq_abs]
  have h0 : 0 ≤ z ^ 2 := sq_nonneg z
  generalize z ^ 2 = q at *
  have tri : |r - q| ≤ |r - d * d| + |d * d - q| := abs_sub_le _ _ _
  have e4 : d * d ≤ q + (2 * u + u ^ 2) * q := by linarith [(abs_le.1 e3).2]
  have e5 := mul_le_mul_of_nonneg_left e4 hu0.le
  have e6 : u * (u * q) ≤ 1 / 16 * (u * q) := mul_le_mul_of_nonneg_right hu1 (by positivity)
  have e7 : u * (u * (u * q)) ≤ 1 / 16 * (u * (u * q)) := mul_le_mul_of_nonneg_right hu1 (by positivity)
  nlinarith

theorem l2_core {sum : List ℝ → ℝ} (hs : IsSumFn sum) {a p : Col ℝ} (ha : ScaleDbl.Spec.Doubles a) (hp : ScaleDbl.Spec.Doubles p)
    (hn : (Spec.pairs a p).length ≤ 2 ^ 32) :
    |dotSelf sum (diff a p) - Spec.l2 a p| ≤ (2 * (Spec.pairs a p).length + 1 + 4) * 2 ^ (-53 : ℤ) * Spec.l2 a p +
      2 * (Spec.pairs a p).length * 2 ^ (-1075 : ℤ) := by
  have hr := pairs_rep ha hp
  exact sum_close (fun r : ℝ × ℝ => rd (rd (r.1 - r.2) * rd (r.1 - r.2))) (fun r => (r.1 - r.2) ^ 2) (by norm_num) (by norm_num) (by positivity) _ hn
    (fun r _ => isRep _) (fun r _ => Doubles.rd_nonneg (mul_self_nonneg _)) (fun r _ => sq_nonneg _)
    (fun r h => sq_err (hr r h).1 (hr r h).2) (by rw [dotSelf, sqdiff_eq]; exact hs _)

theorem l1_nonneg (a p : Col ℝ) : 0 ≤ Spec.l1 a p := List.sum_nonneg (by simp only [List.mem_map]; rintro _ ⟨r, -, rfl⟩; positivity)
theorem l2_nonneg (a p : Col ℝ) : 0 ≤ Spec.l2 a p := List.sum_nonneg (by simp only [List.mem_map]; rintro _ ⟨r, -, rfl⟩; positivity)

/-- A way of adding: from the left. -/
noncomputable def leftSum (l : List ℝ) : ℝ := l.foldl (fun s x => rd (s + x)) 0

theorem leftSum_isSum : IsSumFn leftSum := by
  have : ∀ (l m : List ℝ) (s : ℝ), IsSum m s → IsSum (m ++ l) (l.foldl (fun s x => rd (s + x)) s) := by
    intro l
    induction l with
    | nil => intro m s h; simpa using h
    | cons x l ih =>
      intro m s h
      have := ih (m ++ [x]) (rd (s + x)) (.add h (.leaf x))
      rwa [List.append_assoc, List.singleton_append] at this
  intro l
  simpa [leftSum] using this l [] 0 .nil

theorem doubles_of {c : Col ℝ} (h : ∀ x, some x ∈ c → ∃ z : ℤ, |z| ≤ 2 ^ 53 ∧ x = z) : ScaleDbl.Spec.Doubles c := by
  intro x hx
  obtain ⟨z, h1, rfl⟩ := h x hx
  rw [← Doubles.rd_int h1]
  exact isRep _

/-- Three rows, one of them incomplete. -/
def exA : Col ℝ := [some 5, none, some (-3)]

/-- Their predictions. -/
def exP : Col ℝ := [some 2, some 1, some 7]

theorem exA_doubles : ScaleDbl.Spec.Doubles exA := by
  refine doubles_of fun x hx => ?_
  simp only [exA, List.mem_cons, Option.some.injEq, reduceCtorEq, List.not_mem_nil, or_false, false_or] at hx
  rcases hx with rfl | rfl
  · exact ⟨5, by norm_num, by norm_num⟩
  · exact ⟨-3, by norm_num, by norm_num⟩

theorem exP_doubles : ScaleDbl.Spec.Doubles exP := by
  refine doubles_of fun x hx => ?_
  simp only [exP, List.mem_cons, Option.some.injEq, List.not_mem_nil, or_false] at hx
  rcases hx with rfl | rfl | rfl
  · exact ⟨2, by norm_num, by norm_num⟩
  · exact ⟨1, by norm_num, by norm_num⟩
  · exact ⟨7, by norm_num, by norm_num⟩

theorem exPairs : Spec.pairs exA exP = [(5, 2), (-3, 7)] := by simp [exA, exP, Spec.pairs]

theorem exKnown : Spec.known exA = 2 := by simp [exA, Spec.known]

/-- **C164a.**  `query_l1` on double columns with nulls, whatever the order in which polars adds: the sum is non-negative, does not depend
on which column is the actual, is zero exactly if the columns agree on all complete rows, is within `2n + 2` roundings of the exact sum
over the `n` complete rows, and bounds every single error; the mean is the quotient by the number of known actual values within
`2n + 4` roundings and an underflow term, and NaN without a known value. -/
theorem l1_double (sum : List ℝ → ℝ) (hs : IsSumFn sum) (a p : Col ℝ) (ha : ScaleDbl.Spec.Doubles a) (hp : ScaleDbl.Spec.Doubles p)
    (hn : Spec.known a ≤ 2 ^ 32) :
    l1 sum false a p = l1 sum false p a ∧
    (∃ v, l1 sum false a p = .num v ∧ 0 ≤ v ∧ (v = 0 ↔ ∀ r ∈ Spec.pairs a p, r.1 = r.2) ∧
      |v - Spec.l1 a p| ≤ (2 * (Spec.pairs a p).length + 2) * 2 ^ (-53 : ℤ) * Spec.l1 a p ∧ ∀ m, lInf a p = some m → m ≤ v) ∧
    (Spec.known a = 0 → l1 sum true a p = .nan) ∧
    (Spec.known a ≠ 0 → ∃ v, l1 sum true a p = .num v ∧ 0 ≤ v ∧
      |v - Spec.l1 a p / Spec.known a| ≤ (2 * (Spec.pairs a p).length + 4) * 2 ^ (-53 : ℤ) * (Spec.l1 a p / Spec.known a) + 2 ^ (-1075 : ℤ)) := by
  have hr := pairs_rep ha hp
  have hle := pairs_le a p
  have core := l1_core hs ha hp (hle.trans hn)
  have hsum := hs ((diff a p).map abs)
  have h0 : ∀ x ∈ (diff a p).map abs, 0 ≤ x := by
    intro x hx
    obtain ⟨y, -, rfl⟩ := List.mem_map.1 hx
    exact abs_nonneg y
  have hrep : ∀ x ∈ (diff a p).map abs, Rep f64 x := by
    intro x hx
    rw [absdiff_eq] at hx
    obtain ⟨r, -, rfl⟩ := List.mem_map.1 hx
    exact rep_abs (isRep _)
  have hpos := sum_nonneg' hsum h0
  have hge := sum_ge hsum h0 hrep
  refine ⟨?_, ⟨_, rfl, hpos, ⟨fun hz => ?_, fun heq => ?_⟩, ?_, ?_⟩, fun hk => ?_, fun hk => ?_⟩
  · simp only [l1, absdiff_swap a p]; rfl
  · intro r hr'
    have h1 := hge |rd (r.1 - r.2)| (by rw [absdiff_eq]; exact List.mem_map.2 ⟨r, hr', rfl⟩)
    rw [hz] at h1
    have h2 := abs_nonpos_iff.1 h1
    exact (sub_zero_iff (hr r hr').1 (hr r hr').2).1 h2
  · have hE : Spec.l1 a p = 0 := by
      apply List.sum_eq_zero
      intro x hx
      obtain ⟨r, hr', rfl⟩ := List.mem_map.1 hx
      rw [heq r hr', sub_self, abs_zero]
    rw [hE] at core
    have : |sum ((diff a p).map abs) - 0| ≤ 0 := by simpa using core
    simpa using this
  · refine core.trans (le_of_eq ?_); ring
  · intro m hm
    exact hge m (List.max?_eq_some_iff.1 hm).1
  · have hl : (Spec.pairs a p) = [] := List.length_eq_zero_iff.1 (by omega)
    have hE : Spec.l1 a p = 0 := by simp [Spec.l1, hl]
    rw [hE] at core
    have h1 : sum ((diff a p).map abs) = 0 := by
      have : |sum ((diff a p).map abs) - 0| ≤ 0 := by simpa using core
      simpa using this
    simp [l1, count_eq, hk, h1, fdiv]
  · have hk' : (Spec.known a : ℝ) ≠ 0 := by exact_mod_cast hk
    have hk1 : (1 : ℝ) ≤ Spec.known a := by exact_mod_cast Nat.one_le_iff_ne_zero.2 hk
    refine ⟨_, by simp only [l1, if_true, count_eq]; exact num_of hk' _, Doubles.rd_nonneg (by positivity), ?_⟩
    have e := quot_close (l1_nonneg a p) hk1 (by exact_mod_cast hle) (by exact_mod_cast hle.trans hn) (by norm_num) le_rfl core
    refine e.trans (le_of_eq ?_)
    ring

example : ∃ v, l1 leftSum false exA exP = .num v ∧ v ≠ 0 := by
  obtain ⟨-, ⟨v, h1, -, h3, -⟩, -⟩ := l1_double leftSum leftSum_isSum exA exP exA_doubles exP_doubles (by rw [exKnown]; norm_num)
  refine ⟨v, h1, fun h => ?_⟩
  have := h3.1 h (5, 2) (by rw [exPairs]; simp)
  norm_num at this

/-- **C164b.**  `query_l2` likewise: non-negative, symmetric, within `2n + 5` roundings and `2n` underflows of the exact sum, zero
exactly if the columns agree on all complete rows provided that no error is below `2^-537`. -/
theorem l2_double (sum : List ℝ → ℝ) (hs : IsSumFn sum) (a p : Col ℝ) (ha : ScaleDbl.Spec.Doubles a) (hp : ScaleDbl.Spec.Doubles p)
    (hn : Spec.known a ≤ 2 ^ 32) :
    l2 sum false a p = l2 sum false p a ∧
    (∃ v, l2 sum false a p = .num v ∧ 0 ≤ v ∧ ((∀ r ∈ Spec.pairs a p, r.1 = r.2) → v = 0) ∧
      ((∀ r ∈ Spec.pairs a p, r.1 = r.2 ∨ 2 ^ (-537 : ℤ) ≤ |r.1 - r.2|) → v = 0 → ∀ r ∈ Spec.pairs a p, r.1 = r.2) ∧
      |v - Spec.l2 a p| ≤ (2 * (Spec.pairs a p).length + 5) * 2 ^ (-53 : ℤ) * Spec.l2 a p + 2 * (Spec.pairs a p).length * 2 ^ (-1075 : ℤ)) ∧
    (Spec.known a = 0 → l2 sum true a p = .nan) ∧
    (Spec.known a ≠ 0 → ∃ v, l2 sum true a p = .num v ∧ 0 ≤ v ∧
      |v - Spec.l2 a p / Spec.known a| ≤ (2 * (Spec.pairs a p).length + 7) * 2 ^ (-53 : ℤ) * (Spec.l2 a p / Spec.known a) + 2 ^ (-1073 : ℤ)) := by
  have hr := pairs_rep ha hp
  have hle := pairs_le a p
  have core := l2_core hs ha hp (hle.trans hn)
  have hsum : IsSum _ (dotSelf sum (diff a p)) := hs ((diff a p).map fun x => rd (x * x))
  have h0 : ∀ x ∈ (diff a p).map (fun x => rd (x * x)), 0 ≤ x := by
    intro x hx
    obtain ⟨y, -, rfl⟩ := List.mem_map.1 hx
    exact Doubles.rd_nonneg (mul_self_nonneg y)
  have hrep : ∀ x ∈ (diff a p).map (fun x => rd (x * x)), Rep f64 x := by
    intro x hx
    obtain ⟨r, -, rfl⟩ := List.mem_map.1 hx
    exact isRep _
  have hpos := sum_nonneg' hsum h0
  have hge := sum_ge hsum h0 hrep
  have hzero : (∀ x ∈ (diff a p).map (fun x => rd (x * x)), x = 0) → dotSelf sum (diff a p) = 0 := by
    intro h
    have e := sum_any_err hsum hrep
    have e1 : ((diff a p).map fun x => rd (x * x)).sum = 0 := List.sum_eq_zero h
    have e2 : (((diff a p).map fun x => rd (x * x)).map fun x => |x|).sum = 0 := List.sum_eq_zero (by
      intro x hx
      obtain ⟨y, hy, rfl⟩ := List.mem_map.1 hx
      rw [h y hy, abs_zero])
    rw [e1, e2, mul_zero, sub_zero] at e
    exact abs_nonpos_iff.1 e
  have hsame : (∀ r ∈ Spec.pairs a p, r.1 = r.2) → dotSelf sum (diff a p) = 0 := by
    intro h
    apply hzero
    rw [sqdiff_eq]
    intro x hx
    obtain ⟨r, hr', rfl⟩ := List.mem_map.1 hx
    show rd (rd (r.1 - r.2) * rd (r.1 - r.2)) = 0
    rw [(sub_zero_iff (hr r hr').1 (hr r hr').2).2 (h r hr'), mul_zero]
    exact Doubles.rd_zero
  refine ⟨?_, ⟨_, rfl, hpos, hsame, fun hbig hz => ?_, ?_⟩, fun hk => ?_, fun hk => ?_⟩
  · simp only [l2, dotSelf, sqdiff_swap a p]; rfl
  · intro r hr'
    rcases hbig r hr' with h | h
    · exact h
    · exfalso
      have h1 := hge (rd (rd (r.1 - r.2) * rd (r.1 - r.2))) (by rw [sqdiff_eq]; exact List.mem_map.2 ⟨r, hr', rfl⟩)
      rw [hz] at h1
      have h2 : (2 : ℝ) ^ (-537 : ℤ) ≤ |rd (r.1 - r.2)| := by
        rw [Doubles.rd_abs, ← rd_rep (x := (2 : ℝ) ^ (-537 : ℤ)) ⟨1, -537, by norm_num [f64], by norm_num [f64], by simp⟩]
        exact Doubles.rd_mono h
      have h3 : (2 : ℝ) ^ (-1074 : ℤ) ≤ rd (r.1 - r.2) * rd (r.1 - r.2) := by
        rw [← abs_mul_abs_self, show (-1074 : ℤ) = -537 + -537 by norm_num, zpow_add₀ two_ne_zero]
        exact mul_self_le_mul_self (by positivity) h2
      have h4 : (2 : ℝ) ^ (-1074 : ℤ) ≤ rd (rd (r.1 - r.2) * rd (r.1 - r.2)) := by
        rw [← rd_rep (x := (2 : ℝ) ^ (-1074 : ℤ)) ⟨1, -1074, by norm_num [f64], by norm_num [f64], by simp⟩]
        exact Doubles.rd_mono h3
      have h5 : (0 : ℝ) < 2 ^ (-1074 : ℤ) := by positivity
      linarith
  · refine core.trans (le_of_eq ?_); ring
  · have hl : (Spec.pairs a p) = [] := List.length_eq_zero_iff.1 (by omega)
    have h1 := hsame (by simp [hl])
    simp [l2, count_eq, hk, h1, fdiv]
  · have hk' : (Spec.known a : ℝ) ≠ 0 := by exact_mod_cast hk
    have hk1 : (1 : ℝ) ≤ Spec.known a := by exact_mod_cast Nat.one_le_iff_ne_zero.2 hk
    refine ⟨_, by simp only [l2, if_true, count_eq]; exact num_of hk' _, Doubles.rd_nonneg (by positivity), ?_⟩
    have e := quot_close (l2_nonneg a p) hk1 (by exact_mod_cast hle) (by exact_mod_cast hle.trans hn) (by norm_num) (by positivity) core
    refine e.trans (le_of_eq ?_)
    have : (2 : ℝ) ^ (-1073 : ℤ) = 4 * 2 ^ (-1075 : ℤ) := by
      rw [show (4 : ℝ) = 2 ^ (2 : ℤ) by norm_num, ← zpow_add₀ two_ne_zero]; norm_num
    rw [this]
    ring

example : ∃ v, l2 leftSum false exA exP = .num v ∧ v ≠ 0 := by
  obtain ⟨-, ⟨v, h1, -, -, h3, -⟩, -⟩ := l2_double leftSum leftSum_isSum exA exP exA_doubles exP_doubles (by rw [exKnown]; norm_num)
  refine ⟨v, h1, fun h => ?_⟩
  have h4 : (2 : ℝ) ^ (-537 : ℤ) ≤ 1 := zpow_le_one_of_nonpos₀ (by norm_num) (by norm_num)
  have := h3 (by
    rw [exPairs]
    intro r hr
    simp only [List.mem_cons, List.not_mem_nil, or_false] at hr
    rcases hr with rfl | rfl
    · exact .inr (h4.trans (by norm_num))
    · exact .inr (h4.trans (by norm_num))) h (5, 2) (by rw [exPairs]; simp)
  norm_num at this

/-- **C164c.**  `query_l_inf`: the largest error of a complete row, rounded once, so within one rounding of it; null without a complete row;
symmetric; zero exactly if the columns agree. -/
theorem l_inf_double (a p : Col ℝ) (ha : ScaleDbl.Spec.Doubles a) (hp : ScaleDbl.Spec.Doubles p) :
    lInf a p = lInf p a ∧ (Spec.pairs a p = [] → lInf a p = none) ∧
    (Spec.pairs a p ≠ [] → ∃ r ∈ Spec.pairs a p, (∀ s ∈ Spec.pairs a p, |rd (s.1 - s.2)| ≤ |rd (r.1 - r.2)|) ∧ lInf a p = some (rd |r.1 - r.2|) ∧
      (rd |r.1 - r.2| = 0 ↔ ∀ s ∈ Spec.pairs a p, s.1 = s.2) ∧ |rd (abs (r.1 - r.2)) - abs (r.1 - r.2)| ≤ 2 ^ (-53 : ℤ) * |r.1 - r.2|) := by
  have hr := pairs_rep ha hp
  refine ⟨by simp only [lInf, absdiff_swap a p], fun h => by simp [lInf, absdiff_eq, h], fun h => ?_⟩
  obtain ⟨m, hm⟩ : ∃ m, lInf a p = some m := by
    unfold lInf
    rw [absdiff_eq]
    cases hh : Spec.pairs a p with
    | nil => exact absurd hh h
    | cons r l => exact ⟨_, List.max?_cons'⟩
  obtain ⟨h1, h2⟩ := List.max?_eq_some_iff.1 hm
  rw [absdiff_eq] at h1 h2
  obtain ⟨r, hr', rfl⟩ := List.mem_map.1 h1
  have hmax : ∀ s ∈ Spec.pairs a p, |rd (s.1 - s.2)| ≤ |rd (r.1 - r.2)| := fun s hs' => h2 _ (List.mem_map.2 ⟨s, hs', rfl⟩)
  refine ⟨r, hr', hmax, ?_, ⟨fun hz s hs' => ?_, fun he => ?_⟩, ?_⟩
  · rw [hm]
    simp only [Doubles.rd_abs]
  · have := hmax s hs'
    rw [Doubles.rd_abs (r.1 - r.2), hz] at this
    exact (sub_zero_iff (hr s hs').1 (hr s hs').2).1 (abs_nonpos_iff.1 this)
  · rw [he r hr', sub_self, abs_zero]
    exact Doubles.rd_zero
  · rw [← Doubles.rd_abs]
    exact (abs_abs_sub_abs_le _ _).trans (sub_err (hr r hr').1 (hr r hr').2)

example : ∃ m, lInf exA exP = some m ∧ m ≠ 0 := by
  obtain ⟨r, h1, -, h2, h3, -⟩ := (l_inf_double exA exP exA_doubles exP_doubles).2.2 (by rw [exPairs]; simp)
  refine ⟨_, h2, fun h => ?_⟩
  have := h3.1 h (5, 2) (by rw [exPairs]; simp)
  norm_num at this

/-! ## Symmetric percentage error -/

theorem den_pos {x y : ℝ} (hx : Rep f64 x) (hy : Rep f64 y) (h : ¬(x = 0 ∧ y = 0)) : 0 < rd (|x| + |y|) := by
  have h1 : |x| ≤ rd (|x| + |y|) := by
    conv_lhs => rw [← rd_rep (rep_abs hx)]
    exact Doubles.rd_mono (by linarith [abs_nonneg y])
  have h2 : |y| ≤ rd (|x| + |y|) := by
    conv_lhs => rw [← rd_rep (rep_abs hy)]
    exact Doubles.rd_mono (by linarith [abs_nonneg x])
  by_cases c : x = 0
  · have : 0 < |y| := abs_pos.2 fun d => h ⟨c, d⟩
    linarith
  · have : 0 < |x| := abs_pos.2 c
    linarith

theorem smape_term {x y : ℝ} (hx : Rep f64 x) (hy : Rep f64 y) (h : ¬(x = 0 ∧ y = 0)) :
    fdiv |rd (x - y)| (rd (|x| + |y|)) = .num (rd (|rd (x - y)| / rd (|x| + |y|))) ∧
      0 ≤ rd (|rd (x - y)| / rd (|x| + |y|)) ∧ rd (|rd (x - y)| / rd (|x| + |y|)) ≤ 1 := by
  have hd := den_pos hx hy h
  refine ⟨num_of hd.ne' _, Doubles.rd_nonneg (by positivity), ?_⟩
  apply Doubles.rd_le_one
  rw [div_le_one hd, Doubles.rd_abs]
  exact Doubles.rd_mono (abs_sub x y)

/-- **C164d.**  `query_smape`: the documented range.  If no complete row has two zeros, there is a known actual value and whatever the order of
adding, the value lies between 0 and 1 exactly, and does not depend on which column is the actual; a complete row with two zeros makes it NaN. -/
theorem smape_double (sum : List ℝ → ℝ) (hs : IsSumFn sum) (a p : Col ℝ) (ha : ScaleDbl.Spec.Doubles a) (hp : ScaleDbl.Spec.Doubles p)
    (hn : Spec.known a ≤ 2 ^ 32) :
    ((∃ r ∈ Spec.pairs a p, r.1 = 0 ∧ r.2 = 0) → smape sum a p = .nan) ∧
    ((∀ r ∈ Spec.pairs a p, ¬(r.1 = 0 ∧ r.2 = 0)) → Spec.known a ≠ 0 →
      (Spec.known a = Spec.known p → smape sum a p = smape sum p a) ∧
      ∃ v, smape sum a p = .num v ∧ 0 ≤ v ∧ v ≤ 1 ∧ ((∀ r ∈ Spec.pairs a p, r.1 = r.2) → v = 0)) := by
  have hr := pairs_rep ha hp
  have hterms : smapeTerms a p = (Spec.pairs a p).map fun r => fdiv |rd (r.1 - r.2)| (rd (|r.1| + |r.2|)) := vals_map2 _ a p
  have hswap : smapeTerms p a = smapeTerms a p := by
    have : smapeTerms p a = (Spec.pairs p a).map fun r => fdiv |rd (r.1 - r.2)| (rd (|r.1| + |r.2|)) := vals_map2 _ p a
    rw [this, hterms, pairs_swap a p, List.map_map]
    refine List.map_congr_left fun r _ => ?_
    show fdiv |rd (r.2 - r.1)| (rd (|r.2| + |r.1|)) = _
    rw [abs_rd_sub, add_comm |r.2|]
  constructor
  · rintro ⟨r, hr', h1, h2⟩
    unfold smape
    rw [if_pos]
    rw [List.any_eq_true]
    refine ⟨.nan, ?_, rfl⟩
    rw [hterms]
    refine List.mem_map.2 ⟨r, hr', ?_⟩
    rw [h1, h2]
    simp [fdiv, Doubles.rd_zero]
  · intro hz hk
    have hk' : (Spec.known a : ℝ) ≠ 0 := by exact_mod_cast hk
    have hk1 : (1 : ℝ) ≤ Spec.known a := by exact_mod_cast Nat.one_le_iff_ne_zero.2 hk
    refine ⟨fun he => by simp only [smape, hswap, count_eq, he], ?_⟩
    have hnum : smapeTerms a p = ((Spec.pairs a p).map fun r => rd (|rd (r.1 - r.2)| / rd (|r.1| + |r.2|))).map Val.num := by
      rw [hterms, List.map_map]
      exact List.map_congr_left fun r h => (smape_term (hr r h).1 (hr r h).2 (hz r h)).1
    have hany : (smapeTerms a p).any (fun v => (getNum v).isNone) = false := by
      rw [hnum, List.any_map, List.any_eq_false]
      intro x _
      simp [getNum]
    have hfil : (smapeTerms a p).filterMap getNum =
        (Spec.pairs a p).map fun r => rd (|rd (r.1 - r.2)| / rd (|r.1| + |r.2|)) := by
      rw [hnum, List.filterMap_map]
      exact List.filterMap_some
    have hsum := hs ((Spec.pairs a p).map fun r => rd (|rd (r.1 - r.2)| / rd (|r.1| + |r.2|)))
    have hb : ∀ x ∈ (Spec.pairs a p).map fun r => rd (|rd (r.1 - r.2)| / rd (|r.1| + |r.2|)), 0 ≤ x ∧ x ≤ 1 := by
      intro x hx
      obtain ⟨r, h, rfl⟩ := List.mem_map.1 hx
      exact (smape_term (hr r h).1 (hr r h).2 (hz r h)).2
    have h0 := sum_nonneg' hsum fun x hx => (hb x hx).1
    have hle := pairs_le a p
    have h1 := sum_le_length hsum (fun x hx => (hb x hx).2) (by rw [List.length_map]; omega)
    rw [List.length_map] at h1
    have hle' : ((Spec.pairs a p).length : ℝ) ≤ Spec.known a := by exact_mod_cast hle
    refine ⟨_, by rw [smape, hany, hfil, count_eq]; exact num_of hk' _, Doubles.rd_nonneg (by positivity), ?_, fun he => ?_⟩
    · apply Doubles.rd_le_one
      rw [div_le_one (by linarith)]
      linarith
    · have hall : ∀ x ∈ (Spec.pairs a p).map fun r => rd (|rd (r.1 - r.2)| / rd (|r.1| + |r.2|)), x = 0 := by
        intro x hx
        obtain ⟨r, h, rfl⟩ := List.mem_map.1 hx
        show rd (|rd (r.1 - r.2)| / rd (|r.1| + |r.2|)) = 0
        rw [(sub_zero_iff (hr r h).1 (hr r h).2).2 (he r h), abs_zero, zero_div]
        exact Doubles.rd_zero
      have e := (sum_int hsum (fun x hx => ⟨0, by rw [hall x hx]; simp⟩) (by
        rw [List.sum_eq_zero]
        · norm_num
        · intro x hx
          obtain ⟨y, hy, rfl⟩ := List.mem_map.1 hx
          rw [hall y hy, abs_zero])).1
      rw [e, List.sum_eq_zero hall, zero_div]
      exact Doubles.rd_zero

example : ∃ v, smape leftSum exA exP = .num v ∧ 0 ≤ v ∧ v ≤ 1 := by
  obtain ⟨-, v, h1, h2, h3, -⟩ := (smape_double leftSum leftSum_isSum exA exP exA_doubles exP_doubles (by rw [exKnown]; norm_num)).2
    (by rw [exPairs]; simp) (by rw [exKnown]; norm_num)
  exact ⟨v, h1, h2, h3⟩

example : smape leftSum [some 0, some 1] [some 0, some 2] = .nan := by
  refine (smape_double leftSum leftSum_isSum [some 0, some 1] [some 0, some 2] (doubles_of ?_) (doubles_of ?_) (by simp [Spec.known])).1
    ⟨(0, 0), by simp [Spec.pairs], rfl, rfl⟩
  · simp only [List.mem_cons, Option.some.injEq, List.not_mem_nil, or_false]
    rintro x (rfl | rfl)
    · exact ⟨0, by norm_num, by norm_num⟩
    · exact ⟨1, by norm_num, by norm_num⟩
  · simp only [List.mem_cons, Option.some.injEq, List.not_mem_nil, or_false]
    rintro x (rfl | rfl)
    · exact ⟨0, by norm_num, by norm_num⟩
    · exact ⟨2, by norm_num, by norm_num⟩

/-! ## R2 -/

/-- **C164e.**  `query_r2`: if the actual values do not all round to their computed mean (the total sum of squares is not zero), it is a
number of at most 1, 1 if the predictions are the actual values, and exactly 0 if every prediction is the computed mean. -/
theorem r2_double (sum : List ℝ → ℝ) (hs : IsSumFn sum) (a p : Col ℝ) (ha : ScaleDbl.Spec.Doubles a) (hp : ScaleDbl.Spec.Doubles p)
    (hn : Spec.known a ≤ 2 ^ 32) (ht : dotSelf sum ((vals a).map fun x => rd (x - mean sum a)) ≠ 0) :
    (∃ v, r2 sum a p = .num v ∧ v ≤ 1 ∧ ((∀ r ∈ Spec.pairs a p, r.1 = r.2) → v = 1)) ∧
    r2 sum a (a.map fun _ => some (mean sum a)) = .num 0 := by
  have hT0 : 0 ≤ dotSelf sum ((vals a).map fun x => rd (x - mean sum a)) :=
    sum_nonneg' (hs _) (by
      intro x hx
      obtain ⟨y, -, rfl⟩ := List.mem_map.1 hx
      exact Doubles.rd_nonneg (mul_self_nonneg _))
  have hT : 0 < dotSelf sum ((vals a).map fun x => rd (x - mean sum a)) := lt_of_le_of_ne hT0 (Ne.symm ht)
  obtain ⟨-, ⟨v, e1, e2, e3, -⟩, -⟩ := l2_double sum hs a p ha hp hn
  have hv : dotSelf sum (diff a p) = v := by
    have : Val.num (dotSelf sum (diff a p)) = Val.num v := e1
    simpa using this
  constructor
  · refine ⟨rd (1 - rd (v / dotSelf sum ((vals a).map fun x => rd (x - mean sum a)))), ?_, ?_, fun h => ?_⟩
    · rw [r2, hv, num_of ht]
      rfl
    · apply Doubles.rd_le_one
      have : 0 ≤ rd (v / dotSelf sum ((vals a).map fun x => rd (x - mean sum a))) := Doubles.rd_nonneg (by positivity)
      linarith
    · rw [e3 h, zero_div, show rd 0 = 0 from Doubles.rd_zero, sub_zero]
      exact Doubles.rd_one
  · have hd : diff a (a.map fun _ => some (mean sum a)) = (vals a).map fun x => rd (x - mean sum a) := by
      generalize mean sum a = m
      unfold diff vals map2
      clear ht hT hT0 e1 e2 e3 hv ha hn
      induction a with
      | nil => rfl
      | cons x a ih => cases x <;> simpa [Pl.opt2] using ih
    rw [r2, hd, num_of ht, div_self ht]
    show Val.num (rd (1 - rd 1)) = .num 0
    rw [show rd 1 = 1 from Doubles.rd_one, sub_self, show rd 0 = 0 from Doubles.rd_zero]

/-- The total sum of squares of 5 and −3 around their mean 1 is 32. -/
theorem exTot : dotSelf leftSum ((vals exA).map fun x => rd (x - mean leftSum exA)) = 32 := by
  have w : ∀ z : ℤ, |z| ≤ 2 ^ 53 → rd (z : ℝ) = z := fun z h => Doubles.rd_int h
  have r (x : ℝ) (z : ℤ) (h : x = z) (hz : |z| ≤ 2 ^ 53 := by norm_num) : rd x = z := by rw [h]; exact w z hz
  have hv : vals exA = [5, -3] := by simp [exA, vals]
  have hm : mean leftSum exA = 1 := by
    simp only [mean, hv, leftSum, List.foldl_cons, List.foldl_nil, List.length_cons, List.length_nil]
    rw [r (0 + 5) 5 (by norm_num), r (((5 : ℤ) : ℝ) + -3) 2 (by norm_num), r _ 1 (by norm_num)]
    norm_num
  rw [hm, hv]
  simp only [dotSelf, leftSum, List.map_cons, List.map_nil, List.foldl_cons, List.foldl_nil]
  rw [r (5 - 1) 4 (by norm_num), r (-3 - 1) (-4) (by norm_num), r (((4 : ℤ) : ℝ) * (4 : ℤ)) 16 (by norm_num),
    r (((-4 : ℤ) : ℝ) * (-4 : ℤ)) 16 (by norm_num), r (0 + ((16 : ℤ) : ℝ)) 16 (by norm_num), r _ 32 (by norm_num)]
  norm_num

example : (∃ v, r2 leftSum exA exP = .num v ∧ v ≤ 1) ∧ r2 leftSum exA (exA.map fun _ => some (mean leftSum exA)) = .num 0 := by
  obtain ⟨⟨v, h1, h2, -⟩, h3⟩ := r2_double leftSum leftSum_isSum exA exP exA_doubles exP_doubles (by rw [exKnown]; norm_num)
    (by rw [exTot]; norm_num)
  exact ⟨⟨v, h1, h2⟩, h3⟩

/-! ## Whole numbers -/

/-- **C164f.**  On whole numbers whose squared errors add up to at most `2^53` the two sums are exact and the two means are the exact means,
rounded once; the mean absolute error is then at most the largest. -/
theorem whole_double (sum : List ℝ → ℝ) (hs : IsSumFn sum) (a p : Col ℝ) (hk : Spec.known a ≠ 0)
    (hz : ∀ r ∈ Spec.pairs a p, ∃ x y : ℤ, r.1 = x ∧ r.2 = y) (hb : Spec.l2 a p ≤ 2 ^ 53) :
    l1 sum false a p = .num (Spec.l1 a p) ∧ l2 sum false a p = .num (Spec.l2 a p) ∧
    l1 sum true a p = .num (rd (Spec.l1 a p / Spec.known a)) ∧ l2 sum true a p = .num (rd (Spec.l2 a p / Spec.known a)) ∧
    ∀ m, lInf a p = some m → rd (Spec.l1 a p / Spec.known a) ≤ m := by
  have hsq : ∀ r ∈ Spec.pairs a p, (r.1 - r.2) ^ 2 ≤ 2 ^ 53 := fun r h =>
    (List.single_le_sum (by simp only [List.mem_map]; rintro _ ⟨r, -, rfl⟩; positivity) _ (List.mem_map.2 ⟨r, h, rfl⟩)).trans hb
  have hint : ∀ r ∈ Spec.pairs a p, ∃ z : ℤ, r.1 - r.2 = z ∧ rd (r.1 - r.2) = z ∧ rd ((z : ℝ) * z) = (z : ℝ) * z ∧ |(z : ℝ)| ≤ (r.1 - r.2) ^ 2 := by
    intro r h
    obtain ⟨x, y, hx, hy⟩ := hz r h
    have hzz : r.1 - r.2 = ((x - y : ℤ) : ℝ) := by rw [hx, hy]; push_cast; rfl
    have h1 := hsq r h
    rw [hzz] at h1 ⊢
    generalize x - y = z at h1 ⊢
    have h2 : |z| ≤ z ^ 2 := by
      rw [← sq_abs]
      rcases (abs_nonneg z).eq_or_lt with c | c
      · rw [← c]; norm_num
      · nlinarith
    have h1' : z ^ 2 ≤ 2 ^ 53 := by exact_mod_cast h1
    refine ⟨z, rfl, Doubles.rd_int (by omega), ?_, by exact_mod_cast h2⟩
    rw [← Int.cast_mul]
    exact Doubles.rd_int (by rw [abs_of_nonneg (mul_self_nonneg z), ← sq]; exact h1')
  have e1 : (diff a p).map abs = (Spec.pairs a p).map fun r => |r.1 - r.2| := by
    rw [absdiff_eq]
    refine List.map_congr_left fun r h => ?_
    obtain ⟨z, h1, h2, -⟩ := hint r h
    rw [h2, h1]
  have e2 : (diff a p).map (fun x => rd (x * x)) = (Spec.pairs a p).map fun r => (r.1 - r.2) ^ 2 := by
    rw [sqdiff_eq]
    refine List.map_congr_left fun r h => ?_
    obtain ⟨z, h1, h2, h3, -⟩ := hint r h
    show rd (rd (r.1 - r.2) * rd (r.1 - r.2)) = _
    rw [h2, h3, h1]
    ring
  have hle12 : Spec.l1 a p ≤ Spec.l2 a p := List.sum_le_sum fun r h => by
    obtain ⟨z, h1, -, -, h4⟩ := hint r h
    rw [← h1] at h4
    exact h4
  have s1 : sum ((diff a p).map abs) = Spec.l1 a p := by
    rw [e1]
    refine (sum_int (hs _) ?_ ?_).1
    · intro x hx
      obtain ⟨r, h, rfl⟩ := List.mem_map.1 hx
      obtain ⟨z, h1, -⟩ := hint r h
      exact ⟨|z|, by rw [h1]; push_cast; rfl⟩
    · rw [List.map_map]
      simp only [Function.comp_def, abs_abs]
      exact hle12.trans hb
  have s2 : dotSelf sum (diff a p) = Spec.l2 a p := by
    rw [dotSelf, e2]
    refine (sum_int (hs _) ?_ ?_).1
    · intro x hx
      obtain ⟨r, h, rfl⟩ := List.mem_map.1 hx
      obtain ⟨z, h1, -⟩ := hint r h
      exact ⟨z ^ 2, by rw [h1]; push_cast; rfl⟩
    · rw [List.map_map]
      simp only [Function.comp_def, abs_pow, sq_abs]
      exact hb
  have hk' : (Spec.known a : ℝ) ≠ 0 := by exact_mod_cast hk
  have hk1 : (1 : ℝ) ≤ Spec.known a := by exact_mod_cast Nat.one_le_iff_ne_zero.2 hk
  refine ⟨by simp only [l1, s1]; rfl, by simp only [l2, s2]; rfl, by simp only [l1, s1, if_true, count_eq]; exact num_of hk' _,
    by simp only [l2, s2, if_true, count_eq]; exact num_of hk' _, fun m hm => ?_⟩
  obtain ⟨m1, m2⟩ := List.max?_eq_some_iff.1 hm
  rw [e1] at m1 m2
  have mrep : rd m = m := by
    obtain ⟨r, h, rfl⟩ := List.mem_map.1 m1
    obtain ⟨z, h1, h2, -⟩ := hint r h
    show rd |r.1 - r.2| = |r.1 - r.2|
    rw [← Doubles.rd_abs, h2, h1]
  have m0 : 0 ≤ m := by
    obtain ⟨r, h, rfl⟩ := List.mem_map.1 m1
    exact abs_nonneg _
  rw [← mrep]
  apply Doubles.rd_mono
  rw [div_le_iff₀ (by linarith)]
  have h := List.sum_le_card_nsmul ((Spec.pairs a p).map fun r => |r.1 - r.2|) m m2
  rw [List.length_map, nsmul_eq_mul] at h
  have hle' : ((Spec.pairs a p).length : ℝ) ≤ Spec.known a := by exact_mod_cast pairs_le a p
  have : ((Spec.pairs a p).length : ℝ) * m ≤ Spec.known a * m := mul_le_mul_of_nonneg_right hle' m0
  exact (h.trans this).trans (le_of_eq (mul_comm _ _))

example : l1 leftSum false exA exP = .num 13 ∧ l2 leftSum false exA exP = .num 109 := by
  have h1 : Spec.l1 exA exP = 13 := by rw [Spec.l1, exPairs]; norm_num
  have h2 : Spec.l2 exA exP = 109 := by rw [Spec.l2, exPairs]; norm_num
  obtain ⟨a, b, -⟩ := whole_double leftSum leftSum_isSum exA exP (by rw [exKnown]; norm_num) (by
    rw [exPairs]
    intro r hr
    simp only [List.mem_cons, List.not_mem_nil, or_false] at hr
    rcases hr with rfl | rfl
    · exact ⟨5, 2, by norm_num, by norm_num⟩
    · exact ⟨-3, 7, by norm_num, by norm_num⟩) (by rw [h2]; norm_num)
  rw [h1] at a
  rw [h2] at b
  exact ⟨a, b⟩

/-! ## Where the losses mislead -/

theorem rd_tiny {x : ℝ} (h0 : 0 < x) (h : x < 2 ^ (-1075 : ℤ)) : rd x = 0 := by
  have hu : ulp f64 x = -1074 := by
    refine le_antisymm (ulp_of_lt f64 h0.ne' (by norm_num [f64]) ?_) (by simpa [f64] using ulp_low f64 x)
    rw [abs_of_pos h0]
    exact h.trans (zpow_lt_zpow_right₀ (by norm_num) (by norm_num [f64]))
  unfold rd fl
  rw [hu, Doubles.rne_eq (m := 0)]
  · simp
  · rw [Int.cast_zero, sub_zero, abs_of_pos (by positivity), div_lt_iff₀ (by positivity)]
    refine h.trans_le (le_of_eq ?_)
    rw [show (1 / 2 : ℝ) = 2 ^ (-1 : ℤ) by norm_num, ← zpow_add₀ two_ne_zero]
    norm_num

theorem sum_one {l : List ℝ} {v : ℝ} (h : IsSum l v) : ((∀ x ∈ l, x = 0) → v = 0) ∧
    ∀ y, rd y = y → l.filter (fun x => decide (x ≠ 0)) = [y] → v = y := by
  induction h with
  | nil => simp
  | leaf x =>
    refine ⟨fun h => h x (by simp), fun y _ h => ?_⟩
    have : y ∈ [x].filter (fun x => decide (x ≠ 0)) := by rw [h]; simp
    have := (List.mem_filter.1 this).1
    simp at this
    exact this.symm
  | @add l₁ l₂ v₁ v₂ h₁ h₂ ih₁ ih₂ =>
    have hz : ∀ l : List ℝ, l.filter (fun x => decide (x ≠ 0)) = [] → ∀ x ∈ l, x = 0 := by
      intro l h x hx
      by_contra c
      have : x ∈ l.filter (fun x => decide (x ≠ 0)) := List.mem_filter.2 ⟨hx, by simpa using c⟩
      rw [h] at this
      simp at this
    refine ⟨fun h => ?_, fun y hy h => ?_⟩
    · rw [ih₁.1 fun x hx => h x (List.mem_append_left _ hx), ih₂.1 fun x hx => h x (List.mem_append_right _ hx), add_zero]
      exact Doubles.rd_zero
    · rw [List.filter_append, List.append_eq_singleton_iff] at h
      rcases h with ⟨a, b⟩ | ⟨a, b⟩
      · rw [ih₁.1 (hz _ a), ih₂.2 y hy b, zero_add, hy]
      · rw [ih₁.2 y hy a, ih₂.1 (hz _ b), add_zero, hy]
  | @perm l₁ l₂ v hp h ih =>
    refine ⟨fun h => ih.1 fun x hx => h x (hp.subset hx), fun y hy h => ih.2 y hy ?_⟩
    have := hp.filter (fun x => decide (x ≠ 0))
    rw [h] at this
    exact List.perm_singleton.1 this

theorem rd_pow (k : ℤ) (hk : -1074 ≤ k) : rd ((2 : ℝ) ^ k) = 2 ^ k := rd_rep ⟨1, k, by norm_num [f64], by simpa [f64] using hk, by simp⟩

theorem rd_whole (z : ℤ) (h : |z| ≤ 2 ^ 53) : rd (z : ℝ) = z := Doubles.rd_int h

/-- A tie goes up from an odd number. -/
theorem rd_tie_odd {x : ℝ} (k m : ℤ) (h1 : (2 : ℝ) ^ (k + 52) ≤ x) (h2 : x < 2 ^ (k + 53)) (h4 : -1074 ≤ k)
    (h : x / 2 ^ k = m + 1 / 2) (he : ¬Even m) : rd x = (m + 1 : ℤ) * 2 ^ k := by
  have hu : ulp f64 x = k := ulp_eq (e := k + 52) h1 (by rwa [show k + 52 + 1 = k + 53 by ring]) (by simp [f64]) (by simpa [f64] using h4)
  have hfl : ⌊(m : ℝ) + 1 / 2⌋ = m := by rw [Int.floor_eq_iff]; constructor <;> linarith
  have hfr : Int.fract ((m : ℝ) + 1 / 2) = 1 / 2 := by rw [Int.fract, hfl]; ring
  have hr : rne ((m : ℝ) + 1 / 2) = m + 1 := by
    unfold rne
    rw [hfr, hfl, if_neg (by norm_num), if_neg (by norm_num), if_neg he]
  unfold rd fl
  rw [hu, h, hr]

theorem diff_two (a b x y : ℝ) : diff [some a, some b] [some x, some y] = [rd (a - x), rd (b - y)] := rfl

/-- **C164.**  `query_r2` of whole numbers when all actual values are the same: not a number if the predictions are right, and otherwise minus
infinity (never plus infinity). -/
theorem r2_constant_double (sum : List ℝ → ℝ) (hs : IsSumFn sum) (a p : Col ℝ) (c : ℤ) (hc : ∀ x, some x ∈ a → x = c)
    (hk : Spec.known a ≠ 0) (hkc : (Spec.known a : ℝ) * |(c : ℝ)| ≤ 2 ^ 53)
    (hz : ∀ r ∈ Spec.pairs a p, ∃ x y : ℤ, r.1 = x ∧ r.2 = y) (hb : Spec.l2 a p ≤ 2 ^ 53) :
    ((∀ r ∈ Spec.pairs a p, r.1 = r.2) → r2 sum a p = .nan) ∧
    ((∃ r ∈ Spec.pairs a p, r.1 ≠ r.2) → r2 sum a p = .inf false) := by
  have hk' : (Spec.known a : ℝ) ≠ 0 := by exact_mod_cast hk
  have hv : ∀ x ∈ vals a, x = (c : ℝ) := fun x hx => by
    obtain ⟨y, hy, rfl⟩ := List.mem_filterMap.1 hx
    exact hc _ hy
  have hlen : (vals a).length = Spec.known a := count_eq a
  have hrep : vals a = List.replicate (Spec.known a) (c : ℝ) := List.eq_replicate_iff.2 ⟨hlen, hv⟩
  have hm : mean sum a = c := by
    have h1 := (sum_int (hs (vals a)) (fun x hx => ⟨c, hv x hx⟩) (by rw [hrep]; simpa using hkc)).1
    rw [mean, h1, hlen, hrep]
    simp only [List.sum_replicate, nsmul_eq_mul]
    rw [mul_div_cancel_left₀ _ hk']
    refine Doubles.rd_int ?_
    have h1k : (1 : ℝ) ≤ Spec.known a := by exact_mod_cast Nat.one_le_iff_ne_zero.2 hk
    have : |(c : ℝ)| ≤ 2 ^ 53 := le_trans (le_mul_of_one_le_left (abs_nonneg _) h1k) hkc
    exact_mod_cast this
  have ht : dotSelf sum ((vals a).map fun x => rd (x - mean sum a)) = 0 := by
    refine (sum_one (hs _)).1 fun x hx => ?_
    obtain ⟨y, hy, rfl⟩ := List.mem_map.1 hx
    obtain ⟨w, hw, rfl⟩ := List.mem_map.1 hy
    rw [hv w hw, hm, sub_self, show rd 0 = 0 from Doubles.rd_zero, zero_mul]
    exact Doubles.rd_zero
  have hn : dotSelf sum (diff a p) = Spec.l2 a p := by
    have : Val.num (dotSelf sum (diff a p)) = Val.num (Spec.l2 a p) := (whole_double sum hs a p hk hz hb).2.1
    simpa using this
  constructor
  · intro h
    have h0 : Spec.l2 a p = 0 := by
      refine List.sum_eq_zero fun x hx => ?_
      obtain ⟨r, hr, rfl⟩ := List.mem_map.1 hx
      rw [h r hr, sub_self]; norm_num
    rw [r2, hn, ht, h0]
    simp [fdiv, oneMinus]
  · rintro ⟨r, hr, hne⟩
    have h0 : 0 < Spec.l2 a p := by
      have h1 : (r.1 - r.2) ^ 2 ≤ Spec.l2 a p :=
        List.single_le_sum (by simp only [List.mem_map]; rintro _ ⟨r, -, rfl⟩; positivity) _ (List.mem_map.2 ⟨r, hr, rfl⟩)
      exact lt_of_lt_of_le (by have := sub_ne_zero.2 hne; positivity) h1
    rw [r2, hn, ht]
    simp [fdiv, oneMinus, h0.ne', h0]

example : r2 leftSum [some 4, none, some 4] [some 4, some 1, some 5] = .inf false := by
  have hp : Spec.pairs [some (4 : ℝ), none, some 4] [some 4, some 1, some 5] = [(4, 4), (4, 5)] := by
    simp [Spec.pairs]
  refine (r2_constant_double leftSum leftSum_isSum _ _ 4 (by simp) (by simp [Spec.known]) (by norm_num [Spec.known]) ?_ ?_).2 ?_
  · rw [hp]
    intro r hr
    simp only [List.mem_cons, List.not_mem_nil, or_false] at hr
    rcases hr with rfl | rfl
    · exact ⟨4, 4, by norm_num, by norm_num⟩
    · exact ⟨4, 5, by norm_num, by norm_num⟩
  · rw [Spec.l2, hp]; norm_num
  · rw [hp]; exact ⟨(4, 5), by simp, by norm_num⟩

/-- **C164g.**  What a user may not conclude, whatever the order of adding.  A mean squared error of 0 does not mean that the predictions are
right: `2^-600` for 0.  Nor does a mean absolute error of 0: `2^-1074` for 0 in the first of four rows.  The mean absolute error can exceed
the largest error: three errors of 7000000000000010 have the mean 7000000000000011.  And R2 is 1 for predictions of `1/8` and
`2^26 + 1/8` for 0 and `2^26`. -/
theorem losses_mislead (sum : List ℝ → ℝ) (hs : IsSumFn sum) :
    l2 sum true [some (2 ^ (-600 : ℤ))] [some 0] = .num 0 ∧ l2 sum false [some (2 ^ (-600 : ℤ))] [some 0] = .num 0 ∧
    l1 sum true [some (2 ^ (-1074 : ℤ)), some 0, some 0, some 0] [some 0, some 0, some 0, some 0] = .num 0 ∧
    (l1 sum true [some 7000000000000010, some 7000000000000010, some 7000000000000010] [some 0, some 0, some 0] = .num 7000000000000011 ∧
      lInf [some 7000000000000010, some 7000000000000010, some 7000000000000010] [some 0, some 0, some 0] = some 7000000000000010) ∧
    r2 sum [some 0, some (2 ^ 26)] [some (1 / 8), some (2 ^ 26 + 1 / 8)] = .num 1 := by
  have z0 : rd 0 = 0 := Doubles.rd_zero
  have hsmall : dotSelf sum (diff [some ((2 : ℝ) ^ (-600 : ℤ))] [some 0]) = 0 := by
    have hd : diff [some ((2 : ℝ) ^ (-600 : ℤ))] [some 0] = [2 ^ (-600 : ℤ)] := by
      show [rd ((2 : ℝ) ^ (-600 : ℤ) - 0)] = _
      rw [sub_zero, rd_pow _ (by norm_num)]
    have hq : rd ((2 : ℝ) ^ (-600 : ℤ) * 2 ^ (-600 : ℤ)) = 0 := by
      rw [← zpow_add₀ two_ne_zero]
      exact rd_tiny (by positivity) (zpow_lt_zpow_right₀ (by norm_num) (by norm_num))
    rw [dotSelf, hd]
    refine (sum_one (hs _)).1 ?_
    intro x hx
    simp only [List.map_cons, List.map_nil, List.mem_singleton] at hx
    rw [hx, hq]
  refine ⟨?_, ?_, ?_, ⟨?_, ?_⟩, ?_⟩
  · have : count [some ((2 : ℝ) ^ (-600 : ℤ))] = 1 := rfl
    simp only [l2, if_true, hsmall, this, Nat.cast_one]
    rw [num_of one_ne_zero, zero_div, z0]
  · simp only [l2, hsmall]; rfl
  · have hd : (diff [some ((2 : ℝ) ^ (-1074 : ℤ)), some 0, some 0, some 0] [some 0, some 0, some 0, some 0]).map abs = [2 ^ (-1074 : ℤ), 0, 0, 0] := by
      show [|rd ((2 : ℝ) ^ (-1074 : ℤ) - 0)|, |rd (0 - 0)|, |rd (0 - 0)|, |rd (0 - 0)|] = _
      rw [sub_zero, rd_pow _ le_rfl, sub_zero, z0, abs_zero, abs_of_pos (by positivity)]
    have hv := (sum_one (hs [(2 : ℝ) ^ (-1074 : ℤ), 0, 0, 0])).2 _ (rd_pow (-1074) le_rfl) (by
      rw [List.filter_cons_of_pos (by simp)]
      simp)
    have hc : count [some ((2 : ℝ) ^ (-1074 : ℤ)), some 0, some 0, some 0] = 4 := rfl
    simp only [l1, if_true, hd, hv, hc]
    rw [num_of (by norm_num)]
    congr 1
    refine rd_tiny (by positivity) ?_
    rw [show (((4 : ℕ) : ℝ)) = 2 ^ (2 : ℤ) by norm_num, ← zpow_sub₀ two_ne_zero]
    exact zpow_lt_zpow_right₀ (by norm_num) (by norm_num)
  · have r1 : rd 7000000000000010 = 7000000000000010 := by exact_mod_cast rd_whole 7000000000000010 (by norm_num)
    have hd : (diff [some 7000000000000010, some 7000000000000010, some 7000000000000010] [some 0, some 0, some 0]).map abs =
        [7000000000000010, 7000000000000010, 7000000000000010] := by
      show [|rd (7000000000000010 - 0)|, |rd (7000000000000010 - 0)|, |rd (7000000000000010 - 0)|] = _
      rw [sub_zero, r1, abs_of_pos (by norm_num)]
    have r2 : rd (7000000000000010 + 7000000000000010) = 14000000000000020 := by
      rw [rd_at 1 7000000000000010 (by norm_num) (by norm_num) (by norm_num) (by norm_num [abs_lt])]
      norm_num
    have r3 : rd (7000000000000010 + 14000000000000020) = 21000000000000032 := by
      rw [rd_tie_odd 2 5250000000000007 (by norm_num) (by norm_num) (by norm_num) (by norm_num) (by decide)]
      norm_num
    have hv := (three_same r1 r2 r3 (hs [7000000000000010, 7000000000000010, 7000000000000010]) (by simp) (by simp)).2.2.2 rfl
    have hc : count [some (7000000000000010 : ℝ), some 7000000000000010, some 7000000000000010] = 3 := rfl
    simp only [l1, if_true, hd, hv, hc]
    rw [num_of (by norm_num), rd_at 0 7000000000000011 (by norm_num) (by norm_num) (by norm_num) (by norm_num [abs_lt])]
    norm_num
  · have r1 : rd 7000000000000010 = 7000000000000010 := by exact_mod_cast rd_whole 7000000000000010 (by norm_num)
    have hd : (diff [some 7000000000000010, some 7000000000000010, some 7000000000000010] [some 0, some 0, some 0]).map abs =
        [7000000000000010, 7000000000000010, 7000000000000010] := by
      show [|rd (7000000000000010 - 0)|, |rd (7000000000000010 - 0)|, |rd (7000000000000010 - 0)|] = _
      rw [sub_zero, r1, abs_of_pos (by norm_num)]
    rw [lInf, hd]
    simp [List.max?]
  · have h26 : rd ((2 : ℝ) ^ 26) = 2 ^ 26 := by exact_mod_cast rd_pow 26 (by norm_num)
    have hd : diff [some 0, some ((2 : ℝ) ^ 26)] [some (1 / 8), some (2 ^ 26 + 1 / 8)] = [-(1 / 8), -(1 / 8)] := by
      rw [diff_two]
      have e : rd (1 / 8) = 1 / 8 := by
        have := rd_pow (-3) (by norm_num)
        norm_num at this ⊢
        exact this
      rw [zero_sub, Doubles.rd_neg, e, show (2 : ℝ) ^ 26 - (2 ^ 26 + 1 / 8) = -(1 / 8) by ring, Doubles.rd_neg, e]
    have e6 : rd (1 / 64) = 1 / 64 := by
      have := rd_pow (-6) (by norm_num)
      norm_num at this ⊢
      exact this
    have e5 : rd (1 / 64 + 1 / 64) = 1 / 32 := by
      have := rd_pow (-5) (by norm_num)
      norm_num at this ⊢
      exact this
    have hres : dotSelf sum (diff [some 0, some ((2 : ℝ) ^ 26)] [some (1 / 8), some (2 ^ 26 + 1 / 8)]) = 1 / 32 := by
      rw [dotSelf, hd]
      have : [-(1 / 8 : ℝ), -(1 / 8)].map (fun x => rd (x * x)) = [1 / 64, 1 / 64] := by
        have : rd (-(1 / 8 : ℝ) * -(1 / 8)) = 1 / 64 := by
          rw [show -(1 / 8 : ℝ) * -(1 / 8) = 1 / 64 by norm_num, e6]
        simp only [List.map_cons, List.map_nil, this]
      rw [this]
      exact (three_same e6 e5 rfl (hs [1 / 64, 1 / 64]) (by simp) (by simp)).2.2.1 rfl
    have hm : mean sum [some 0, some ((2 : ℝ) ^ 26)] = 2 ^ 25 := by
      have h1 : sum [0, (2 : ℝ) ^ 26] = 2 ^ 26 := (sum_one (hs _)).2 _ h26 (by
        rw [List.filter_cons_of_neg (by simp), List.filter_cons_of_pos (by simp)]; simp)
      show rd (sum [0, (2 : ℝ) ^ 26] / ((2 : ℕ) : ℝ)) = _
      rw [h1]
      have := rd_pow 25 (by norm_num)
      norm_num at this ⊢
      exact this
    have htot : dotSelf sum ((vals [some 0, some ((2 : ℝ) ^ 26)]).map fun x => rd (x - mean sum [some 0, some ((2 : ℝ) ^ 26)])) = 2 ^ 51 := by
      rw [hm]
      have h25 : rd ((2 : ℝ) ^ 25) = 2 ^ 25 := by exact_mod_cast rd_pow 25 (by norm_num)
      have hv : (vals [some 0, some ((2 : ℝ) ^ 26)]).map (fun x => rd (x - 2 ^ 25)) = [-(2 ^ 25), 2 ^ 25] := by
        show [rd (0 - 2 ^ 25), rd (2 ^ 26 - 2 ^ 25)] = _
        rw [zero_sub, Doubles.rd_neg, h25, show (2 : ℝ) ^ 26 - 2 ^ 25 = 2 ^ 25 by norm_num, h25]
      have h50 : rd ((2 : ℝ) ^ 50) = 2 ^ 50 := by exact_mod_cast rd_pow 50 (by norm_num)
      have h51 : rd ((2 : ℝ) ^ 50 + 2 ^ 50) = 2 ^ 51 := by
        rw [show (2 : ℝ) ^ 50 + 2 ^ 50 = 2 ^ 51 by norm_num]
        exact_mod_cast rd_pow 51 (by norm_num)
      rw [dotSelf, hv]
      have : [-((2 : ℝ) ^ 25), 2 ^ 25].map (fun x => rd (x * x)) = [2 ^ 50, 2 ^ 50] := by
        simp only [List.map_cons, List.map_nil, neg_mul_neg, show (2 : ℝ) ^ 25 * 2 ^ 25 = 2 ^ 50 by norm_num, h50]
      rw [this]
      exact (three_same h50 h51 rfl (hs [2 ^ 50, 2 ^ 50]) (by simp) (by simp)).2.2.1 rfl
    rw [r2, hres, htot, num_of (by norm_num)]
    have hq : rd ((1 : ℝ) / 32 / 2 ^ 51) = 2 ^ (-56 : ℤ) := by
      rw [← rd_pow (-56) (by norm_num)]
      norm_num
    show Val.num (rd (1 - rd (1 / 32 / 2 ^ 51))) = .num 1
    rw [hq, rd_at (-53) (2 ^ 53) (by norm_num) (by norm_num) (by norm_num) (by norm_num [abs_lt])]
    norm_num

/-- There is such a way of adding. -/
example : r2 leftSum [some 0, some (2 ^ 26)] [some (1 / 8), some (2 ^ 26 + 1 / 8)] = .num 1 :=
  (losses_mislead leftSum leftSum_isSum).2.2.2.2

end Verif.LossDbl
