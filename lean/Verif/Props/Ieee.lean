import Verif.Lemmas.IeeeDist
import Verif.Props.KDTree

/-!
# Property C149: nearest neighbors in double arithmetic
-/

namespace Verif.Ieee
open Verif Verif.FloatBits Verif.KDT FloatOps

namespace Spec

/-- A finite float of the format, as a real number. -/
def IsFloat (F : Fmt) (z : ℝ) : Prop := ∃ b, FloatBits.Spec.IsNum F b ∧ FloatBits.Spec.num F b = (z : EReal)

end Spec
open Spec

/-- The finite floats (all bit patterns) are the representable numbers below the overflow threshold. -/
theorem isFloat_iff {F : Fmt} (hF : Proper F) (z : ℝ) : IsFloat F z ↔ Rep F z ∧ |z| < 2 ^ top F := by
  constructor
  · rintro ⟨b, hb, hz⟩
    have key : ∃ m < F.inf, FloatBits.Spec.mag F m = |z| ∧ (z = FloatBits.Spec.mag F m ∨ z = -FloatBits.Spec.mag F m) := by
      unfold FloatBits.Spec.num FloatBits.Spec.magE at hz
      have hm0 : ∀ m, 0 ≤ FloatBits.Spec.mag F m := fun m => by
        rw [← mag_zero F]; exact (mag_strictMono F).monotone (Nat.zero_le m)
      split_ifs at hz with h1 h2 h3
      · have : FloatBits.Spec.mag F (b % 2 ^ (F.expo + F.frac)) = z := by exact_mod_cast hz
        exact ⟨_, h2, by rw [← this, abs_of_nonneg (hm0 _)], Or.inl this.symm⟩
      · exact absurd hz.symm (EReal.coe_ne_top z)
      · have : -FloatBits.Spec.mag F (b % 2 ^ (F.expo + F.frac)) = z := by exact_mod_cast hz
        exact ⟨_, h3, by rw [← this, abs_neg, abs_of_nonneg (hm0 _)], Or.inr this.symm⟩
      · exact absurd hz.symm (by simp)
    obtain ⟨m, hm, h1, h2⟩ := key
    constructor
    · rcases h2 with h2 | h2 <;> rw [h2]
      · exact rep_mag F m
      · exact rep_neg F (rep_mag F m)
    · rw [← h1, ← mag_inf F hF]
      exact mag_strictMono F hm
  · rintro ⟨h1, h2⟩
    have hi : F.inf < F.sign := inf_lt_sign F
    rcases le_total 0 z with hz | hz
    · obtain ⟨m, hm, hmz⟩ := exists_mag F h1 hz (by rwa [abs_of_nonneg hz] at h2) hF
      refine ⟨m, (isNum_iff F m).2 (Or.inl hm.le), ?_⟩
      have hms : m < 2 ^ (F.expo + F.frac) := hm.trans hi
      unfold FloatBits.Spec.num FloatBits.Spec.magE
      rw [Nat.div_eq_of_lt hms, Nat.mod_eq_of_lt hms, if_pos rfl, if_pos (by exact hm), hmz]
    · obtain ⟨m, hm, hmz⟩ := exists_mag F (rep_neg F h1) (neg_nonneg.2 hz) (by rwa [abs_of_nonpos hz] at h2) hF
      refine ⟨F.sign + m, (isNum_iff F _).2 (Or.inr ⟨by omega, by omega⟩), ?_⟩
      have hms : m < 2 ^ (F.expo + F.frac) := hm.trans hi
      unfold FloatBits.Spec.num FloatBits.Spec.magE
      have e : F.sign + m = m + 2 ^ (F.expo + F.frac) * 1 := by unfold Fmt.sign; ring
      rw [e, Nat.add_mul_div_left _ _ (by positivity), Nat.add_mul_mod_self_left, Nat.div_eq_of_lt hms, Nat.mod_eq_of_lt hms,
        if_neg (by norm_num), if_pos (by exact hm), hmz]
      rw [EReal.coe_neg, neg_neg]

/-- **C149.**  Rounding returns the nearest float: whenever the result is in range it is a float, and no float is nearer. -/
theorem fl_is_nearest {F : Fmt} (hF : Proper F) (x : ℝ) (hx : |fl F x| < 2 ^ top F) :
    IsFloat F (fl F x) ∧ ∀ z, IsFloat F z → |fl F x - x| ≤ |z - x| :=
  ⟨(isFloat_iff hF _).2 ⟨rep_fl F x, hx⟩, fun z hz => fl_nearest F x ((isFloat_iff hF z).1 hz).1⟩

/-- **C149.**  Floats are not changed, the order is kept, and rounding is symmetric. -/
theorem fl_laws {F : Fmt} (hF : Proper F) :
    (∀ z, IsFloat F z → fl F z = z) ∧ (∀ x y, x ≤ y → fl F x ≤ fl F y) ∧ ∀ x, fl F (-x) = -fl F x :=
  ⟨fun z hz => fl_rep F ((isFloat_iff hF z).1 hz).1, fun _ _ h => fl_mono F h, fl_neg F⟩

/-- **C149.**  When another float is equally near, the float with even bits is chosen. -/
theorem fl_ties_even {F : Fmt} (hf : 1 ≤ F.frac) (hF : Proper F) {x z : ℝ} (hx : |fl F x| < 2 ^ top F) (hz : IsFloat F z)
    (hne : z ≠ fl F x) (h : |z - x| = |fl F x - x|) :
    ∃ b, Even b ∧ FloatBits.Spec.IsNum F b ∧ FloatBits.Spec.num F b = (fl F x : EReal) := by
  have hr := ((isFloat_iff hF z).1 hz).1
  have hi : F.inf < F.sign := inf_lt_sign F
  rcases lt_trichotomy x 0 with h0 | h0 | h0
  · have hx' := hx
    rw [← abs_neg, ← fl_neg] at hx'
    obtain ⟨m, hm, hev, hmag⟩ := tie_bits F hf hF (neg_pos.2 h0) (rep_neg F hr) (by rw [fl_neg]; simpa using hne)
      (by rw [fl_neg, show -z - -x = -(z - x) by ring, show -fl F x - -x = -(fl F x - x) by ring, abs_neg, abs_neg, h])
      ((le_abs_self _).trans_lt hx')
    refine ⟨F.sign + m, ?_, (isNum_iff F _).2 (Or.inr ⟨by omega, by omega⟩), ?_⟩
    · refine Even.add ?_ hev
      unfold Fmt.sign
      exact Nat.even_pow.2 ⟨even_two, by omega⟩
    · have hms : m < 2 ^ (F.expo + F.frac) := hm.trans hi
      unfold FloatBits.Spec.num FloatBits.Spec.magE
      have e : F.sign + m = m + 2 ^ (F.expo + F.frac) * 1 := by unfold Fmt.sign; ring
      rw [e, Nat.add_mul_div_left _ _ (by positivity), Nat.add_mul_mod_self_left, Nat.div_eq_of_lt hms, Nat.mod_eq_of_lt hms,
        if_neg (by norm_num), if_pos (by exact hm), hmag, fl_neg, EReal.coe_neg, neg_neg]
  · rw [h0, fl_zero] at hne h
    simp at h
    exact absurd h hne
  · obtain ⟨m, hm, hev, hmag⟩ := tie_bits F hf hF h0 hr hne h ((le_abs_self _).trans_lt hx)
    refine ⟨m, hev, (isNum_iff F m).2 (Or.inl hm.le), ?_⟩
    have hms : m < 2 ^ (F.expo + F.frac) := hm.trans hi
    unfold FloatBits.Spec.num FloatBits.Spec.magE
    rw [Nat.div_eq_of_lt hms, Nat.mod_eq_of_lt hms, if_pos rfl, if_pos (by exact hm), hmag]

/-! ### Nearest neighbors -/

theorem f64_sqrt : 2 * ((f64.frac : ℤ) + 1) ≤ -f64.low := by norm_num [f64]

theorem pow_unit_le (n : ℕ) (hn : n ≤ 2 ^ 20) : (1 + unit f64) ^ (n + 4) ≤ 2 := by
  have hu : unit f64 * 2 ^ 50 ≤ 1 := by norm_num [unit, f64]
  have hu0 := unit_pos f64
  have hn' : ((n + 4 : ℕ) : ℝ) ≤ 2 ^ 21 := by exact_mod_cast (by omega : n + 4 ≤ 2 ^ 21)
  have h1 := one_add_mul_le_pow (by linarith : (-2 : ℝ) ≤ -unit f64) (n + 4)
  have h2 : (1 : ℝ) / 2 ≤ (1 + -unit f64) ^ (n + 4) := by
    refine le_trans ?_ h1
    nlinarith
  have h3 : (1 + unit f64) ^ (n + 4) * (1 + -unit f64) ^ (n + 4) ≤ 1 := by
    rw [← mul_pow]
    exact pow_le_one₀ (by nlinarith) (by nlinarith)
  have h4 : 0 ≤ (1 + unit f64) ^ (n + 4) := by positivity
  nlinarith

/-- The textbook distance of rows of moderate size is far from overflow. -/
theorem dist_moderate (name : String) (a b : List ℝ) {n : ℕ} (hn : (a.zip b).length ≤ n) (hn' : n ≤ 2 ^ 20)
    (ha : ∀ x ∈ a, |x| ≤ 2 ^ (500 : ℤ)) (hb : ∀ x ∈ b, |x| ≤ 2 ^ (500 : ℤ)) : Spec.dist name a b ≤ 2 ^ (1022 : ℤ) := by
  have hd : ∀ p ∈ a.zip b, |p.1 - p.2| ≤ 2 ^ (501 : ℤ) := by
    intro p hp
    have h1 := ha p.1 (List.of_mem_zip hp).1
    have h2 := hb p.2 (List.of_mem_zip hp).2
    have e : (2 : ℝ) ^ (501 : ℤ) = 2 ^ (500 : ℤ) + 2 ^ (500 : ℤ) := by
      rw [show (501 : ℤ) = 500 + 1 by norm_num, zpow_add_one₀ (by norm_num : (2 : ℝ) ≠ 0)]; ring
    rw [e]
    exact (abs_sub _ _).trans (add_le_add h1 h2)
  have hlen : ((a.zip b).length : ℝ) ≤ 2 ^ (20 : ℤ) := by exact_mod_cast hn.trans hn'
  have sumle : ∀ (l : List (ℝ × ℝ)) (g : ℝ × ℝ → ℝ) (B : ℝ), (∀ p ∈ l, g p ≤ B) → (l.map g).sum ≤ l.length * B := by
    intro l g B h
    have := List.sum_le_card_nsmul (l.map g) B (by
      intro x hx
      obtain ⟨p, hp, rfl⟩ := List.mem_map.1 hx
      exact h p hp)
    simpa using this
  have hsq : ((a.zip b).map fun p => (p.1 - p.2) ^ 2).sum ≤ 2 ^ (1022 : ℤ) := by
    refine (sumle _ _ (2 ^ (1002 : ℤ)) ?_).trans ?_
    · intro p hp
      have := pow_le_pow_left₀ (abs_nonneg _) (hd p hp) 2
      rw [sq_abs] at this
      refine this.trans (le_of_eq ?_)
      rw [← zpow_natCast, ← zpow_mul]; norm_num
    · calc ((a.zip b).length : ℝ) * 2 ^ (1002 : ℤ) ≤ 2 ^ (20 : ℤ) * 2 ^ (1002 : ℤ) :=
            mul_le_mul_of_nonneg_right hlen (two_zpow_pos _).le
        _ = 2 ^ (1022 : ℤ) := by rw [← zpow_add₀ (by norm_num : (2 : ℝ) ≠ 0)]; norm_num
  unfold Spec.dist
  split_ifs
  · refine (sumle _ _ (2 ^ (501 : ℤ)) hd).trans ?_
    calc ((a.zip b).length : ℝ) * 2 ^ (501 : ℤ) ≤ 2 ^ (20 : ℤ) * 2 ^ (501 : ℤ) :=
            mul_le_mul_of_nonneg_right hlen (two_zpow_pos _).le
      _ = 2 ^ (521 : ℤ) := by rw [← zpow_add₀ (by norm_num : (2 : ℝ) ≠ 0)]; norm_num
      _ ≤ _ := zpow_le_zpow_right₀ (by norm_num) (by norm_num)
  · exact hsq
  · refine (Real.sqrt_le_sqrt hsq).trans ?_
    rw [Real.sqrt_le_left (two_zpow_pos _).le, pow_two]
    exact le_mul_of_one_le_left (two_zpow_pos _).le (one_le_zpow₀ (by norm_num) (by norm_num))
  · have : ∀ l : List (ℝ × ℝ), (∀ p ∈ l, |p.1 - p.2| ≤ 2 ^ (501 : ℤ)) →
        (l.map fun p => |p.1 - p.2|).foldr max 0 ≤ 2 ^ (501 : ℤ) := by
      intro l
      induction l with
      | nil => intro _; exact (two_zpow_pos _).le
      | cons p l ih =>
        intro h
        exact max_le (h p (List.mem_cons_self ..)) (ih fun q hq => h q (List.mem_cons_of_mem _ hq))
    exact (this _ hd).trans (zpow_le_zpow_right₀ (by norm_num) (by norm_num))

theorem slack_le_one (name : String) (n : ℕ) (hn : n ≤ 2 ^ 20) : slack f64 name n ≤ 1 := by
  have h1 : (n : ℝ) * tiny f64 ≤ 1 := by
    have h2 : (n : ℝ) ≤ 2 ^ (20 : ℤ) := by exact_mod_cast hn
    calc (n : ℝ) * tiny f64 ≤ 2 ^ (20 : ℤ) * tiny f64 := mul_le_mul_of_nonneg_right h2 (tiny_pos _).le
      _ = 2 ^ (20 + (f64.low - 1)) := by unfold tiny; rw [← zpow_add₀ (by norm_num : (2 : ℝ) ≠ 0)]
      _ ≤ 2 ^ (0 : ℤ) := zpow_le_zpow_right₀ (by norm_num) (by norm_num [f64])
      _ = 1 := zpow_zero _
  unfold slack
  split_ifs
  · exact h1
  · rw [Real.sqrt_le_left zero_le_one, one_pow]; exact h1
  · exact zero_le_one

/-- The rows are floats of moderate size: at most `2 ^ 20` columns, coordinates up to `2 ^ 500`. -/
def Moderate (r : List (Flt f64)) : Prop := ∀ x ∈ r, |x.val| ≤ 2 ^ (500 : ℤ)

/-- **C149.**  No distance between rows of moderate size (nor any running sum on the way, which is the distance of shorter rows)
reaches the largest double: the computed distance is a finite double. -/
theorem dist_no_overflow {cosine hav : List (Flt f64) → List (Flt f64) → Flt f64} {name : String} {dim : ℕ}
    {d : KDT.Dist (Flt f64)} (hm : name ∈ KDT.Spec.metricNames) (hd : KDT.Dist.ofString cosine hav name dim = .ok d)
    (hs : name = "l2" ∨ name = "sql2" → dim < 16) {a b : List (Flt f64)} (hl : (a.zip b).length ≤ 2 ^ 20)
    (ha : Moderate a) (hb : Moderate b) : d.dist a b < maxVal ∧ IsFloat f64 (d.dist a b).val := by
  obtain ⟨n, hn⟩ : ∃ n, n = 2 ^ 20 := ⟨_, rfl⟩
  rw [← hn] at hl
  obtain ⟨g1, g2⟩ := dist_close f64_sqrt hm hd hs a b hl
  have h1 := dist_moderate name (a.map (·.val)) (b.map (·.val)) (n := n) (by simpa using hl) hn.le
    (by simpa [Moderate] using ha) (by simpa [Moderate] using hb)
  have h2 := slack_le_one name n hn.le
  have h3 := pow_unit_le n hn.le
  clear hn
  have hp : (4 : ℝ) ≤ 2 ^ (1022 : ℤ) := by
    calc (4 : ℝ) = 2 ^ (2 : ℤ) := by norm_num
      _ ≤ _ := zpow_le_zpow_right₀ (by norm_num) (by norm_num)
  have hD := dist_nonneg name (a.map (·.val)) (b.map (·.val))
  have e1 : (2 : ℝ) ^ (1024 : ℤ) = 4 * 2 ^ (1022 : ℤ) := by
    rw [show (1024 : ℤ) = 2 + 1022 by norm_num, zpow_add₀ (by norm_num : (2 : ℝ) ≠ 0)]; norm_num
  have e3 : (2 : ℝ) ^ (971 : ℤ) ≤ 2 ^ (1022 : ℤ) := zpow_le_zpow_right₀ (by norm_num) (by norm_num)
  generalize (2 : ℝ) ^ (1022 : ℤ) = P at h1 hp e1 e3
  have hup : (d.dist a b).val < 3 * P := by
    have hs0 : 0 ≤ slack f64 name n := by
      unfold slack
      split_ifs
      · exact mul_nonneg (Nat.cast_nonneg _) (tiny_pos _).le
      · exact Real.sqrt_nonneg _
      · exact le_refl _
    have := mul_le_mul h3 (add_le_add h1 h2) (add_nonneg hD hs0) (by norm_num)
    exact (g2.trans this).trans_lt (by linarith only [hp])
  have hlo : -1 ≤ (d.dist a b).val := by
    have : 0 ≤ (1 - unit f64) ^ (n + 4) * Spec.dist name (a.map (·.val)) (b.map (·.val)) :=
      mul_nonneg (pow_nonneg (by linarith [unit_le (F := f64)]) _) hD
    linarith
  have etop : top f64 = 1024 := by norm_num [top, f64]
  constructor
  · change (d.dist a b).val < fl f64 (2 ^ top f64 - 2 ^ (top f64 - f64.frac - 1))
    have e2 : (2 : ℝ) ^ top f64 - 2 ^ (top f64 - f64.frac - 1) = ((2 ^ 53 - 1 : ℤ) : ℝ) * 2 ^ (971 : ℤ) := by
      rw [etop, show (1024 : ℤ) - f64.frac - 1 = 971 by norm_num [f64], show (1024 : ℤ) = 53 + 971 by norm_num,
        zpow_add₀ (by norm_num : (2 : ℝ) ≠ 0)]
      push_cast
      norm_num
      ring
    rw [fl_rep f64 ⟨2 ^ 53 - 1, 971, by norm_num [f64], by norm_num [f64], e2⟩, etop,
      show (1024 : ℤ) - f64.frac - 1 = 971 by norm_num [f64], e1]
    generalize (2 : ℝ) ^ (971 : ℤ) = Q at e3
    linarith
  · rw [isFloat_iff f64_proper]
    refine ⟨Flt.isRep _, ?_⟩
    rw [etop, abs_lt, e1]
    constructor <;> linarith only [hp, hup, hlo]

theorem rows_length {us : USort} {cosine hav : List (Flt f64) → List (Flt f64) → Flt f64} {X0 : Mat (Flt f64)} {balanced : Bool}
    {name : String} {d : KDT.Dist (Flt f64)} {adds : List (Mat (Flt f64))} {s : PyKDT (Flt f64)}
    (h : History us cosine hav X0 balanced name d adds s) : ∀ r ∈ KDT.Spec.rows X0 adds, r.length = X0.ncols := by
  intro r hr
  rcases List.mem_append.1 hr with hr | hr
  · exact h.rect r hr
  · obtain ⟨X, hX', hr⟩ := List.mem_flatMap.1 hr
    obtain ⟨hX1, hX2⟩ := List.mem_filter.1 hX'
    rw [h.rects X hX1 r hr]
    simp only [KDT.Spec.accepted, Bool.and_eq_true, beq_iff_eq] at hX2
    exact hX2.1

/-- **C149.**  On doubles, the `k` nearest neighbors found through the tree are at the true `k` smallest distances, up to one
rounding per coordinate and four more (and, for squares, results too small for a double): whatever the tree and its history. -/
theorem knn_double {us : USort} {cosine hav : List (Flt f64) → List (Flt f64) → Flt f64} {X0 : Mat (Flt f64)} {balanced : Bool}
    {name : String} {d : KDT.Dist (Flt f64)} {adds : List (Mat (Flt f64))} {s : PyKDT (Flt f64)}
    (h : History us cosine hav X0 balanced name d adds s) (hs : name = "l2" ∨ name = "sql2" → X0.ncols < 16)
    (hn : X0.ncols ≤ 2 ^ 20) {k : ℕ} (hk : 0 < k) {q : List (Flt f64)} (hq : Moderate q)
    (hX : ∀ r ∈ KDT.Spec.rows X0 adds, Moderate r) :
    ∃ res, knnUnchecked s.cfg s.tree k q maxVal 0 = some res ∧
      List.Forall₂ (fun nb t => Close f64 (X0.ncols + 4) (slack f64 name X0.ncols) t nb.dist.val) res
        ((((KDT.Spec.rows X0 adds).map fun r => Spec.dist name (r.map (·.val)) (q.map (·.val))).insertionSort (· ≤ ·)).take k) := by
  have hz : ∀ r ∈ KDT.Spec.rows X0 adds, (r.zip q).length ≤ X0.ncols := by
    intro r hr
    rw [List.length_zip, rows_length h r hr]
    exact min_le_left _ _
  obtain ⟨res, h1, h2⟩ := knn_exact_unbounded h hk q maxVal
    (fun r hr => (dist_no_overflow h.metric h.dist hs ((hz r hr).trans hn) (hX r hr) hq).1)
  refine ⟨res, h1, ?_⟩
  have h3 : List.Forall₂ (fun (x : Flt f64) t => Close f64 (X0.ncols + 4) (slack f64 name X0.ncols) t x.val)
      ((KDT.Spec.rows X0 adds).map fun r => d.dist r q)
      ((KDT.Spec.rows X0 adds).map fun r => Spec.dist name (r.map (·.val)) (q.map (·.val))) := by
    rw [List.forall₂_map_left_iff, List.forall₂_map_right_iff, List.forall₂_same]
    intro r hr
    exact dist_close f64_sqrt h.metric h.dist hs r q (hz r hr)
  have h4 := (insertionSort_forall₂ _ (fun a b c d hab hcd => close_minmax _ _ a c b d hab hcd) h3)
  have h5 := List.forall₂_take k h4
  rw [← h2, List.forall₂_map_left_iff] at h5
  exact h5

/-- **C149.**  On doubles, a radius query returns every row whose true distance is below the radius by more than the rounding
error, and only rows whose true distance exceeds it by no more than that. -/
theorem within_double {us : USort} {cosine hav : List (Flt f64) → List (Flt f64) → Flt f64} {X0 : Mat (Flt f64)} {balanced : Bool}
    {name : String} {d : KDT.Dist (Flt f64)} {adds : List (Mat (Flt f64))} {s : PyKDT (Flt f64)}
    (h : History us cosine hav X0 balanced name d adds s) (hs : name = "l2" ∨ name = "sql2" → X0.ncols < 16)
    (q : List (Flt f64)) {r : Flt f64} (hr : 0 + eps < r) (sort : Bool) :
    ∃ res, within us s.cfg s.tree q r sort = some (some res) ∧
      (∀ i row, (KDT.Spec.rows X0 adds)[i]? = some row →
        (1 + unit f64) ^ (X0.ncols + 4) * (Spec.dist name (row.map (·.val)) (q.map (·.val)) + slack f64 name X0.ncols) ≤ r.val →
        ∃ nb ∈ res, nb.item = i) ∧
      ∀ nb ∈ res, ∃ row, (KDT.Spec.rows X0 adds)[nb.item]? = some row ∧
        (1 - unit f64) ^ (X0.ncols + 4) * Spec.dist name (row.map (·.val)) (q.map (·.val)) - slack f64 name X0.ncols ≤ r.val := by
  have hz : ∀ r ∈ KDT.Spec.rows X0 adds, (r.zip q).length ≤ X0.ncols := by
    intro r hr
    rw [List.length_zip, rows_length h r hr]
    exact min_le_left _ _
  obtain ⟨res, h1, h2, -⟩ := (within_exact h q r sort).2 hr
  have hmem : ∀ nb : NB (Flt f64) ℕ, nb ∈ KDT.Spec.ball d q r (KDT.Spec.numbered (KDT.Spec.rows X0 adds)) ↔
      ∃ row, (KDT.Spec.rows X0 adds)[nb.item]? = some row ∧ nb.dist = d.dist row q ∧ d.dist row q ≤ r := by
    intro nb
    simp only [KDT.Spec.ball, KDT.Spec.all, KDT.Spec.numbered, List.map_map, List.mem_filter, List.mem_map, Function.comp_apply,
      decide_eq_true_eq, Prod.exists, List.mem_zipIdx_iff_getElem?]
    constructor
    · rintro ⟨⟨row, i, hi, rfl⟩, hle⟩
      exact ⟨row, hi, rfl, hle⟩
    · rintro ⟨row, hi, hd, hle⟩
      refine ⟨⟨row, nb.item, hi, ?_⟩, hd ▸ hle⟩
      rw [← hd]
  refine ⟨res, h1, ?_, ?_⟩
  · intro i row hi hle
    have hc := (dist_close f64_sqrt h.metric h.dist hs row q (hz row (List.mem_of_getElem? hi))).2
    refine ⟨⟨d.dist row q, i⟩, h2.mem_iff.2 ((hmem _).2 ⟨row, hi, rfl, ?_⟩), rfl⟩
    exact Rounding.Num.le_def _ |>.2 (hc.trans hle)
  · intro nb hnb
    obtain ⟨row, hi, hd, hle⟩ := (hmem nb).1 (h2.mem_iff.1 hnb)
    have hc := (dist_close f64_sqrt h.metric h.dist hs row q (hz row (List.mem_of_getElem? hi))).1
    exact ⟨row, hi, hc.trans hle⟩

/-! ### Instances -/

section concrete

theorem rep_int {n : ℤ} (h : |n| < 2 ^ 53) : fl f64 n = n := by
  refine fl_rep f64 ⟨n, 0, by simpa [f64] using h, by norm_num [f64], by simp⟩

/-- A double from an integer. -/
noncomputable def ofInt (n : ℤ) : Flt f64 := (ieee f64).round n

theorem ofInt_val {n : ℤ} (h : |n| < 2 ^ 53) : (ofInt n).val = n := rep_int h

private noncomputable def noMetric : List (Flt f64) → List (Flt f64) → Flt f64 := fun _ _ => 0

private noncomputable def Xf : Mat (Flt f64) := ⟨2, [[ofInt 0, ofInt 1], [ofInt 3, ofInt 4], [ofInt (-7), ofInt 2]]⟩

private theorem moderate_ints {l : List ℤ} (h : ∀ n ∈ l, |n| < 2 ^ 53) : Moderate (l.map ofInt) := by
  intro x hx
  obtain ⟨n, hn, rfl⟩ := List.mem_map.1 hx
  rw [ofInt_val (h n hn)]
  have h1 : |(n : ℝ)| ≤ 2 ^ (53 : ℤ) := by exact_mod_cast (h n hn).le
  exact h1.trans (zpow_le_zpow_right₀ (by norm_num) (by norm_num))

/-- The hypotheses of `knn_double` and `within_double` are met. -/
example : ∃ d s, History insertionUSort noMetric noMetric Xf true "l2" d [] s ∧ Xf.ncols < 16 ∧
    ∀ r ∈ KDT.Spec.rows Xf [], Moderate r := by
  obtain ⟨d, s, h⟩ := history_exists insertionUSort noMetric noMetric Xf true (name := "l2")
    (by simp [KDT.Spec.metricNames]) (by simp [Xf]) (by simp [Xf]) (by simp [Mat.Rect, Xf]) [] (by simp)
  refine ⟨d, s, h, by simp [Xf], ?_⟩
  intro r hr
  simp only [KDT.Spec.rows, Xf, List.filter_nil, List.flatMap_nil, List.append_nil, List.mem_cons, List.not_mem_nil, or_false] at hr
  rcases hr with rfl | rfl | rfl
  · exact moderate_ints (l := [0, 1]) (by simp)
  · exact moderate_ints (l := [3, 4]) (by simp)
  · exact moderate_ints (l := [-7, 2]) (by simp)

/-- The integers are exact up to `2 ^ 53`: the next one is a tie and goes to the even neighbor. -/
theorem round_tie : fl f64 (2 ^ 53 + 1) = 2 ^ 53 := by
  have hl : Int.log 2 |(2 ^ 53 + 1 : ℝ)| = 53 := by
    rw [abs_of_pos (by positivity), show (2 ^ 53 + 1 : ℝ) = ((2 ^ 53 + 1 : ℕ) : ℝ) by norm_num, Int.log_natCast]
    have : Nat.log 2 (2 ^ 53 + 1) = 53 := by
      rw [Nat.log_eq_iff (Or.inl (by norm_num))]; norm_num
    exact_mod_cast this
  have hu : ulp f64 (2 ^ 53 + 1) = 1 := by
    unfold ulp; rw [hl]; norm_num [f64]
  have hf : ⌊((2 ^ 53 + 1 : ℝ) / 2 ^ (1 : ℤ))⌋ = 2 ^ 52 := by
    rw [Int.floor_eq_iff]; norm_num
  have hr : Int.fract ((2 ^ 53 + 1 : ℝ) / 2 ^ (1 : ℤ)) = 1 / 2 := by
    rw [Int.fract, hf]; norm_num
  unfold fl
  rw [hu]
  unfold rne
  rw [hr, hf, if_neg (lt_irrefl _), if_neg (lt_irrefl _), if_pos (Int.even_pow.2 ⟨even_two, by norm_num⟩)]
  norm_num

/-- **C149.**  The order of the returned rows is that of the computed distances only: rows at different true distances may be at
the same computed distance, so the nearer of the two is not determined. -/
theorem distances_collide :
    ∃ a b q : Flt f64, Spec.dist "l1" [a.val] [q.val] < Spec.dist "l1" [b.val] [q.val] ∧
      KDT.Dist.dist .l1 [a] [q] = KDT.Dist.dist .l1 [b] [q] := by
  have v1 : (ofInt (2 ^ 53 - 1)).val = ((2 ^ 53 - 1 : ℤ) : ℝ) := ofInt_val (by norm_num)
  have v3 : (ofInt (-1)).val = ((-1 : ℤ) : ℝ) := ofInt_val (by norm_num)
  have hr : fl f64 (2 ^ 53) = 2 ^ 53 :=
    fl_rep f64 ⟨1, 53, by norm_num [f64], by norm_num [f64], by norm_num⟩
  refine ⟨ofInt (2 ^ 53 - 1), ⟨2 ^ 53, hr⟩, ofInt (-1), ?_, ?_⟩
  · rw [v1, v3]
    norm_num [Spec.dist]
  · apply Rounding.Num.ext
    change fl f64 (0 + |fl f64 ((ofInt (2 ^ 53 - 1)).val - (ofInt (-1)).val)|) = fl f64 (0 + |fl f64 (2 ^ 53 - (ofInt (-1)).val)|)
    rw [v1, v3]
    rw [show ((2 ^ 53 - 1 : ℤ) : ℝ) - ((-1 : ℤ) : ℝ) = 2 ^ 53 by push_cast; ring,
      show (2 : ℝ) ^ 53 - ((-1 : ℤ) : ℝ) = 2 ^ 53 + 1 by push_cast; ring, hr, round_tie]

/-- The tie rule is used: `2 ^ 53 + 1` is as near to `2 ^ 53 + 2` as to the result. -/
example : IsFloat f64 (2 ^ 53 + 2) ∧ (2 ^ 53 + 2 : ℝ) ≠ fl f64 (2 ^ 53 + 1) ∧
    |(2 ^ 53 + 2 : ℝ) - (2 ^ 53 + 1)| = |fl f64 (2 ^ 53 + 1) - (2 ^ 53 + 1)| := by
  refine ⟨(isFloat_iff f64_proper _).2 ⟨⟨2 ^ 52 + 1, 1, by norm_num [f64], by norm_num [f64], by norm_num⟩, ?_⟩, ?_, ?_⟩
  · rw [show top f64 = 1024 by norm_num [top, f64]]
    calc |(2 ^ 53 + 2 : ℝ)| ≤ 2 ^ (54 : ℤ) := by norm_num
      _ < _ := zpow_lt_zpow_right₀ (by norm_num) (by norm_num)
  · rw [round_tie]; norm_num
  · rw [round_tie]; norm_num

end concrete

end Verif.Ieee
