import Verif.Model.CorrTable
import Verif.Props.DiaNull
import Verif.Props.Xi

/-!
# C155: tables of correlations
-/

namespace Verif.CorrTable
open Verif.Pl

namespace Spec

/-- How strongly two columns are correlated, if that is defined. -/
def strength : Cell → Option ℝ
  | .num v => some |v|
  | _ => none

/-- The row of a table is about the pair `a`, `b`, in one order or the other. -/
def About (a b : String) (row : String × String × Cell) : Prop :=
  (row.1 = a ∧ row.2.1 = b) ∨ (row.1 = b ∧ row.2.1 = a)

instance (a b : String) (row : String × String × Cell) : Decidable (About a b row) := by unfold About; infer_instance

/-- The names of the five methods. -/
def methods : List String := ["pearson", "spearman", "xi", "kendall", "bicor"]

end Spec

open Spec

variable {C : Type}

/-! ## The pairs -/

theorem combos_eq_nil (l : List C) : CondEntropy.combos l = [] ↔ l.length < 2 := by
  match l with
  | [] => simp [CondEntropy.combos]
  | [_] => simp [CondEntropy.combos]
  | _ :: _ :: _ => simp [CondEntropy.combos]

theorem combos_length (l : List C) : 2 * (CondEntropy.combos l).length = l.length * (l.length - 1) := by
  induction l with
  | nil => rfl
  | cons a t ih =>
    simp only [CondEntropy.combos, List.length_append, List.length_map, List.length_cons, Nat.mul_add, ih]
    cases t.length with
    | zero => rfl
    | succ n => simp only [Nat.add_sub_cancel]; ring

theorem pairRows_eq_nil (r : C → C → Cell) (n b : List (String × C)) :
    pairRows r n b = [] ↔ n.length + b.length < 2 := by
  unfold pairRows
  rw [List.map_eq_nil_iff, combos_eq_nil, List.length_append]

/-- Each pair of different names is in one row of the table. -/
theorem count_about (r : C → C → Cell) : ∀ (l : List (String × C)), (l.map Prod.fst).Nodup → ∀ a b : String,
    a ∈ l.map Prod.fst → b ∈ l.map Prod.fst → a ≠ b →
    ((CondEntropy.combos l).map fun p => (p.1.1, p.2.1, r p.1.2 p.2.2)).countP (fun row => decide (About a b row)) = 1
  | [], _, a, _, ha, _, _ => by simp at ha
  | x :: t, hn, a, b, ha, hb, hab => by
    have hx : x.1 ∉ t.map Prod.fst := (List.nodup_cons.1 hn).1
    have ht : (t.map Prod.fst).Nodup := (List.nodup_cons.1 hn).2
    have key : ∀ c d : String, c ≠ d → x.1 = c → d ∈ t.map Prod.fst →
        (t.map fun y => (x, y)).countP (fun p => decide (About c d (p.1.1, p.2.1, r p.1.2 p.2.2))) = 1 := by
      intro c d hcd hc hd
      rw [List.countP_map]
      have e : t.countP ((fun p : (String × C) × (String × C) => decide (About c d (p.1.1, p.2.1, r p.1.2 p.2.2))) ∘
          fun y => (x, y)) = (t.map Prod.fst).countP (fun s => decide (s = d)) := by
        rw [List.countP_map]
        refine List.countP_congr fun y hy => ?_
        simp only [Function.comp, About, decide_eq_true_eq, hc]
        constructor
        · rintro (⟨-, h⟩ | ⟨h, -⟩)
          · exact h
          · exact absurd h hcd
        · exact fun h => Or.inl ⟨trivial, h⟩
      rw [e]
      have := List.count_eq_one_of_mem ht hd
      rw [List.count] at this
      rw [← this]
      refine List.countP_congr fun s _ => ?_
      simp
    have zero : ∀ c d : String, x.1 = c → ∀ (c' : String), c' = c →
        (CondEntropy.combos t).countP (fun p => decide (About c' d (p.1.1, p.2.1, r p.1.2 p.2.2))) = 0 := by
      intro c d hc c' hc'
      rw [List.countP_eq_zero]
      rintro ⟨p, q⟩ hpq
      obtain ⟨i, j, -, hi, hj⟩ := (Dia.mem_combos t p q).1 hpq
      have hp : p.1 ≠ x.1 := fun h => hx (h ▸ List.mem_map_of_mem (List.mem_of_getElem? hi))
      have hq : q.1 ≠ x.1 := fun h => hx (h ▸ List.mem_map_of_mem (List.mem_of_getElem? hj))
      intro h
      rcases of_decide_eq_true h with ⟨h, -⟩ | ⟨-, h⟩ <;> simp only at h
      · exact hp (by rw [h, hc', hc])
      · exact hq (by rw [h, hc', hc])
    have comm : ∀ (l : List ((String × C) × (String × C))) (c d : String),
        l.countP (fun p => decide (About c d (p.1.1, p.2.1, r p.1.2 p.2.2))) =
          l.countP (fun p => decide (About d c (p.1.1, p.2.1, r p.1.2 p.2.2))) := by
      intro l c d
      refine List.countP_congr fun p _ => ?_
      rw [decide_eq_true_eq, decide_eq_true_eq]
      exact or_comm
    rw [List.countP_map]
    change (CondEntropy.combos (x :: t)).countP (fun p => decide (About a b (p.1.1, p.2.1, r p.1.2 p.2.2))) = 1
    rw [CondEntropy.combos, List.countP_append]
    simp only [List.map_cons, List.mem_cons] at ha hb
    rcases ha with ha | ha <;> rcases hb with hb | hb
    · exact absurd (ha.trans hb.symm) hab
    · rw [key a b hab ha.symm hb, zero a b ha.symm a rfl]
    · rw [comm _ a b, key b a hab.symm hb.symm ha, comm _ a b, zero b a hb.symm b rfl]
    · have ih := count_about r t ht a b ha hb hab
      rw [List.countP_map] at ih
      change (CondEntropy.combos t).countP (fun p => decide (About a b (p.1.1, p.2.1, r p.1.2 p.2.2))) = 1 at ih
      rw [ih]
      have : (t.map fun y => (x, y)).countP (fun p => decide (About a b (p.1.1, p.2.1, r p.1.2 p.2.2))) = 0 := by
        rw [List.countP_eq_zero]
        intro p hp
        obtain ⟨y, -, rfl⟩ := List.mem_map.1 hp
        intro h
        rcases of_decide_eq_true h with ⟨h, -⟩ | ⟨h, -⟩ <;> simp only at h
        · exact hx (by rw [h]; exact ha)
        · exact hx (by rw [h]; exact hb)
      omega

/-! ## `infer_corr` -/

/-- **C155.** When `infer_corr` raises: exactly for a method that is not one of the five, or with fewer than two numeric
and boolean columns together. -/
theorem infer_corr_raises (lib : Lib C) (method : String) (n b : List (String × C)) :
    InferCorr lib method n b none ↔ method ∉ methods ∨ n.length + b.length < 2 := by
  have hm : corr lib method = none ↔ method ∉ methods := by
    unfold corr methods
    split_ifs <;> simp_all
  constructor
  · rintro (h | h)
    · exact Or.inl (hm.1 h)
    · exact Or.inr ((pairRows_eq_nil _ _ _).1 h)
  · rintro (h | h)
    · exact .unknown (hm.2 h)
    · exact .empty ((pairRows_eq_nil _ _ _).2 h)

/-- One numeric column and nothing else: an exception, not an empty table. -/
example (lib : Lib (Col ℝ)) : InferCorr lib "pearson" [("a", [some 1, some 2])] [] none :=
  (infer_corr_raises _ _ _ _).2 (Or.inr (by decide))

/-- **C155.** The table has one row for each pair of columns, in one of the two orders: `n (n - 1) / 2` rows, and each holds the
correlation of its first column with its second. -/
theorem infer_corr_pairs (lib : Lib C) (method : String) (n b : List (String × C)) (out : List (String × String × Cell))
    (h : InferCorr lib method n b (some out)) (hn : ((n ++ b).map Prod.fst).Nodup) :
    2 * out.length = (n.length + b.length) * (n.length + b.length - 1) ∧
    (∀ x ∈ (n ++ b).map Prod.fst, ∀ y ∈ (n ++ b).map Prod.fst, x ≠ y → out.countP (fun row => decide (About x y row)) = 1) ∧
    ∃ r, corr lib method = some r ∧ ∀ x y c, (x, y, c) ∈ out → x ≠ y ∧
      ∃ cx cy, (x, cx) ∈ n ++ b ∧ (y, cy) ∈ n ++ b ∧ c = r cx cy := by
  cases h with
  | table r _ hr hne hp hs =>
    refine ⟨?_, ?_, r, hr, ?_⟩
    · rw [hp.length_eq, pairRows, List.length_map, combos_length, List.length_append]
    · intro x hx y hy hxy
      rw [hp.countP_eq]
      exact count_about r _ hn x y hx hy hxy
    · intro x y c hm
      have := hp.subset hm
      unfold pairRows at this
      obtain ⟨⟨p, q⟩, hpq, e⟩ := List.mem_map.1 this
      simp only [Prod.mk.injEq] at e
      obtain ⟨i, j, hij, hi, hj⟩ := (Dia.mem_combos _ p q).1 hpq
      refine ⟨?_, p.2, q.2, ?_, ?_, e.2.2.symm⟩
      · rw [← e.1, ← e.2.1]
        intro hc
        have hi' : ((n ++ b).map Prod.fst)[i]? = some p.1 := by rw [List.getElem?_map, hi]; rfl
        have hj' : ((n ++ b).map Prod.fst)[j]? = some q.1 := by rw [List.getElem?_map, hj]; rfl
        rw [← hc] at hj'
        obtain ⟨hlt, -⟩ := List.getElem?_eq_some_iff.1 hi'
        exact absurd ((List.getElem?_inj hlt hn).1 (hi'.trans hj'.symm)) (by omega)
      · rw [← e.1]; exact List.mem_of_getElem? hi
      · rw [← e.2.1]; exact List.mem_of_getElem? hj

/-- **C155.** The order of the table: a row above another one is at least as strongly correlated, when both correlations
are defined. Every row with an undefined one is above every row with a number, and null is above NaN. -/
theorem infer_corr_order (lib : Lib C) (method : String) (n b : List (String × C)) (out : List (String × String × Cell))
    (h : InferCorr lib method n b (some out)) (i j : ℕ) (hij : i < j) (u v : String × String × Cell)
    (hu : out[i]? = some u) (hv : out[j]? = some v) :
    (∀ s t, strength u.2.2 = some s → strength v.2.2 = some t → t ≤ s) ∧
    (strength v.2.2 = none → strength u.2.2 = none) ∧ (v.2.2 = .null → u.2.2 = .null) := by
  cases h with
  | table r _ hr hne hp hs =>
    obtain ⟨hi, rfl⟩ := List.getElem?_eq_some_iff.1 hu
    obtain ⟨hj, rfl⟩ := List.getElem?_eq_some_iff.1 hv
    have := List.pairwise_iff_getElem.1 hs i j hi hj hij
    revert this
    generalize out[i].2.2 = p
    generalize out[j].2.2 = q
    intro this
    cases p <;> cases q <;> simp_all [before, strength]

/-- **C155.** With a symmetric method the table does not depend on the order of the columns: a pair has the same
correlation in every order. -/
theorem infer_corr_symmetric (lib : Lib C) (method : String) (r : C → C → Cell) (hr : corr lib method = some r)
    (hsym : ∀ x y, r x y = r y x) (n b n' b' : List (String × C)) (out out' : List (String × String × Cell))
    (h : InferCorr lib method n b (some out)) (h' : InferCorr lib method n' b' (some out'))
    (hperm : (n ++ b).Perm (n' ++ b')) (hn : ((n ++ b).map Prod.fst).Nodup) (row row' : String × String × Cell)
    (hm : row ∈ out) (hm' : row' ∈ out') (hab : About row'.1 row'.2.1 row) : row.2.2 = row'.2.2 := by
  have hn' : ((n' ++ b').map Prod.fst).Nodup := (hperm.map Prod.fst).nodup_iff.1 hn
  obtain ⟨-, -, r1, e1, h1⟩ := infer_corr_pairs lib method n b out h hn
  obtain ⟨-, -, r2, e2, h2⟩ := infer_corr_pairs lib method n' b' out' h' hn'
  rw [hr] at e1 e2
  obtain rfl := Option.some.inj e1
  obtain rfl := Option.some.inj e2
  obtain ⟨x, y, c⟩ := row
  obtain ⟨x', y', c'⟩ := row'
  obtain ⟨-, cx, cy, hx, hy, ec⟩ := h1 x y c hm
  obtain ⟨-, cx', cy', hx', hy', ec'⟩ := h2 x' y' c' hm'
  have uniq : ∀ s c d, (s, c) ∈ n ++ b → (s, d) ∈ n' ++ b' → c = d := by
    intro s c d hc hd
    have hd' := hperm.symm.subset hd
    have := List.inj_on_of_nodup_map hn hc hd' rfl
    exact (Prod.mk.inj this).2
  rcases hab with ⟨ex, ey⟩ | ⟨ex, ey⟩
  · simp only at ex ey
    subst ex ey
    rw [ec, ec', uniq _ _ _ hx hx', uniq _ _ _ hy hy']
  · simp only at ex ey
    subst ex ey
    rw [ec, ec', uniq _ _ _ hx hy', uniq _ _ _ hy hx', hsym]

/-- Three columns with the product of the first entries as a symmetric "correlation". -/
example (lib : Lib ℝ) (hl : lib.kendall = fun x y => .num (x * y)) (out out' : List (String × String × Cell))
    (h : InferCorr lib "kendall" [("a", 1), ("b", 2)] [("c", 0)] (some out))
    (h' : InferCorr lib "kendall" [("b", 2), ("a", 1)] [("c", 0)] (some out')) (row row' : String × String × Cell)
    (hm : row ∈ out) (hm' : row' ∈ out') (hab : About row'.1 row'.2.1 row) : row.2.2 = row'.2.2 :=
  infer_corr_symmetric lib "kendall" lib.kendall rfl (by intro x y; rw [hl]; simp only [mul_comm]) _ _ _ _ out out' h h'
    (List.Perm.swap _ _ _) (by decide) row row' hm hm' hab

/-- Such tables exist. -/
example (lib : Lib ℝ) (hl : lib.kendall = fun x y => .num (x * y)) :
    InferCorr lib "kendall" [("a", 1), ("b", 2)] [("c", 3)]
      (some [("b", "c", .num 6), ("a", "c", .num 3), ("a", "b", .num 2)]) := by
  refine .table lib.kendall _ rfl (by simp [pairRows, CondEntropy.combos]) ?_ ?_
  · simp only [pairRows, CondEntropy.combos, hl, List.map_cons, List.map_nil, List.cons_append, List.nil_append]
    norm_num
    exact (List.Perm.swap _ _ _).trans (((List.Perm.swap _ _ _).cons _).trans (List.Perm.swap _ _ _))
  · norm_num [before]

/-- The correlation `IsXi` of columns of which the first has no ties. -/
theorem xi_value (f : Col ℝ → Col ℝ → Cell) (hf : IsXi f) (x y : Col ℝ) (o : List (Option ℝ × Option ℝ))
    (ho : Xi.Ordered (x.zip y) o) (hx : ((x.zip y).map Prod.fst).Nodup) (q : ℚ) (hq : Xi.xiCorr o = some q) :
    f x y = .num (q : ℝ) := by
  obtain ⟨o', h', e⟩ := hf x y
  rw [e, Xi.xi_seed_irrelevant _ o' o h' ho hx, hq]

/-- **C155 (disagreement).** Chatterjee's coefficient is not symmetric, and the table holds only one of its two values: which
one depends on the order of the columns in the frame. -/
theorem infer_corr_xi_order (lib : Lib (Col ℝ)) (hl : IsXi lib.xi) :
    ∃ x y : Col ℝ, ∃ v w : ℝ, v ≠ w ∧
      (∀ out, InferCorr lib "xi" [("x", x), ("y", y)] [] (some out) → out = [("x", "y", .num v)]) ∧
      (∀ out, InferCorr lib "xi" [("y", y), ("x", x)] [] (some out) → out = [("y", "x", .num w)]) := by
  have h1 : lib.xi [some 1, some 2, some 3, some 4] [some 2, some 3, some 1, some 4] = .num ((-1 / 5 : ℚ) : ℝ) := by
    refine xi_value lib.xi hl _ _ [(some 1, some 2), (some 2, some 3), (some 3, some 1), (some 4, some 4)] ?_ ?_ _ ?_
    · exact ⟨List.Perm.refl _, by norm_num⟩
    · norm_num
    · rw [Xi.xi_untied _ [2, 3, 1, 4] rfl (by norm_num) (by simp)]
      norm_num [Xi.Spec.variation, Xi.Spec.atMost, List.countP_cons]
  have h2 : lib.xi [some 2, some 3, some 1, some 4] [some 1, some 2, some 3, some 4] = .num ((0 : ℚ) : ℝ) := by
    refine xi_value lib.xi hl _ _ [(some 1, some 3), (some 2, some 1), (some 3, some 2), (some 4, some 4)] ?_ ?_ _ ?_
    · refine ⟨?_, by norm_num⟩
      exact (List.Perm.swap _ _ _).trans ((List.Perm.swap _ _ _).cons _)
    · norm_num
    · rw [Xi.xi_untied _ [3, 1, 2, 4] rfl (by norm_num) (by simp)]
      norm_num [Xi.Spec.variation, Xi.Spec.atMost, List.countP_cons]
  refine ⟨[some 1, some 2, some 3, some 4], [some 2, some 3, some 1, some 4], ((-1 / 5 : ℚ) : ℝ), ((0 : ℚ) : ℝ), ?_, ?_, ?_⟩
  · norm_num
  · intro out h
    cases h with
    | table r _ hr hne hp hs =>
      obtain rfl := Option.some.inj hr
      have hp : out.Perm [("x", "y", lib.xi _ _)] := hp
      rw [List.perm_singleton.1 hp, h1]
  · intro out h
    cases h with
    | table r _ hr hne hp hs =>
      obtain rfl := Option.some.inj hr
      have hp : out.Perm [("y", "x", lib.xi _ _)] := hp
      rw [List.perm_singleton.1 hp, h2]

/-- The coefficient exists: `xi_corr` with some order for each pair of columns. -/
example : ∃ f : Col ℝ → Col ℝ → Cell, IsXi f := by
  have h : ∀ x y : Col ℝ, ∃ c, ∃ out, Xi.Ordered (x.zip y) out ∧
      c = (match Xi.xiCorr out with | none => Cell.nan | some q => .num (q : ℝ)) := by
    intro x y
    let le : Option ℝ × Option ℝ → Option ℝ × Option ℝ → Prop := fun a b =>
      match a.1, b.1 with
      | none, _ => True
      | some _, none => False
      | some u, some v => u ≤ v
    classical
    refine ⟨_, (x.zip y).insertionSort le, ⟨List.perm_insertionSort _ _, ?_⟩, rfl⟩
    have t1 : Std.Total le := ⟨by
      rintro ⟨a, _⟩ ⟨b, _⟩
      cases a <;> cases b <;> simp [le, le_total]⟩
    have t2 : IsTrans _ le := ⟨by
      rintro ⟨a, _⟩ ⟨b, _⟩ ⟨c, _⟩
      cases a <;> cases b <;> cases c <;> simp only [le] <;>
        first | exact fun _ _ => trivial | exact fun h _ => h.elim | exact fun _ h => h.elim | exact le_trans⟩
    refine (List.pairwise_insertionSort le _).imp ?_
    rintro ⟨a, _⟩ ⟨b, _⟩
    cases a <;> cases b <;> exact id
  choose f hf using h
  exact ⟨f, hf⟩

/-! ## Pearson -/

theorem rows_swap (x y : Col ℝ) : ((y.zip x).filterMap fun p => opt2 (fun a b => ((a, b) : ℝ × ℝ)) p.1 p.2) =
    ((x.zip y).filterMap fun p => opt2 (fun a b => ((a, b) : ℝ × ℝ)) p.1 p.2).map Prod.swap := by
  induction x generalizing y with
  | nil => simp
  | cons a t ih =>
    cases y with
    | nil => simp
    | cons b s =>
      cases a with
      | none => cases b <;> exact ih s
      | some u =>
        cases b with
        | none => exact ih s
        | some v => exact congrArg ((v, u) :: ·) (ih s)

/-- **C155.** Pearson's correlation is symmetric. -/
theorem pearson_symmetric (x y : Col ℝ) : pearson x y = pearson y x := by
  unfold pearson
  simp only [rows_swap x y, List.map_map]
  have e1 : (Prod.fst ∘ Prod.swap : ℝ × ℝ → ℝ) = Prod.snd := rfl
  have e2 : (Prod.snd ∘ Prod.swap : ℝ × ℝ → ℝ) = Prod.fst := rfl
  rw [e1, e2]
  generalize ((x.zip y).filterMap fun p => opt2 (fun a b => ((a, b) : ℝ × ℝ)) p.1 p.2) = rows
  have e3 : Dia.pearson (rows.map Prod.fst) (rows.map Prod.snd) = Dia.pearson (rows.map Prod.snd) (rows.map Prod.fst) := by
    unfold Dia.pearson
    simp only
    rw [mul_comm (Real.sqrt _), List.zipWith_comm]
    simp only [mul_comm]
  rw [e3]
  simp only [or_comm]

example : pearson [some 1, some 2, none] [some 3, some 5, some 1] = pearson [some 3, some 5, some 1] [some 1, some 2, none] :=
  pearson_symmetric _ _

theorem spread_const (c : ℝ) (u : List ℝ) (h : ∀ a ∈ u, a = c) : (u.map fun a => (a - u.sum / u.length) ^ 2).sum = 0 := by
  have e : u = List.replicate u.length c := List.eq_replicate_iff.2 ⟨rfl, h⟩
  rcases Nat.eq_zero_or_pos u.length with h0 | h0
  · rw [List.length_eq_zero_iff.1 h0]; simp
  · have hs : u.sum / u.length = c := by
      have : u.sum = u.length * c := by
        conv_lhs => rw [e]
        simp
      rw [this]
      have : (u.length : ℝ) ≠ 0 := by positivity
      field_simp
    rw [hs]
    apply List.sum_eq_zero
    intro v hv
    obtain ⟨a, ha, rfl⟩ := List.mem_map.1 hv
    rw [h a ha]
    ring

/-- A constant column (nulls aside) has no correlation with any column. -/
theorem pearson_constant (c : ℝ) (x y : Col ℝ) (h : ∀ a, some a ∈ x → a = c) : pearson x y = .nan ∧ pearson y x = .nan := by
  have key : pearson x y = .nan := by
    unfold pearson
    simp only
    rw [if_pos]
    left
    apply spread_const c
    intro a ha
    obtain ⟨p, hp, rfl⟩ := List.mem_map.1 ha
    obtain ⟨q, hq, e⟩ := List.mem_filterMap.1 hp
    obtain ⟨q1, q2⟩ := q
    have := List.of_mem_zip hq
    cases q1 with
    | none => simp [opt2] at e
    | some v => cases q2 with
      | none => simp [opt2] at e
      | some w =>
        simp only [opt2, Option.some.injEq] at e
        rw [← e]
        exact h v this.1
  exact ⟨key, by rw [← pearson_symmetric]; exact key⟩

/-- **C155 (disagreement).** The table is meant to show the highly correlated columns first. With a constant column it starts
with pairs that have no correlation: every pair of a constant column is above every pair that has one. -/
theorem infer_corr_constant_first (lib : Lib (Col ℝ)) (hl : lib.pearson = pearson) (n b : List (String × Col ℝ))
    (out : List (String × String × Cell)) (h : InferCorr lib "pearson" n b (some out))
    (hn : ((n ++ b).map Prod.fst).Nodup) (name : String) (col : Col ℝ) (c : ℝ) (hc : (name, col) ∈ n ++ b)
    (hcol : ∀ a, some a ∈ col → a = c) (i j : ℕ) (u v : String × String × Cell) (hu : out[i]? = some u)
    (hv : out[j]? = some v) (hname : u.1 = name ∨ u.2.1 = name) (w : ℝ) (hw : v.2.2 = .num w) : i < j := by
  obtain ⟨-, -, r, hr, hrow⟩ := infer_corr_pairs lib "pearson" n b out h hn
  obtain rfl : lib.pearson = r := Option.some.inj hr
  have hun : u.2.2 = .nan := by
    obtain ⟨x, y, z⟩ := u
    obtain ⟨-, cx, cy, hx, hy, e⟩ := hrow x y z (List.mem_of_getElem? hu)
    simp only at hname ⊢
    rw [e, hl]
    rcases hname with rfl | rfl
    · have := List.inj_on_of_nodup_map hn hx hc rfl
      rw [(Prod.mk.inj this).2]
      exact (pearson_constant c col cy hcol).1
    · have := List.inj_on_of_nodup_map hn hy hc rfl
      rw [(Prod.mk.inj this).2]
      exact (pearson_constant c col cx hcol).2
  by_contra hij
  rcases Nat.lt_or_eq_of_le (Nat.le_of_not_lt hij) with hlt | rfl
  · have := (infer_corr_order lib "pearson" n b out h j i hlt v u hv hu).2
    rw [hun, hw] at this
    simp [strength] at this
  · rw [hu] at hv
    rw [← Option.some.inj hv, hun] at hw
    cases hw

/-- Two columns with correlation 1 and a constant one: in every table the pair with the correlation is in the last row. -/
example (lib : Lib (Col ℝ)) (hl : lib.pearson = pearson) (out : List (String × String × Cell))
    (h : InferCorr lib "pearson" [("a", [some 1, some 2]), ("k", [some 7, some 7]), ("b", [some 3, some 4])] [] (some out))
    (i j : ℕ) (u v : String × String × Cell) (hu : out[i]? = some u) (hv : out[j]? = some v) (h1 : u.1 = "k" ∨ u.2.1 = "k")
    (w : ℝ) (hw : v.2.2 = .num w) : i < j :=
  infer_corr_constant_first lib hl _ _ out h (by decide) "k" [some 7, some 7] 7 (by simp) (by simp) i j u v hu hv h1 w hw

/-! ## `DIA.corr` -/

theorem mapM_some {α β : Type} (f : α → Option β) : ∀ (l : List α) (o : List β), l.mapM f = some o →
    o.length = l.length ∧ ∀ (i : ℕ) a, l[i]? = some a → o[i]? = f a ∧ (f a).isSome
  | [], o, h => by
    simp at h
    subst h
    simp
  | a :: t, o, h => by
    rw [List.mapM_cons] at h
    cases ha : f a with
    | none => simp [ha] at h
    | some b =>
      cases ht : t.mapM f with
      | none => simp [ha, ht] at h
      | some s =>
        simp [ha, ht] at h
        subst h
        obtain ⟨h1, h2⟩ := mapM_some f t s ht
        refine ⟨by simp [h1], fun i c hc => ?_⟩
        cases i with
        | zero =>
          simp at hc
          subst hc
          simp [ha]
        | succ i => simpa using h2 i c (by simpa using hc)

/-- **C155.** `DIA.corr`: one row for each selected name, one cell for each numeric column, and the cell is the correlation of the
two columns of the frame. -/
theorem dia_corr_cells (lib : Lib C) (method : String) (frame : List (String × C)) (numerics : List String)
    (subset : List (String × C)) (out : List (String × List (String × Cell)))
    (h : diaCorr lib method frame numerics subset = some out) :
    out.map Prod.fst = subset.map Prod.fst ∧ "column" ∉ numerics ∧
    ∃ r, corr lib method = some r ∧ ∀ x cells, (x, cells) ∈ out → cells.map Prod.fst = numerics ∧
      ∃ cx, frame.lookup x = some cx ∧ ∀ y c, (y, c) ∈ cells → ∃ cy, frame.lookup y = some cy ∧ c = r cx cy := by
  unfold diaCorr at h
  cases hr : corr lib method with
  | none => simp [hr] at h
  | some r =>
    rw [hr] at h
    simp only at h
    split_ifs at h with hc
    obtain ⟨hlen, hi⟩ := mapM_some _ _ _ h
    have hrow : ∀ (i : ℕ) x, (subset.map Prod.fst)[i]? = some x → ∃ cx cells, frame.lookup x = some cx ∧
        (numerics.mapM fun y => (frame.lookup y).map fun cy => (y, r cx cy)) = some cells ∧ out[i]? = some (x, cells) := by
      intro i x hx
      obtain ⟨h1, h2⟩ := hi i x hx
      cases hl : frame.lookup x with
      | none => simp [hl] at h2
      | some cx =>
        cases hm : (numerics.mapM fun y => (frame.lookup y).map fun cy => (y, r cx cy)) with
        | none => simp [hl, hm] at h2
        | some cells => exact ⟨cx, cells, rfl, hm, by rw [h1, hl]; simp [hm]⟩
    refine ⟨?_, fun hh => hc (Or.inl hh), r, rfl, ?_⟩
    · apply List.ext_getElem?
      intro i
      rw [List.getElem?_map]
      cases hx : (subset.map Prod.fst)[i]? with
      | none =>
        rw [List.getElem?_eq_none_iff] at hx
        rw [List.getElem?_eq_none (by omega)]
        rfl
      | some x =>
        obtain ⟨cx, cells, -, -, ho⟩ := hrow i x hx
        rw [ho]
        rfl
    · intro x cells hmem
      obtain ⟨i, ho⟩ := List.mem_iff_getElem?.1 hmem
      have hlt : i < (subset.map Prod.fst).length := by
        rw [← hlen]; exact (List.getElem?_eq_some_iff.1 ho).1
      obtain ⟨cx, cells', hl, hm, ho'⟩ := hrow i _ (List.getElem?_eq_getElem hlt)
      rw [ho] at ho'
      obtain ⟨e1, e2⟩ := Prod.mk.inj (Option.some.inj ho')
      rw [← e1] at hl
      rw [← e2] at hm
      obtain ⟨hlen2, hcell⟩ := mapM_some _ _ _ hm
      have hget : ∀ (k : ℕ) y, numerics[k]? = some y → ∃ cy, frame.lookup y = some cy ∧ cells[k]? = some (y, r cx cy) := by
        intro k y hy
        obtain ⟨g1, g2⟩ := hcell k y hy
        cases hly : frame.lookup y with
        | none => simp [hly] at g2
        | some cy => exact ⟨cy, rfl, by rw [g1, hly]; rfl⟩
      refine ⟨?_, cx, hl, ?_⟩
      · apply List.ext_getElem?
        intro k
        rw [List.getElem?_map]
        cases hy : numerics[k]? with
        | none =>
          rw [List.getElem?_eq_none_iff] at hy
          rw [List.getElem?_eq_none (by omega)]
          rfl
        | some y =>
          obtain ⟨cy, -, ho⟩ := hget k y hy
          rw [ho]
          rfl
      · intro y c hyc
        obtain ⟨k, hk⟩ := List.mem_iff_getElem?.1 hyc
        have hlt : k < numerics.length := by
          rw [← hlen2]; exact (List.getElem?_eq_some_iff.1 hk).1
        obtain ⟨cy, hly, hk'⟩ := hget k _ (List.getElem?_eq_getElem hlt)
        rw [hk] at hk'
        obtain ⟨e3, e4⟩ := Prod.mk.inj (Option.some.inj hk')
        exact ⟨cy, by rw [e3]; exact hly, e4⟩

/-- **C155 (disagreement).** `subset` may be any expression, but only its name reaches the table: two selections with the same names
give the same table, whatever they compute. -/
theorem dia_corr_ignores_expressions (lib : Lib C) (method : String) (frame : List (String × C)) (numerics : List String)
    (subset subset' : List (String × C)) (h : subset.map Prod.fst = subset'.map Prod.fst) :
    diaCorr lib method frame numerics subset = diaCorr lib method frame numerics subset' := by
  unfold diaCorr
  have e : subset = [] ↔ subset' = [] := by
    rw [← List.map_eq_nil_iff (f := Prod.fst), h, List.map_eq_nil_iff]
  simp only [h, e]

/-- `pl.col("a").abs()` in place of `pl.col("a")`: the table is the same, and has the correlation -1 of the raw column. -/
example (lib : Lib ℝ) (hl : lib.pearson = fun x y => .num (x * y)) :
    diaCorr lib "pearson" [("a", -1), ("b", 1)] ["a", "b"] [("a", 1)] = some [("a", [("a", .num 1), ("b", .num (-1))])] ∧
    diaCorr lib "pearson" [("a", -1), ("b", 1)] ["a", "b"] [("a", -1)] = some [("a", [("a", .num 1), ("b", .num (-1))])] := by
  have h : diaCorr lib "pearson" [("a", -1), ("b", 1)] ["a", "b"] [("a", 1)] =
      some [("a", [("a", .num 1), ("b", .num (-1))])] := by
    simp [diaCorr, corr, hl, List.lookup]
  exact ⟨h, by rw [← h]; exact dia_corr_ignores_expressions _ _ _ _ _ _ rfl⟩

end Verif.CorrTable
