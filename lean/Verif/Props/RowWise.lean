import Verif.Model.GcdLcm
import Verif.Model.Haversine
import Verif.Model.Jaccard
import Verif.Model.NumExpr
import Verif.Model.StrMisc
import Verif.Model.Stopword
import Verif.Props.Random

/-!
# C145: functions of a row can be evaluated on any part of the rows

An expression announced to polars as element-wise may be evaluated before or after a filter and in pieces.
-/

namespace Verif.RowWise
open Verif.Pl

namespace Spec

/-- Evaluating in two pieces is evaluating the whole; `none` is any failure. -/
def RowByRow {ρ β : Type} (f : List ρ → Option (List β)) : Prop :=
  ∀ a b, f (a ++ b) = (f a).bind fun x => (f b).map fun y => x ++ y

/-- The values of the rows that satisfy `p`. -/
def keep {ρ β : Type} (p : ρ → Bool) (rows : List ρ) (out : List β) : List β :=
  ((rows.zip out).filter fun t => p t.1).map Prod.snd

/-- Filtering before or after the function gives the same values. -/
def Filters {ρ β : Type} (f : List ρ → Option (List β)) : Prop :=
  ∀ rows out p, f rows = some out → f (rows.filter p) = some (keep p rows out)

end Spec

open Spec

/-- What evaluation in pieces means: there is a function of one row, and the rows of the result are its values. -/
theorem row_by_row_iff {ρ β : Type} (f : List ρ → Option (List β)) (h0 : f [] = some [])
    (h1 : ∀ r o, f [r] = some o → o.length = 1) :
    RowByRow f ↔ ∃ g : ρ → Option β, ∀ rows, f rows = rows.mapM g := by
  constructor
  · intro h
    refine ⟨fun r => (f [r]).bind List.head?, fun rows => ?_⟩
    induction rows with
    | nil => simp [h0]
    | cons r rows ih =>
      have := h [r] rows
      rw [List.singleton_append] at this
      rw [this, ih, List.mapM_cons]
      cases hr : f [r] with
      | none => rfl
      | some o =>
        obtain ⟨v, rfl⟩ := List.length_eq_one_iff.1 (h1 r o hr)
        simp only [Option.bind_some, List.head?_cons]
        cases List.mapM (fun r => (f [r]).bind List.head?) rows <;> rfl
  · rintro ⟨g, hg⟩ a b
    rw [hg, hg, hg]
    induction a with
    | nil =>
      simp only [List.nil_append, List.mapM_nil]
      cases List.mapM g b <;> rfl
    | cons r a ih =>
      rw [List.cons_append, List.mapM_cons, List.mapM_cons, ih]
      cases g r with
      | none => rfl
      | some v =>
        cases List.mapM g a with
        | none => rfl
        | some x => cases List.mapM g b <;> rfl

/-- A function of the rows commutes with every filter. -/
theorem mapM_filters {ρ β : Type} (g : ρ → Option β) : Filters fun rows => rows.mapM g := by
  intro rows
  induction rows with
  | nil =>
    intro out p h
    simp [keep]
  | cons r rows ih =>
    intro out p h
    simp only [List.mapM_cons] at h
    cases hr : g r with
    | none => rw [hr] at h; simp at h
    | some v =>
      rw [hr] at h
      cases hrs : List.mapM g rows with
      | none => rw [hrs] at h; simp at h
      | some o =>
        rw [hrs] at h
        simp only [Option.bind_eq_bind, Option.bind_some, Option.pure_def, Option.some.injEq] at h
        subst h
        have := ih o p hrs
        simp only at this
        simp only [List.filter_cons]
        by_cases hp : p r = true
        · simp only [hp, if_true, List.mapM_cons, hr, this, keep, List.zip_cons_cons, List.filter_cons, List.map_cons]
          rfl
        · simp only [hp, keep, List.zip_cons_cons, List.filter_cons]
          exact this

theorem row_by_row_filters {ρ β : Type} (f : List ρ → Option (List β)) (h0 : f [] = some [])
    (h1 : ∀ r o, f [r] = some o → o.length = 1) (h : RowByRow f) : Filters f := by
  obtain ⟨g, hg⟩ := (row_by_row_iff f h0 h1).1 h
  have := mapM_filters g
  rwa [← funext hg] at this

theorem map_row_by_row {ρ β : Type} (g : ρ → β) : RowByRow fun rows => some (rows.map g) := by
  intro a b
  simp

/-! ### The functions on rows -/

/-- `gcd` or `lcm` on rows of two numbers. -/
def binaryRows (f : Int → Int → Int) (rows : List (Option Int × Option Int)) : Option (List (Option Int)) :=
  match GcdLcm.binaryCol f (rows.map Prod.fst) (rows.map Prod.snd) with
  | .ok out => some out
  | _ => none

/-- `haversine` on rows of two points. -/
noncomputable def haversineRows (rows : List (Option ℝ × Option ℝ × Option ℝ × Option ℝ)) : Option (Col ℝ) :=
  match Haversine.naive (rows.map fun r => r.1) (rows.map fun r => r.2.1) (rows.map fun r => r.2.2.1)
      (rows.map fun r => r.2.2.2) with
  | .ok out => some out
  | _ => none

/-- A string metric on rows of two strings. -/
def stringRows {σ β : Type} (d : σ → σ → Option β) (rows : List (Option σ × Option σ)) : Option (List (Option β)) :=
  match StrMisc.pairwise (fun r s => d s r) d none (rows.map Prod.fst) (rows.map Prod.snd) with
  | .ok out => some out
  | _ => none

/-- The value of a row of numbers: null if one of them is. -/
def cell2 {σ β : Type} (d : σ → σ → Option β) : Option σ × Option σ → Option β
  | (some x, some y) => d x y
  | _ => none

/-- A single row with a null on the right. -/
def Lonely {σ τ : Type} (rows : List (σ × Option τ)) : Prop := rows.map Prod.snd = [none]

theorem binaryRows_eq (f : Int → Int → Int) (rows : List (Option Int × Option Int)) (h : ¬ Lonely rows) :
    binaryRows f rows = some (rows.map (cell2 fun x y => some (f x y))) := by
  unfold binaryRows GcdLcm.binaryCol
  match rows, h with
  | [], _ => rfl
  | [(x, none)], h => exact absurd rfl h
  | [(x, some y)], _ => cases x <;> rfl
  | p :: q :: t, _ =>
    have hz : ((p :: q :: t).map Prod.fst).zip ((p :: q :: t).map Prod.snd) = p :: q :: t := by
      rw [List.zip_map']
      simp
    rw [if_neg (by simp), if_pos (by simp), hz]
    simp only [Option.some.injEq]
    apply List.map_congr_left
    rintro ⟨x, y⟩ _
    cases x <;> cases y <;> rfl

theorem stringRows_eq {σ β : Type} (d : σ → σ → Option β) (rows : List (Option σ × Option σ)) (h : ¬ Lonely rows) :
    stringRows d rows = some (rows.map (cell2 d)) := by
  unfold stringRows StrMisc.pairwise
  match rows, h with
  | [], _ => rfl
  | [(x, none)], h => exact absurd rfl h
  | [(x, some y)], _ => cases x <;> rfl
  | p :: q :: t, _ =>
    have hz : ((p :: q :: t).map Prod.fst).zip ((p :: q :: t).map Prod.snd) = p :: q :: t := by
      rw [List.zip_map']
      simp
    simp only [List.map_cons] at hz ⊢
    rw [if_pos (by simp), hz]
    simp only [Option.some.injEq, ← List.map_cons]
    apply List.map_congr_left
    rintro ⟨x, y⟩ _
    cases x <;> cases y <;> rfl

theorem lonely_append {σ τ : Type} (a b : List (σ × Option τ)) (ha : ¬ Lonely a) (hb : ¬ Lonely b) :
    ¬ Lonely (a ++ b) := by
  unfold Lonely at *
  intro h
  rw [List.map_append] at h
  match a, b, ha, hb with
  | [], b, _, hb => exact hb (by simpa using h)
  | x :: t, b, ha, _ =>
    simp only [List.map_cons, List.cons_append, List.cons.injEq, List.append_eq_nil_iff] at h
    exact ha (by rw [List.map_cons, h.1, h.2.1])

/-- **C145 (partial).**  `gcd` and `lcm` can be evaluated in pieces, unless a piece is a single row whose second number is
null. -/
theorem gcd_lcm_pieces_partial (f : Int → Int → Int) (a b : List (Option Int × Option Int)) (ha : ¬ Lonely a)
    (hb : ¬ Lonely b) :
    ∃ x y, binaryRows f a = some x ∧ binaryRows f b = some y ∧ binaryRows f (a ++ b) = some (x ++ y) :=
  ⟨_, _, binaryRows_eq f a ha, binaryRows_eq f b hb, by
    rw [binaryRows_eq f _ (lonely_append a b ha hb), List.map_append]⟩

example : ∃ x y, binaryRows GcdLcm.gcd32 [(some 4, some 6), (some 5, none)] = some x ∧
    binaryRows GcdLcm.gcd32 [(none, some 3)] = some y ∧
    binaryRows GcdLcm.gcd32 [(some 4, some 6), (some 5, none), (none, some 3)] = some (x ++ y) :=
  gcd_lcm_pieces_partial _ [(some 4, some 6), (some 5, none)] [(none, some 3)] (by simp [Lonely]) (by simp [Lonely])

/-- **C145 (disagreement).**  In a column of at least two rows a null second number gives null, but if a filter leaves only
such a row the function panics. -/
theorem gcd_lcm_filter_panics (f : Int → Int → Int) :
    (∀ (a b : List (Option Int × Option Int)) x, 1 ≤ (a ++ b).length →
      ∃ o o', o.length = a.length ∧ binaryRows f (a ++ (x, none) :: b) = some (o ++ none :: o')) ∧
    (∀ x, GcdLcm.binaryCol f [x] [none] = .panic) ∧ ¬ Filters (binaryRows f) := by
  refine ⟨fun a b x hab => ?_, fun _ => rfl, fun h => ?_⟩
  · have : ¬ Lonely (a ++ (x, none) :: b) := by
      intro h
      have := congrArg List.length h
      simp at this hab
      omega
    refine ⟨a.map (cell2 fun x y => some (f x y)), b.map (cell2 fun x y => some (f x y)), by simp, ?_⟩
    rw [binaryRows_eq f _ this, List.map_append, List.map_cons]
    cases x <;> rfl
  · have := h [(some 1, some 1), (some 1, none)] [some (f 1 1), none] (fun r => r.2.isNone) rfl
    simp [binaryRows, GcdLcm.binaryCol, keep] at this

/-- **C145 (partial).**  The same for the metrics on two string columns, with any metric `d`. -/
theorem string_metric_pieces_partial {σ β : Type} (d : σ → σ → Option β) (a b : List (Option σ × Option σ))
    (ha : ¬ Lonely a) (hb : ¬ Lonely b) :
    ∃ x y, stringRows d a = some x ∧ stringRows d b = some y ∧ stringRows d (a ++ b) = some (x ++ y) :=
  ⟨_, _, stringRows_eq d a ha, stringRows_eq d b hb, by
    rw [stringRows_eq d _ (lonely_append a b ha hb), List.map_append]⟩

example : ∃ x y, stringRows (fun s t : String => some (s.length + t.length)) [(some "a", some "bc"), (some "d", none)] = some x ∧
    stringRows (fun s t : String => some (s.length + t.length)) [] = some y ∧
    stringRows (fun s t : String => some (s.length + t.length)) ([(some "a", some "bc"), (some "d", none)] ++ []) =
      some (x ++ y) :=
  string_metric_pieces_partial _ _ _ (by simp [Lonely]) (by simp [Lonely])

/-- **C145 (disagreement).**  And if a filter leaves one row whose second string is null, the metric panics. -/
theorem string_metric_filter_panics {σ β : Type} (z : σ) (d : σ → σ → Option β) :
    (∀ (a b : List (Option σ × Option σ)) x, 1 ≤ (a ++ b).length →
      ∃ o o', o.length = a.length ∧ stringRows d (a ++ (x, none) :: b) = some (o ++ none :: o')) ∧
    (∀ x w, StrMisc.pairwise (fun r s => d s r) d w [x] [none] = .panic) ∧ ¬ Filters (stringRows d) := by
  refine ⟨fun a b x hab => ?_, fun _ _ => rfl, fun h => ?_⟩
  · have : ¬ Lonely (a ++ (x, none) :: b) := by
      intro h
      have := congrArg List.length h
      simp at this hab
      omega
    refine ⟨a.map (cell2 d), b.map (cell2 d), by simp, ?_⟩
    rw [stringRows_eq d _ this, List.map_append, List.map_cons]
    cases x <;> rfl
  · have := h [(some z, none), (none, none)] [none, none] (fun r => r.1.isSome) rfl
    simp [stringRows, StrMisc.pairwise] at this

/-- The value of a row of two points. -/
noncomputable def havCell (r : Option ℝ × Option ℝ × Option ℝ × Option ℝ) : Option ℝ := Haversine.row r.1 r.2.1 r.2.2.1 r.2.2.2

/-- A single row with a null in the second point. -/
def LonelyPoint (rows : List (Option ℝ × Option ℝ × Option ℝ × Option ℝ)) : Prop :=
  ∃ r, rows = [r] ∧ (r.2.2.1 = none ∨ r.2.2.2 = none)

theorem rows4_eq (rows : List (Option ℝ × Option ℝ × Option ℝ × Option ℝ)) :
    Haversine.rows4 (rows.map fun r => r.1) (rows.map fun r => r.2.1) (rows.map fun r => r.2.2.1)
      (rows.map fun r => r.2.2.2) = rows.map havCell := by
  induction rows with
  | nil => rfl
  | cons r t ih =>
    simp only [List.map_cons, Haversine.rows4, ih]
    rfl

theorem haversineRows_eq (rows : List (Option ℝ × Option ℝ × Option ℝ × Option ℝ)) (h : ¬ LonelyPoint rows) :
    haversineRows rows = some (rows.map havCell) := by
  unfold haversineRows
  match rows, h with
  | [], _ => rfl
  | [(x, y, none, d)], h => exact absurd ⟨_, rfl, Or.inl rfl⟩ h
  | [(x, y, some c, none)], h => exact absurd ⟨_, rfl, Or.inr rfl⟩ h
  | [(x, y, some c, some d)], _ => rfl
  | p :: q :: t, _ =>
    have : Haversine.naive ((p :: q :: t).map fun r => r.1) ((p :: q :: t).map fun r => r.2.1)
        ((p :: q :: t).map fun r => r.2.2.1) ((p :: q :: t).map fun r => r.2.2.2) = .ok ((p :: q :: t).map havCell) := by
      rw [← rows4_eq]
      unfold Haversine.naive
      simp
    rw [this]

/-- **C145 (partial).**  `haversine` can be evaluated in pieces, unless a piece is a single row whose second point has a
null. -/
theorem haversine_pieces_partial (a b : List (Option ℝ × Option ℝ × Option ℝ × Option ℝ)) (ha : ¬ LonelyPoint a)
    (hb : ¬ LonelyPoint b) :
    ∃ x y, haversineRows a = some x ∧ haversineRows b = some y ∧ haversineRows (a ++ b) = some (x ++ y) := by
  refine ⟨_, _, haversineRows_eq a ha, haversineRows_eq b hb, ?_⟩
  rw [haversineRows_eq, List.map_append]
  rintro ⟨r, hr, hn⟩
  rcases List.append_eq_singleton_iff.1 hr with ⟨_, h⟩ | ⟨h, _⟩
  · exact hb ⟨r, h, hn⟩
  · exact ha ⟨r, h, hn⟩

example : ∃ x y, haversineRows [(some 1, some 2, some 3, some 4)] = some x ∧
    haversineRows [(some 1, some 2, none, none), (none, none, none, none)] = some y ∧
    haversineRows ([(some 1, some 2, some 3, some 4)] ++ [(some 1, some 2, none, none), (none, none, none, none)]) =
      some (x ++ y) :=
  haversine_pieces_partial _ _ (by rintro ⟨r, h, h'⟩; simp at h; subst h; simp at h') (by rintro ⟨r, h, _⟩; simp at h)

/-- **C145 (disagreement).**  And if a filter leaves one row whose second point has a null, `haversine` panics. -/
theorem haversine_filter_panics :
    (∀ x y d, Haversine.naive [x] [y] [none] [d] = .panic ∧ Haversine.naive [x] [y] [d] [none] = .panic) ∧
    ¬ Filters haversineRows := by
  refine ⟨fun x y d => ⟨by cases d <;> rfl, by cases d <;> rfl⟩, fun h => ?_⟩
  have := h [(some 0, none, none, none), (none, none, none, none)] [none, none] (fun r => r.1.isSome) (by
    rw [haversineRows_eq _ (by rintro ⟨r, h, _⟩; simp at h)]
    rfl)
  simp [haversineRows, Haversine.naive] at this

/-- **C145.**  Functions of one column can be evaluated in pieces: truncation, fraction, stop words. -/
theorem unary_row_by_row :
    (RowByRow fun c : Col ℝ => match NumExpr.plTrunc (.float c) with
      | .float o => some o
      | .int _ => none) ∧
    (RowByRow fun c : Col ℤ => match NumExpr.plTrunc (.int c) with
      | .int o => some o
      | .float _ => none) ∧
    (RowByRow fun c : Col ℝ => some (NumExpr.plFract (.float c))) ∧
    (RowByRow fun c : Col ℤ => some (NumExpr.plFract (.int c))) ∧
    (RowByRow fun c => some (Stopword.isStopwordCol c)) := by
  refine ⟨fun a b => ?_, fun a b => ?_, fun a b => ?_, fun a b => ?_, fun a b => ?_⟩
  · simp [NumExpr.plTrunc, map1]
  · simp [NumExpr.plTrunc]
  · simp [NumExpr.plFract, map1]
  · simp [NumExpr.plFract, ← List.replicate_append_replicate]
  · simp [Stopword.isStopwordCol]

/-! ### Random columns -/

open Verif.Random Verif.Random.Spec in
/-- **C145 (disagreement).**  A random column with a seed starts its generator again in every piece: the shorter piece repeats
the longer one. -/
theorem random_restarts {K σ : Type} [LinearOrder K] (r : Rng K σ) (lo hi : K) (h : lo < hi) (seed : Option ℕ) (m k : ℕ)
    (hk : k ≤ m) :
    ∃ u, random r (.float lo) (.float hi) seed (.expr (.u32 (some m))) = .ok u ∧ u.length = m ∧
      random r (.float lo) (.float hi) seed (.expr (.u32 (some k))) = .ok (u.take k) := by
  have val : ∀ n, random r (.float lo) (.float hi) seed (.expr (.u32 (some n))) =
      .ok (take (r.unif lo hi) n (r.start seed)) := by
    intro n
    show (if lo < hi then _ else _) = _
    rw [if_pos h]
  have hlen : ∀ n s, (take (r.unif lo hi) n s).length = n := by
    intro n
    induction n with
    | zero => intro s; rfl
    | succ n ih => intro s; simp [take, ih]
  have htake : ∀ m k s, k ≤ m → take (r.unif lo hi) k s = (take (r.unif lo hi) m s).take k := by
    intro m
    induction m with
    | zero =>
      intro k s hk
      obtain rfl : k = 0 := by omega
      rfl
    | succ m ih =>
      intro k s hk
      cases k with
      | zero => rfl
      | succ k =>
        simp only [take, List.take_succ_cons]
        rw [ih k _ (by omega)]
  exact ⟨_, val m, hlen m _, by rw [val k, htake m k _ hk]⟩

open Verif.Random Verif.Random.Spec in
example : ∃ u, random ctr (.float 0) (.float 1) (some 3) (.expr (.u32 (some 5))) = .ok u ∧ u.length = 5 ∧
    random ctr (.float 0) (.float 1) (some 3) (.expr (.u32 (some 2))) = .ok (u.take 2) :=
  random_restarts ctr 0 1 (by norm_num) (some 3) 5 2 (by norm_num)

open Verif.Random Verif.Random.Spec in
/-- **C145 (disagreement).**  Random columns and noise, though announced as element-wise, are not functions of the row: with a
lawful generator and a seed they do not commute with filters. -/
theorem random_not_elementwise :
    ¬ Filters (fun rows : List (Option ℚ) =>
      (random ctr (.float 0) (.float 1) (some 3) (.expr (.u32 (some rows.length)))).toOption) ∧
    ¬ Filters (fun rows : List (Option ℚ) => (perturb ctr (some rows) 1 true (some 3)).toOption) ∧
    ¬ Filters (fun rows : List (Option ℚ) => (plJitter ctr (some rows) (.f64 (some 1)) (some 3)).toOption) := by
  refine ⟨fun h => ?_, fun h => ?_, fun h => ?_⟩
  · have := h [some 0, some 1] [3 / 10, 4 / 10] (fun r => decide (r = some 1)) (by decide +kernel)
    exact absurd this (by decide +kernel)
  · have := h [some 0, some 1] [some (3 / 10), some (14 / 10)] (fun r => decide (r = some 1)) (by decide +kernel)
    exact absurd this (by decide +kernel)
  · have := h [some 0, some 1] [some (-2), some 0] (fun r => decide (r = some 1)) (by decide +kernel)
    exact absurd this (by decide +kernel)

end Verif.RowWise
