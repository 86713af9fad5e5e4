import Verif.Model.Roc
import Verif.Spec.Roc
import Verif.Lemmas.Trapz
import Mathlib.Tactic.Linarith
import Mathlib.Tactic.FieldSimp
import Mathlib.Tactic.Ring

/-! # Lemmas: ROC curve -/
set_option linter.unusedSectionVars false

namespace Verif.Roc
open Verif

/-- Suffix sums. -/
def sufs : List Nat → List Nat
  | [] => []
  | a :: l => (a + l.sum) :: sufs l

theorem zip_cumSum : ∀ (l : List Nat) (acc n : Nat), n = acc + l.sum →
    List.zipWith (fun cs c => n - cs + c) (cumSum acc l) l = sufs l
  | [], _, _, _ => rfl
  | a :: l, acc, n, h => by
    simp only [List.sum_cons] at h
    simp only [cumSum, List.zipWith_cons_cons, sufs]
    rw [zip_cumSum l (acc + a) n (by omega), show n - (acc + a) + a = a + l.sum by omega]

theorem shift_cumSum : ∀ (l : List Nat) (acc p : Nat), l ≠ [] → p = acc + l.sum →
    (p - acc) :: ((cumSum acc l).map fun cs => p - cs).dropLast = sufs l
  | [], _, _, h, _ => (h rfl).elim
  | [a], acc, p, _, h => by
    simp at h; simp [cumSum, sufs]; omega
  | a :: b :: l, acc, p, _, h => by
    simp only [List.sum_cons] at h
    have ih := shift_cumSum (b :: l) (acc + a) p (by simp) (by simp only [List.sum_cons]; omega)
    rw [sufs, ← ih]
    simp only [cumSum, List.map_cons, List.dropLast_cons₂, List.sum_cons]
    rw [show p - acc = a + (b + l.sum) by omega]

section
variable {K : Type} [LinearOrder K]

theorem count_add_countP (S ts : List K) (t : K) (ht : t ∉ ts) :
    S.count t + (S.countP fun s => decide (s ∈ ts)) = S.countP fun s => decide (s ∈ t :: ts) := by
  induction S with
  | nil => rfl
  | cons s S ih =>
    rw [List.count_cons, List.countP_cons, List.countP_cons, ← ih]
    by_cases h1 : s = t
    · subst h1
      simp [ht]; omega
    · by_cases h2 : s ∈ ts
      · simp [h1, h2]; omega
      · simp [h1, h2]

theorem sum_count_eq (S ts : List K) (hn : ts.Nodup) :
    (ts.map fun t => S.count t).sum = S.countP fun s => decide (s ∈ ts) := by
  induction ts with
  | nil => simp
  | cons t ts ih =>
    rw [List.nodup_cons] at hn
    rw [List.map_cons, List.sum_cons, ih hn.2, count_add_countP S ts t hn.1]

theorem sufs_count (S : List K) : ∀ ts : List K, ts.Pairwise (· < ·) →
    (∀ s ∈ S, s ∈ ts ∨ ∀ t ∈ ts, s < t) →
    sufs (ts.map fun t => S.count t) = ts.map fun t => S.countP fun s => decide (t ≤ s) := by
  intro ts
  induction ts with
  | nil => intro _ _; rfl
  | cons t ts ih =>
    intro hp hS
    rw [List.pairwise_cons] at hp
    have hnd : (t :: ts).Nodup := by
      rw [List.nodup_cons]
      exact ⟨fun h => lt_irrefl _ (hp.1 t h), hp.2.imp (fun h => ne_of_lt h)⟩
    simp only [List.map_cons, sufs]
    rw [ih hp.2]
    · congr 1
      have := sum_count_eq S (t :: ts) hnd
      rw [List.map_cons, List.sum_cons] at this
      rw [this]
      apply List.countP_congr
      intro s hs
      simp only [decide_eq_true_eq]
      rcases hS s hs with h | h
      · refine ⟨fun _ => ?_, fun _ => h⟩
        rcases List.mem_cons.1 h with h | h
        · rw [h]
        · exact (hp.1 s h).le
      · have := h t (by simp)
        refine ⟨fun hm => ?_, fun hle => absurd hle (not_le.2 this)⟩
        exact absurd (h s hm) (lt_irrefl _)
    · intro s hs
      rcases hS s hs with h | h
      · rcases List.mem_cons.1 h with h | h
        · right; rw [h]; exact hp.1
        · exact .inl h
      · exact .inr fun u hu => h u (by simp [hu])

end

section
variable {K : Type} [Field K] [LinearOrder K]

/-- The distinct scores, ascending. -/
def thresholds (rows : List (K × Nat)) : List K :=
  (rows.map Prod.fst).dedup.insertionSort (· ≤ ·)

theorem mem_thresholds {rows : List (K × Nat)} {t : K} : t ∈ thresholds rows ↔ t ∈ rows.map Prod.fst := by
  unfold thresholds
  rw [List.mem_insertionSort, List.mem_dedup]

theorem thresholds_sorted (rows : List (K × Nat)) : (thresholds rows).Pairwise (· < ·) := by
  have h1 : (thresholds rows).Pairwise (· ≤ ·) := List.pairwise_insertionSort _ _
  have h2 : (thresholds rows).Nodup :=
    (List.perm_insertionSort _ _).nodup_iff.2 (List.nodup_dedup _)
  exact (h1.and h2).imp fun ⟨a, b⟩ => lt_of_le_of_ne a b

theorem cnt_eq (rows : List (K × Nat)) (t : K) :
    (rows.filter fun r => decide (r.1 = t)).length = (rows.map Prod.fst).count t := by
  induction rows with
  | nil => rfl
  | cons r rows ih =>
    rw [List.filter_cons, List.map_cons, List.count_cons]
    by_cases h : r.1 = t <;> simp [h, ih]

theorem pos_eq (rows : List (K × Nat)) (hb : ∀ r ∈ rows, r.2 = 0 ∨ r.2 = 1) (t : K) :
    ((rows.filter fun r => decide (r.1 = t)).map Prod.snd).sum = (Spec.positives rows).count t := by
  induction rows with
  | nil => rfl
  | cons r rows ih =>
    have ih := ih fun x hx => hb x (by simp [hx])
    unfold Spec.positives at ih ⊢
    rw [List.filter_cons, List.filter_cons]
    rcases hb r (by simp) with h1 | h1 <;> by_cases h : r.1 = t <;> simp [h, h1, ih]
    omega

theorem sum_snd (rows : List (K × Nat)) (hb : ∀ r ∈ rows, r.2 = 0 ∨ r.2 = 1) :
    (rows.map Prod.snd).sum = (Spec.positives rows).length := by
  induction rows with
  | nil => rfl
  | cons r rows ih =>
    have ih := ih fun x hx => hb x (by simp [hx])
    unfold Spec.positives at ih ⊢
    rw [List.filter_cons]
    rcases hb r (by simp) with h1 | h1 <;> simp [h1, ih]
    omega

theorem countP_split (rows : List (K × Nat)) (hb : ∀ r ∈ rows, r.2 = 0 ∨ r.2 = 1) (p : K → Bool) :
    rows.countP (fun r => p r.1) = (Spec.positives rows).countP p + (Spec.negatives rows).countP p := by
  induction rows with
  | nil => rfl
  | cons r rows ih =>
    have ih := ih fun x hx => hb x (by simp [hx])
    unfold Spec.positives Spec.negatives at ih ⊢
    rw [List.filter_cons, List.filter_cons, List.countP_cons]
    rcases hb r (by simp) with h1 | h1 <;> cases h : p r.1 <;> simp [h, h1] <;> simp at ih <;> omega

theorem length_split (rows : List (K × Nat)) (hb : ∀ r ∈ rows, r.2 = 0 ∨ r.2 = 1) :
    rows.length = (Spec.positives rows).length + (Spec.negatives rows).length := by
  have := countP_split rows hb (fun _ => true)
  simpa using this

/-- One row of the ROC frame in terms of counts. -/
def rocRow (rows : List (K × Nat)) (t : K) : FrameRow K :=
  ⟨t, Spec.recall rows t,
    (((Spec.negatives rows).countP fun s => decide (t ≤ s) : Nat) : K) / ((Spec.negatives rows).length : K),
    Spec.precision rows t⟩

theorem pos_mem {rows : List (K × Nat)} {s : K} (h : s ∈ Spec.positives rows) : s ∈ rows.map Prod.fst := by
  obtain ⟨r, hr, rfl⟩ := List.mem_map.1 h
  exact List.mem_map_of_mem (List.mem_filter.1 hr).1

theorem neg_mem {rows : List (K × Nat)} {s : K} (h : s ∈ Spec.negatives rows) : s ∈ rows.map Prod.fst := by
  obtain ⟨r, hr, rfl⟩ := List.mem_map.1 h
  exact List.mem_map_of_mem (List.mem_filter.1 hr).1

/-- The frame computed by cumulative sums is the table of counts at or above each distinct score. -/
theorem frame_eq (rows : List (K × Nat)) (hb : ∀ r ∈ rows, r.2 = 0 ∨ r.2 = 1) :
    frame rows (Spec.positives rows).length = (thresholds rows).map (rocRow rows) := by
  set ts := thresholds rows with hts
  have hsort := thresholds_sorted rows
  rw [← hts] at hsort
  have hg : groups rows = ts.map fun t =>
      (⟨t, (rows.map Prod.fst).count t, (Spec.positives rows).count t⟩ : Group K) := by
    unfold groups
    rw [hts, thresholds]
    apply List.map_congr_left
    intro t _
    rw [cnt_eq, pos_eq rows hb]
  have hnd : ts.Nodup := hsort.imp fun h => ne_of_lt h
  have hcnt_sum : (ts.map fun t => (rows.map Prod.fst).count t).sum = rows.length := by
    rw [sum_count_eq _ _ hnd, List.countP_eq_length.2]
    · simp
    · intro s hs; simpa [hts, mem_thresholds] using hs
  have hpos_sum : (ts.map fun t => (Spec.positives rows).count t).sum = (Spec.positives rows).length := by
    rw [sum_count_eq _ _ hnd, List.countP_eq_length.2]
    intro s hs
    simpa [hts, mem_thresholds] using pos_mem hs
  have hpp : predictedPositive rows.length (groups rows) =
      ts.map fun t => rows.countP fun r => decide (t ≤ r.1) := by
    unfold predictedPositive
    rw [hg, List.map_map]
    have hz := zip_cumSum (ts.map fun t => (rows.map Prod.fst).count t) 0 rows.length (by omega)
    have hs := sufs_count (rows.map Prod.fst) ts hsort (fun s hs => .inl (mem_thresholds.2 hs))
    rw [hs] at hz
    refine Eq.trans hz ?_
    apply List.map_congr_left
    intro t _
    rw [List.countP_map]
    rfl
  have htp : tpCol (Spec.positives rows).length (groups rows) =
      ts.map fun t => (Spec.positives rows).countP fun s => decide (t ≤ s) := by
    unfold tpCol
    rw [hg, List.map_map]
    have hs := sufs_count (Spec.positives rows) ts hsort (fun s hs => .inl (mem_thresholds.2 (pos_mem hs)))
    rcases Nat.eq_zero_or_pos ts.length with h0 | h0
    · rw [List.length_eq_zero_iff.1 h0]; rfl
    · have hz := shift_cumSum (ts.map fun t => (Spec.positives rows).count t) 0 (Spec.positives rows).length
        (by intro h; simp at h; simp [h] at h0) (by omega)
      rw [hs, Nat.sub_zero] at hz
      rw [← hz]
      obtain ⟨t0, ts', ht⟩ := List.exists_cons_of_ne_nil (List.ne_nil_of_length_pos h0)
      simp [ht, cumSum, shiftFill, Function.comp_def]
  have hneg : ∀ t, (rows.countP fun r => decide (t ≤ r.1)) -
      ((Spec.positives rows).countP fun s => decide (t ≤ s)) =
      (Spec.negatives rows).countP fun s => decide (t ≤ s) := by
    intro t
    have := countP_split rows hb (fun s => decide (t ≤ s))
    omega
  unfold frame
  simp only [hpp, htp]
  have hfp : List.zipWith (· - ·) (ts.map fun t => rows.countP fun r => decide (t ≤ r.1))
      (ts.map fun t => (Spec.positives rows).countP fun s => decide (t ≤ s)) =
      ts.map fun t => (Spec.negatives rows).countP fun s => decide (t ≤ s) := by
    rw [List.zipWith_map, List.zipWith_self]
    apply List.map_congr_left
    intro t _
    exact hneg t
  rw [hfp, hg, List.map_map]
  have hz : ∀ (ts : List K) (f g h : K → Nat) (F : K → Nat × Nat × Nat → FrameRow K),
      List.zipWith F ts ((ts.map f).zip ((ts.map g).zip (ts.map h))) =
        ts.map fun t => F t (f t, g t, h t) := by
    intro ts f g h F
    induction ts with
    | nil => rfl
    | cons t ts ih => simp [ih]
  have hid : ((fun g : Group K => g.threshold) ∘ fun t =>
      (⟨t, (rows.map Prod.fst).count t, (Spec.positives rows).count t⟩ : Group K)) = id := rfl
  rw [hid, List.map_id, hz]
  cases hc : ts with
  | nil => rfl
  | cons t0 ts' =>
    have hmin : ∀ s ∈ rows.map Prod.fst, t0 ≤ s := by
      intro s hs
      have : s ∈ ts := by rw [hts]; exact mem_thresholds.2 hs
      rw [hc] at this hsort
      rcases List.mem_cons.1 this with h | h
      · rw [h]
      · exact ((List.pairwise_cons.1 hsort).1 s h).le
    have e1 : ((Spec.positives rows).countP fun s => decide (t0 ≤ s)) = (Spec.positives rows).length :=
      List.countP_eq_length.2 fun s hs => by simpa using hmin s (pos_mem hs)
    have e2 : ((Spec.negatives rows).countP fun s => decide (t0 ≤ s)) = (Spec.negatives rows).length :=
      List.countP_eq_length.2 fun s hs => by simpa using hmin s (neg_mem hs)
    apply List.map_congr_left
    intro t _
    simp only [List.map_cons, List.head?_cons, Option.getD_some, e1, e2]
    rfl

end

section
variable {K : Type} [Field K] [LinearOrder K] [IsStrictOrderedRing K]

theorem sum_filter_split (l : List K) (f : K → K) (p q r : K → Bool)
    (h : ∀ s ∈ l, (p s = true ↔ q s = true ∨ r s = true) ∧ ¬ (q s = true ∧ r s = true)) :
    ((l.filter p).map f).sum = ((l.filter q).map f).sum + ((l.filter r).map f).sum := by
  induction l with
  | nil => simp
  | cons s l ih =>
    have ih := ih fun x hx => h x (by simp [hx])
    have hs := h s (by simp)
    rw [List.filter_cons, List.filter_cons, List.filter_cons]
    cases hp : p s <;> cases hq : q s <;> cases hr : r s <;> simp [hp, hq, hr] at hs ⊢ <;>
      rw [ih] <;> ring

theorem length_filter_split (l : List K) (p q r : K → Bool)
    (h : ∀ s ∈ l, (p s = true ↔ q s = true ∨ r s = true) ∧ ¬ (q s = true ∧ r s = true)) :
    ((l.countP p : Nat) : K) = (l.countP q : Nat) + (l.countP r : Nat) := by
  have := sum_filter_split l (fun _ => (1 : K)) p q r h
  simpa [List.countP_eq_length_filter] using this

theorem wins_add_left (xs xs1 xs2 ys : List K)
    (h : ∀ f : K → K, (xs.map f).sum = (xs1.map f).sum + (xs2.map f).sum) :
    MWU.Spec.wins xs ys = MWU.Spec.wins xs1 ys + MWU.Spec.wins xs2 ys := h _

theorem wins_add_right (xs ys ys1 ys2 : List K)
    (h : ∀ f : K → K, (ys.map f).sum = (ys1.map f).sum + (ys2.map f).sum) :
    MWU.Spec.wins xs ys = MWU.Spec.wins xs ys1 + MWU.Spec.wins xs ys2 := by
  unfold MWU.Spec.wins
  rw [← List.sum_map_add]
  congr 1
  apply List.map_congr_left
  intro x _
  exact h _

theorem wins_const (xs ys : List K) (c : K) (h : ∀ x ∈ xs, ∀ y ∈ ys, MWU.Spec.score x y = c) :
    MWU.Spec.wins xs ys = xs.length * ys.length * c := by
  unfold MWU.Spec.wins
  have : ∀ x ∈ xs, (ys.map fun y => MWU.Spec.score x y).sum = ys.length * c := by
    intro x hx
    rw [List.map_congr_left (g := fun _ => c) (fun y hy => h x hx y hy)]
    simp
  rw [List.map_congr_left this]
  simp [mul_assoc]

/-- Area under the staircase of counts over ascending thresholds. -/
theorem area_counts (P N : List K) (m : K) : ∀ (ts : List K) (t : K), (t :: ts).getLast? = some m →
    (t :: ts).Pairwise (· < ·) →
    (∀ s ∈ P, s ∈ t :: ts ∨ ∀ u ∈ t :: ts, s < u) → (∀ s ∈ N, s ∈ t :: ts ∨ ∀ u ∈ t :: ts, s < u) →
    -(Trapz.Spec.area ((t :: ts).map fun t => (((N.countP fun s => decide (t ≤ s) : Nat) : K),
        ((P.countP fun s => decide (t ≤ s) : Nat) : K)))) +
      (P.countP fun s => decide (m ≤ s) : Nat) * (N.countP fun s => decide (m ≤ s) : Nat) / 2 =
    MWU.Spec.wins (P.filter fun s => decide (t ≤ s)) (N.filter fun s => decide (t ≤ s)) := by
  intro ts
  induction ts with
  | nil =>
      intro t hm hp hP hN
      have hm : t = m := by simpa using hm
      subst hm
      rw [wins_const _ _ (1 / 2)]
      · simp [Trapz.Spec.area, List.countP_eq_length_filter]
        ring
      · intro x hx y hy
        have h1 : x = t := by
          have hm := List.mem_filter.1 hx
          have h2 : t ≤ x := by simpa using hm.2
          rcases hP x hm.1 with h | h
          · simpa using h
          · exact absurd (h t (by simp)) (not_lt.2 h2)
        have h2 : y = t := by
          have hm := List.mem_filter.1 hy
          have h2 : t ≤ y := by simpa using hm.2
          rcases hN y hm.1 with h | h
          · simpa using h
          · exact absurd (h t (by simp)) (not_lt.2 h2)
        rw [h1, h2]
        simp [MWU.Spec.score]
  | cons u ts ih =>
      intro t hm hp hP hN
      have hp' := List.pairwise_cons.1 hp
      have htu : t < u := hp'.1 u (by simp)
      have huall : ∀ v ∈ u :: ts, u ≤ v := by
        intro v hv
        rcases List.mem_cons.1 hv with h | h
        · rw [h]
        · exact ((List.pairwise_cons.1 hp'.2).1 v h).le
      have step : ∀ S : List K, (∀ s ∈ S, s ∈ t :: u :: ts ∨ ∀ v ∈ t :: u :: ts, s < v) →
          ∀ s ∈ S, s ∈ u :: ts ∨ ∀ v ∈ u :: ts, s < v := by
        intro S hS s hs
        rcases hS s hs with h | h
        · rcases List.mem_cons.1 h with h | h
          · exact .inr fun v hv => by rw [h]; exact hp'.1 v hv
          · exact .inl h
        · exact .inr fun v hv => h v (by simp only [List.mem_cons] at hv ⊢; exact .inr hv)
      have split : ∀ S : List K, (∀ s ∈ S, s ∈ t :: u :: ts ∨ ∀ v ∈ t :: u :: ts, s < v) →
          ∀ s ∈ S, (decide (t ≤ s) = true ↔ decide (s = t) = true ∨ decide (u ≤ s) = true) ∧
            ¬ (decide (s = t) = true ∧ decide (u ≤ s) = true) := by
        intro S hS s hs
        simp only [decide_eq_true_eq]
        refine ⟨⟨fun hle => ?_, fun h => ?_⟩, fun ⟨h1, h2⟩ => ?_⟩
        · rcases hS s hs with h | h
          · rcases List.mem_cons.1 h with h | h
            · exact .inl h
            · exact .inr (huall s h)
          · exact absurd (h t (by simp)) (not_lt.2 hle)
        · rcases h with h | h
          · rw [h]
          · exact htu.le.trans h
        · rw [h1] at h2; exact absurd htu (not_lt.2 h2)
      have ih := ih u (by simpa [List.getLast?_cons_cons] using hm) hp'.2 (step P hP) (step N hN)
      have hA := length_filter_split (K := K) P _ _ _ (split P hP)
      have hB := length_filter_split (K := K) N _ _ _ (split N hN)
      rw [wins_add_left _ _ _ _ (fun f => sum_filter_split P f _ _ _ (split P hP)),
        wins_add_right _ _ _ _ (fun f => sum_filter_split N f _ _ _ (split N hN)),
        wins_add_right (P.filter fun s => decide (u ≤ s)) _ _ _
          (fun f => sum_filter_split N f _ _ _ (split N hN)), ← ih]
      rw [wins_const (P.filter fun s => decide (s = t)) (N.filter fun s => decide (s = t)) (1 / 2),
        wins_const (P.filter fun s => decide (s = t)) (N.filter fun s => decide (u ≤ s)) 0,
        wins_const (P.filter fun s => decide (u ≤ s)) (N.filter fun s => decide (s = t)) 1]
      · simp only [List.map_cons, Trapz.Spec.area, ← List.countP_eq_length_filter]
        rw [hA, hB]
        ring
      · intro x hx y hy
        have hx := (List.mem_filter.1 hx).2
        have hy := (List.mem_filter.1 hy).2
        simp only [decide_eq_true_eq] at hx hy
        unfold MWU.Spec.score
        rw [if_pos (by rw [hy]; exact lt_of_lt_of_le htu hx)]
      · intro x hx y hy
        have hx := (List.mem_filter.1 hx).2
        have hy := (List.mem_filter.1 hy).2
        simp only [decide_eq_true_eq] at hx hy
        have : x < y := by rw [hx]; exact lt_of_lt_of_le htu hy
        unfold MWU.Spec.score
        rw [if_neg (not_lt.2 this.le), if_neg this.ne']
      · intro x hx y hy
        have hx := (List.mem_filter.1 hx).2
        have hy := (List.mem_filter.1 hy).2
        simp only [decide_eq_true_eq] at hx hy
        unfold MWU.Spec.score
        rw [hx, hy, if_neg (lt_irrefl _), if_pos rfl]

theorem area_scale (a b : K) : ∀ l : List (K × K),
    Trapz.Spec.area (l.map fun p => (p.1 / a, p.2 / b)) = Trapz.Spec.area l / (a * b)
  | [] => by simp [Trapz.Spec.area]
  | [_] => by simp [Trapz.Spec.area]
  | p :: q :: l => by
    have ih := area_scale a b (q :: l)
    simp only [List.map_cons, Trapz.Spec.area] at ih ⊢
    rw [ih]
    by_cases ha : a = 0
    · simp [ha]
    by_cases hb : b = 0
    · simp [hb]
    field_simp

theorem avgPrecision_fold : ∀ (l : List ((K × K) × K)) (a : K),
    l.foldl (fun acc p => (p.1.2 - p.1.1) * p.2 + acc) a =
      a + (l.map fun p => (p.1.2 - p.1.1) * p.2).sum
  | [], a => by simp
  | p :: l, a => by
    rw [List.foldl_cons, avgPrecision_fold l, List.map_cons, List.sum_cons]; ring

theorem avgPrecision_rows (rows : List (K × Nat)) (m : K) : ∀ (ts : List K) (t : K),
    (t :: ts).getLast? = some m →
    avgPrecision ((t :: ts).map (rocRow rows)) = Spec.avgPrecision rows (t :: ts) -
      Spec.recall rows m * Spec.precision rows m
  | [], t, hm => by
    have hm : t = m := by simpa using hm
    subst hm
    simp [avgPrecision, Spec.avgPrecision]
  | u :: ts, t, hm => by
    have ih := avgPrecision_rows rows m ts u (by simpa [List.getLast?_cons_cons] using hm)
    unfold avgPrecision at ih ⊢
    rw [avgPrecision_fold] at ih ⊢
    simp only [List.map_cons, List.tail_cons, List.zip_cons_cons, List.sum_cons, Spec.avgPrecision] at ih ⊢
    rw [show ∀ a b c : K, a + b - c = a + (b - c) from fun a b c => by ring, ← ih]
    simp only [rocRow]
    ring

theorem checked_map (rows : List (K × Nat)) (hne : rows ≠ []) :
    checked (rows.map fun r => some r.1) (rows.map fun r => some r.2) = some rows := by
  unfold checked
  rw [if_neg]
  · have h1 : (rows.map fun r => some r.1) = (rows.map Prod.fst).map some := by simp
    have h2 : (rows.map fun r => some r.2) = (rows.map Prod.snd).map some := by simp
    have h3 : ((rows.map Prod.snd).map some).mapM id = some (rows.map Prod.snd) := by
      generalize rows.map Prod.snd = l
      induction l with
      | nil => rfl
      | cons a l ih => simp [ih]
    rw [h1, h2, Trapz.mapM_id_some, h3]
    simp only [Option.some.injEq]
    exact (List.zip_of_prod rfl rfl).symm
  · simp [hne]

theorem filterMap_some_snd (rows : List (K × Nat)) :
    ((rows.map fun r => some r.2).filterMap id) = rows.map Prod.snd := by
  induction rows with
  | nil => rfl
  | cons r rows ih => simp only [List.map_cons, List.filterMap_cons, id]; exact congrArg _ ih

end

end Verif.Roc
