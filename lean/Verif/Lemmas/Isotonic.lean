import Verif.Model.Isotonic
import Verif.Spec.Isotonic
import Mathlib.Data.List.Basic
import Mathlib.Data.List.Sort
import Mathlib.Data.List.TakeWhile
import Mathlib.Tactic.Ring
import Mathlib.Tactic.FieldSimp
import Mathlib.Tactic.Linarith
import Mathlib.Tactic.Positivity

set_option linter.unusedSectionVars false
set_option linter.unusedVariables false

namespace Verif.Iso
variable {K : Type} [Field K] [LinearOrder K] [IsStrictOrderedRing K]

def wt (B : List (K × K)) : K := (B.map (·.2)).sum
def sm (B : List (K × K)) : K := (B.map fun p => p.2 * p.1).sum
/-- Sum of weighted deviations from `v`. -/
def dev (v : K) (B : List (K × K)) : K := (B.map fun p => p.2 * (p.1 - v)).sum

theorem mean_eq (B : List (K × K)) : Spec.mean B = sm B / wt B := rfl

@[simp] theorem wt_append (A B : List (K × K)) : wt (A ++ B) = wt A + wt B := by simp [wt]
@[simp] theorem sm_append (A B : List (K × K)) : sm (A ++ B) = sm A + sm B := by simp [sm]
theorem dev_append (v : K) (A B : List (K × K)) : dev v (A ++ B) = dev v A + dev v B := by simp [dev]
theorem dev_eq (v : K) (B : List (K × K)) : dev v B = sm B - v * wt B := by
  induction B with
  | nil => simp [dev, sm, wt]
  | cons p B ih =>
    simp only [dev, sm, wt, List.map_cons, List.sum_cons] at ih ⊢
    rw [ih]; ring

theorem wt_nonneg {B : List (K × K)} (h : ∀ p ∈ B, 0 < p.2) : 0 ≤ wt B := by
  apply List.sum_nonneg
  intro x hx
  obtain ⟨p, hp, rfl⟩ := List.mem_map.1 hx
  exact le_of_lt (h p hp)

theorem wt_pos {B : List (K × K)} (hne : B ≠ []) (h : ∀ p ∈ B, 0 < p.2) : 0 < wt B := by
  cases B with
  | nil => exact absurd rfl hne
  | cons p B =>
    simp only [wt, List.map_cons, List.sum_cons]
    have h1 := h p (by simp)
    have h2 := wt_nonneg (B := B) (fun q hq => h q (by simp [hq]))
    simp only [wt] at h2
    linarith

/-- A pooled block: non-empty, positive weights, and every prefix lies on average at or above the mean. -/
structure Good (B : List (K × K)) : Prop where
  ne : B ≠ []
  pos : ∀ p ∈ B, 0 < p.2
  pre : ∀ k, 0 ≤ dev (Spec.mean B) (B.take k)

theorem Good.wpos {B : List (K × K)} (h : Good B) : 0 < wt B := wt_pos h.ne h.pos

theorem Good.total {B : List (K × K)} (h : Good B) : dev (Spec.mean B) B = 0 := by
  rw [dev_eq, mean_eq, div_mul_cancel₀ _ (ne_of_gt h.wpos), sub_self]

theorem good_singleton (p : K × K) (h : 0 < p.2) : Good [p] := by
  have hm : Spec.mean [p] = p.1 := by
    simp only [mean_eq, sm, wt, List.map_cons, List.map_nil, List.sum_cons, List.sum_nil, add_zero]
    field_simp
  refine ⟨by simp, by simpa using h, fun k => ?_⟩
  rw [hm]
  cases k with
  | zero => simp [dev]
  | succ k => simp [dev]

theorem mean_merge {A B : List (K × K)} (hA : 0 < wt A) (hB : 0 < wt B) (h : Spec.mean B ≤ Spec.mean A) :
    Spec.mean (A ++ B) ≤ Spec.mean A ∧ Spec.mean B ≤ Spec.mean (A ++ B) := by
  simp only [mean_eq, sm_append, wt_append] at *
  rw [div_le_div_iff₀ hB hA] at h
  constructor
  · rw [div_le_div_iff₀ (by linarith) hA]; linarith
  · rw [div_le_div_iff₀ hB (by linarith)]; linarith

theorem good_merge {A B : List (K × K)} (hA : Good A) (hB : Good B) (h : Spec.mean B ≤ Spec.mean A) :
    Good (A ++ B) := by
  obtain ⟨m1, m2⟩ := mean_merge hA.wpos hB.wpos h
  have hpos : ∀ p ∈ A ++ B, 0 < p.2 := by
    intro p hp
    rcases List.mem_append.1 hp with hp | hp
    · exact hA.pos p hp
    · exact hB.pos p hp
  have hne : A ++ B ≠ [] := by simp [hA.ne]
  refine ⟨hne, hpos, fun k => ?_⟩
  have shift : ∀ (v v' : K) (C : List (K × K)), dev v' C = dev v C + (v - v') * wt C := by
    intro v v' C; rw [dev_eq, dev_eq]; ring
  set m := Spec.mean (A ++ B)
  rw [List.take_append]
  rcases Nat.le_total k A.length with hk | hk
  · have : k - A.length = 0 := by omega
    rw [this, List.take_zero, List.append_nil, shift (Spec.mean A) m]
    have w0 : 0 ≤ wt (A.take k) := wt_nonneg fun p hp => hA.pos p (List.mem_of_mem_take hp)
    have := hA.pre k
    have := mul_nonneg (sub_nonneg.2 m1) w0
    linarith
  · rw [List.take_of_length_le hk]
    have htot : dev m (A ++ B) = 0 := by
      rw [dev_eq]
      have : m * wt (A ++ B) = sm (A ++ B) := div_mul_cancel₀ _ (ne_of_gt (wt_pos hne hpos))
      rw [this, sub_self]
    set j := k - A.length
    have hsplit : dev m (A ++ B.take j) = - dev m (B.drop j) := by
      have : dev m (A ++ B) = dev m (A ++ B.take j) + dev m (B.drop j) := by
        rw [← dev_append, List.append_assoc, List.take_append_drop]
      linarith
    rw [hsplit, shift (Spec.mean B) m]
    have hd : dev (Spec.mean B) (B.drop j) ≤ 0 := by
      have h1 := hB.total
      have h2 := hB.pre j
      have : dev (Spec.mean B) B = dev (Spec.mean B) (B.take j) + dev (Spec.mean B) (B.drop j) := by
        rw [← dev_append, List.take_append_drop]
      linarith
    have w0 : 0 ≤ wt (B.drop j) := wt_nonneg fun p hp => hB.pos p (List.mem_of_mem_drop hp)
    have := mul_nonneg (sub_nonneg.2 m2) w0
    linarith

theorem mean_singleton (p : K × K) (h : 0 < p.2) : Spec.mean [p] = p.1 := by
  simp only [mean_eq, sm, wt, List.map_cons, List.map_nil, List.sum_cons, List.sum_nil, add_zero]
  field_simp

theorem mean_mul_wt {B : List (K × K)} (h : 0 < wt B) : wt B * Spec.mean B = sm B := by
  rw [mean_eq, mul_comm, div_mul_cancel₀ _ (ne_of_gt h)]

/-! ### The two pooling loops -/

theorem fwd_spec (x w : List K) (data : List (K × K))
    (hpos : ∀ p ∈ data, 0 < p.2) :
    ∀ (m i : Nat) (C : List (K × K)), i + 1 + m = data.length →
    (∀ j p, i < j → data[j]? = some p → x[j]? = some p.1 ∧ w[j]? = some p.2) → Good C →
    ∃ i' C', fwd x w m i (sm C) (wt C) (Spec.mean C) = some (i', sm C', wt C', Spec.mean C') ∧
      i ≤ i' ∧ i' < i + 1 + m ∧ C' = C ++ (data.drop (i + 1)).take (i' - i) ∧ Good C' := by
  intro m
  induction m with
  | zero =>
    intro i C hm hr hC
    exact ⟨i, C, rfl, le_refl _, by omega, by simp, hC⟩
  | succ m ih =>
    intro i C hm hr hC
    have hi : i + 1 < data.length := by omega
    obtain ⟨hx, hw⟩ := hr (i + 1) data[i + 1] (by omega) (by simp)
    simp only [fwd, hx, hw]
    have hpp : 0 < (data[i + 1]).2 := hpos _ (List.getElem_mem hi)
    by_cases hle : (data[i + 1]).1 ≤ Spec.mean C
    · rw [if_pos hle]
      have hC' : Good (C ++ [data[i + 1]]) := good_merge hC (good_singleton _ hpp)
        (by rw [mean_singleton _ hpp]; exact hle)
      have e1 : sm C + (data[i + 1]).2 * (data[i + 1]).1 = sm (C ++ [data[i + 1]]) := by
        rw [sm_append]; simp [sm]
      have e2 : wt C + (data[i + 1]).2 = wt (C ++ [data[i + 1]]) := by
        rw [wt_append]; simp [wt]
      rw [e1, e2]
      obtain ⟨i', C', h1, h2, h3, h4, h5⟩ := ih (i + 1) (C ++ [data[i + 1]]) (by omega)
        (fun j p hj => hr j p (by omega)) hC'
      refine ⟨i', C', h1, by omega, by omega, ?_, h5⟩
      rw [h4, List.append_assoc]
      congr 1
      have : i' - i = (i' - (i + 1)) + 1 := by omega
      rw [this, List.drop_eq_getElem_cons hi, List.take_succ_cons]
      rfl
    · rw [if_neg hle]
      exact ⟨i, C, rfl, le_refl _, by omega, by simp, hC⟩

theorem bwd_spec (x w : List K) :
    ∀ (bs : List (List (K × K))) (C : List (K × K)),
    x.take bs.length = bs.map Spec.mean → w.take bs.length = bs.map wt →
    (∀ B ∈ bs, Good B) → Good C →
    ∃ bs' C', bwd x w bs.length (sm C) (wt C) (Spec.mean C) = some (bs'.length, sm C', wt C', Spec.mean C') ∧
      (∃ mid, bs = bs' ++ mid ∧ C' = mid.flatten ++ C) ∧ Good C' ∧
      (∀ B, bs'.getLast? = some B → Spec.mean B < Spec.mean C') := by
  intro bs
  induction bs using List.reverseRecOn with
  | nil =>
    intro C _ _ _ hC
    exact ⟨[], C, rfl, ⟨[], rfl, rfl⟩, hC, by simp⟩
  | append_singleton bs B ih =>
    intro C hx hw hg hC
    have hlen : (bs ++ [B]).length = bs.length + 1 := by simp
    rw [hlen] at hx hw ⊢
    have hxb : x[bs.length]? = some (Spec.mean B) := by
      have : (x.take (bs.length + 1))[bs.length]? = some (Spec.mean B) := by rw [hx]; simp
      rwa [List.getElem?_take_of_lt (by omega)] at this
    have hwb : w[bs.length]? = some (wt B) := by
      have : (w.take (bs.length + 1))[bs.length]? = some (wt B) := by rw [hw]; simp
      rwa [List.getElem?_take_of_lt (by omega)] at this
    have hx' : x.take bs.length = bs.map Spec.mean := by
      have := congrArg (List.take bs.length) hx
      rwa [List.take_take, Nat.min_eq_left (by omega), List.map_append,
        List.take_left' (by simp)] at this
    have hw' : w.take bs.length = bs.map wt := by
      have := congrArg (List.take bs.length) hw
      rwa [List.take_take, Nat.min_eq_left (by omega), List.map_append,
        List.take_left' (by simp)] at this
    simp only [bwd, hxb, hwb]
    have hB : Good B := hg B (by simp)
    by_cases hle : Spec.mean C ≤ Spec.mean B
    · rw [if_pos hle]
      have hC' := good_merge hB hC hle
      have e1 : sm C + wt B * Spec.mean B = sm (B ++ C) := by
        rw [sm_append, mean_mul_wt hB.wpos]; ring
      have e2 : wt C + wt B = wt (B ++ C) := by rw [wt_append]; ring
      rw [e1, e2]
      obtain ⟨bs', C', h1, ⟨mid, h2, h3⟩, h4, h5⟩ := ih (B ++ C) hx' hw'
        (fun A hA => hg A (by simp [hA])) hC'
      refine ⟨bs', C', h1, ⟨mid ++ [B], by rw [h2]; simp, ?_⟩, h4, h5⟩
      rw [h3]; simp
    · rw [if_neg hle]
      refine ⟨bs ++ [B], C, by simp, ⟨[], by simp, by simp⟩, hC, ?_⟩
      intro A hA
      simp only [List.getLast?_append, List.getLast?_singleton, Option.some_or, Option.some.injEq] at hA
      subst hA
      exact not_le.1 hle

/-! ### The main loop -/

/-- Boundaries of the blocks: the start of each, and the end of the last. -/
def bounds : Nat → List (List (K × K)) → List Nat
  | o, [] => [o]
  | o, B :: bs => o :: bounds (o + B.length) bs

theorem bounds_length (bs : List (List (K × K))) : ∀ o, (bounds o bs).length = bs.length + 1 := by
  induction bs with
  | nil => intro o; rfl
  | cons B bs ih => intro o; simp [bounds, ih]

theorem bounds_snoc (a : List (List (K × K))) (C : List (K × K)) : ∀ o,
    bounds o (a ++ [C]) = bounds o a ++ [o + a.flatten.length + C.length] := by
  induction a with
  | nil => intro o; simp [bounds]
  | cons B a ih =>
    intro o
    simp only [List.cons_append, bounds, ih, List.flatten_cons, List.length_append]
    rw [Nat.add_assoc o]

theorem bounds_take (a b : List (List (K × K))) : ∀ o,
    (bounds o (a ++ b)).take (a.length + 1) = bounds o a := by
  induction a with
  | nil => intro o; cases b <;> simp [bounds]
  | cons B a ih => intro o; simp [bounds, ih]

/-- Relation between the buffers and the list of blocks. -/
structure Inv (data : List (K × K)) (bs : List (List (K × K))) (s : St K) : Prop where
  xlen : s.x.length = data.length
  wlen : s.w.length = data.length
  rlen : s.r.length = data.length + 1
  b_eq : s.b + 1 = bs.length
  i_le : s.i ≤ data.length
  pref : bs.flatten = data.take s.i
  xb : s.x.take (s.b + 1) = bs.map Spec.mean
  wb : s.w.take (s.b + 1) = bs.map wt
  rb : s.r.take (s.b + 2) = bounds 0 bs
  rest : ∀ j p, s.i ≤ j → data[j]? = some p → s.x[j]? = some p.1 ∧ s.w[j]? = some p.2
  good : ∀ B ∈ bs, Good B
  incr : (bs.map Spec.mean).Pairwise (· < ·)
  xp : bs.getLast?.map Spec.mean = some s.xp
  wp : bs.getLast?.map wt = some s.wp

theorem take_set_eq {α : Type} (l : List α) (b : Nat) (v : α) (h : b < l.length) :
    (l.set b v).take (b + 1) = l.take b ++ [v] := by
  apply List.ext_getElem?
  intro j
  rcases Nat.lt_trichotomy j b with hj | hj | hj
  · rw [List.getElem?_take_of_lt (by omega), List.getElem?_set_ne (by omega),
      List.getElem?_append_left (by rw [List.length_take]; omega), List.getElem?_take_of_lt hj]
  · subst hj
    rw [List.getElem?_take_of_lt (by omega), List.getElem?_set_self h,
      List.getElem?_append_right (by rw [List.length_take]; omega)]
    simp [Nat.min_eq_left (le_of_lt h)]
  · rw [List.getElem?_eq_none (by rw [List.length_take]; omega),
      List.getElem?_eq_none (by rw [List.length_append, List.length_take]; simp; omega)]

/-- Storing a new last block re-establishes the invariant. -/
theorem store_inv {data : List (K × K)} {bs : List (List (K × K))} {s : St K} (h : Inv data bs s)
    (bs1 : List (List (K × K))) (C : List (K × K)) (i' : Nat) (rest : List (List (K × K)))
    (hbs : bs = bs1 ++ rest) (hi' : i' < data.length) (hii : s.i ≤ i')
    (hflat : bs1.flatten ++ C = data.take (i' + 1))
    (hC : Good C) (hlast : ∀ B, bs1.getLast? = some B → Spec.mean B < Spec.mean C)
    (hb : bs1.length ≤ s.i) :
    ∃ s', store s bs1.length i' (wt C) (Spec.mean C) = some s' ∧ Inv data (bs1 ++ [C]) s' ∧
      s.i < s'.i := by
  have hb1 : bs1.length < s.x.length := by rw [h.xlen]; omega
  have hb2 : bs1.length < s.w.length := by rw [h.wlen]; omega
  have hb3 : bs1.length + 1 < s.r.length := by rw [h.rlen]; omega
  have hbl : bs1.length ≤ s.b + 1 := by rw [h.b_eq, hbs]; simp
  have tk : ∀ {α : Type} (l : List α) (f : List (K × K) → α), l.take (s.b + 1) = bs.map f →
      l.take bs1.length = bs1.map f := by
    intro α l f hl
    have := congrArg (List.take bs1.length) hl
    rwa [List.take_take, Nat.min_eq_left hbl, hbs, List.map_append,
      List.take_left' (by simp)] at this
  refine ⟨_, by rw [store, if_pos ⟨hb1, hb2, hb3⟩], ?_, by simp; omega⟩
  constructor
  · simpa using h.xlen
  · simpa using h.wlen
  · simpa using h.rlen
  · simp
  · exact hi'
  · simpa using hflat
  · simp only
    rw [take_set_eq _ _ _ hb1, tk s.x Spec.mean h.xb]; simp
  · simp only
    rw [take_set_eq _ _ _ hb2, tk s.w wt h.wb]; simp
  · simp only
    rw [take_set_eq _ _ _ hb3, bounds_snoc]
    have hr0 := congrArg (List.take (bs1.length + 1)) h.rb
    rw [List.take_take, Nat.min_eq_left (by omega), hbs, bounds_take] at hr0
    rw [hr0]
    have := congrArg List.length hflat
    rw [List.length_append, List.length_take] at this
    congr 2
    omega
  · intro j p hj hp
    have := h.rest j p (by simp at hj; omega) hp
    simp only at hj ⊢
    rw [List.getElem?_set_ne (by omega), List.getElem?_set_ne (by omega)]
    exact this
  · intro B hB
    rcases List.mem_append.1 hB with hB | hB
    · exact h.good B (by rw [hbs]; simp [hB])
    · rw [List.mem_singleton.1 hB]; exact hC
  · have hinc := h.incr
    rw [hbs, List.map_append, List.pairwise_append] at hinc
    rw [List.map_append, List.pairwise_append]
    refine ⟨hinc.1, by simp, ?_⟩
    intro a ha c hc
    simp only [List.map_cons, List.map_nil, List.mem_singleton] at hc
    subst hc
    cases hl : bs1.getLast? with
    | none => rw [List.getLast?_eq_none_iff] at hl; subst hl; simp at ha
    | some B =>
      have hm := hlast B hl
      obtain ⟨bs0, rfl⟩ := List.getLast?_eq_some_iff.1 hl
      rw [List.map_append, List.mem_append] at ha
      rcases ha with ha | ha
      · have := hinc.1
        rw [List.map_append, List.pairwise_append] at this
        exact lt_trans (this.2.2 a ha (Spec.mean B) (by simp)) hm
      · simp only [List.map_cons, List.map_nil, List.mem_singleton] at ha
        rw [ha]; exact hm
  · simp
  · simp

theorem length_le_flatten (bs : List (List (K × K))) (h : ∀ B ∈ bs, Good B) :
    bs.length ≤ bs.flatten.length := by
  induction bs with
  | nil => simp
  | cons B bs ih =>
    have h1 := List.length_pos_of_ne_nil (h B (by simp)).ne
    have h2 := ih fun A hA => h A (by simp [hA])
    simp only [List.flatten_cons, List.length_append, List.length_cons]
    omega

theorem step_inv {data : List (K × K)} (hpos : ∀ p ∈ data, 0 < p.2) {bs : List (List (K × K))} {s : St K}
    (h : Inv data bs s) (hi : s.i < data.length) :
    ∃ bs' s', step s = some s' ∧ Inv data bs' s' ∧ s.i < s'.i := by
  obtain ⟨hx, hw⟩ := h.rest s.i data[s.i] (le_refl _) (by simp)
  have hp : 0 < (data[s.i]).2 := hpos _ (List.getElem_mem hi)
  have hlen : bs.length ≤ s.i := by
    have h1 := length_le_flatten bs h.good
    rw [h.pref, List.length_take] at h1
    omega
  obtain ⟨bs0, L, rfl⟩ : ∃ bs0 L, bs = bs0 ++ [L] := by
    have hne : bs ≠ [] := by
      intro hh; have := h.b_eq; rw [hh] at this; simp at this
    exact ⟨bs.dropLast, bs.getLast hne, (List.dropLast_append_getLast hne).symm⟩
  have hxp : s.xp = Spec.mean L := by have := h.xp; simp at this; exact this.symm
  have hwp : s.wp = wt L := by have := h.wp; simp at this; exact this.symm
  have hL : Good L := h.good L (by simp)
  have hb : s.b = bs0.length := by have := h.b_eq; simp at this; omega
  have hdata : data.take (s.i + 1) = data.take s.i ++ [data[s.i]] := by
    rw [List.take_succ_eq_append_getElem hi]
  simp only [step, hx, hw]
  by_cases hle : (data[s.i]).1 ≤ s.xp
  · rw [if_pos hle]
    have hC0 : Good (L ++ [data[s.i]]) := good_merge hL (good_singleton _ hp)
      (by rw [mean_singleton _ hp, ← hxp]; exact hle)
    have e1 : s.wp * s.xp + (data[s.i]).2 * (data[s.i]).1 = sm (L ++ [data[s.i]]) := by
      rw [sm_append, hwp, hxp, mean_mul_wt hL.wpos]; simp [sm]
    have e2 : (data[s.i]).2 + s.wp = wt (L ++ [data[s.i]]) := by
      rw [wt_append, hwp]; simp [wt]; ring
    rw [e1, e2, ← mean_eq]
    obtain ⟨i', C', f1, f2, f3, f4, f5⟩ := fwd_spec s.x s.w data hpos (s.x.length - (s.i + 1)) s.i
      (L ++ [data[s.i]]) (by rw [h.xlen]; omega) (fun j p hj => h.rest j p (by omega)) hC0
    rw [f1]
    simp only [Option.bind_some]
    have tk : ∀ (l : List K) (f : List (K × K) → K), l.take (s.b + 1) = (bs0 ++ [L]).map f →
        l.take bs0.length = bs0.map f := by
      intro l f hl
      have := congrArg (List.take bs0.length) hl
      rwa [List.take_take, Nat.min_eq_left (by omega), List.map_append, List.take_left' (by simp)] at this
    obtain ⟨bs', C'', g1, ⟨mid, g2, g3⟩, g4, g5⟩ := bwd_spec s.x s.w bs0 C' (tk _ _ h.xb) (tk _ _ h.wb)
      (fun B hB => h.good B (by simp [hB])) f5
    rw [hb, g1]
    simp only [Option.bind_some]
    have hil : i' < data.length := by rw [h.xlen] at f3; omega
    obtain ⟨s', k1, k2, k3⟩ := store_inv h bs' C'' i' (mid ++ [L]) (by rw [g2]; simp) hil f2
      (by
        rw [g3, f4]
        have hp0 := h.pref
        rw [g2] at hp0
        simp only [List.flatten_append, List.flatten_cons, List.flatten_nil, List.append_nil] at hp0
        have : i' + 1 = (s.i + 1) + (i' - s.i) := by omega
        rw [this, List.take_add, hdata, ← hp0]
        simp)
      g4 g5 (by
        have : bs'.length ≤ bs0.length := by rw [g2]; simp
        simp at hlen; omega)
    exact ⟨_, s', k1, k2, k3⟩
  · rw [if_neg hle]
    have := store_inv h (bs0 ++ [L]) [data[s.i]] s.i [] (by simp) hi (le_refl _)
      (by rw [h.pref, hdata]) (good_singleton _ hp) (by
        intro B hB
        simp only [List.getLast?_append, List.getLast?_singleton, Option.some_or, Option.some.injEq] at hB
        subst hB
        rw [mean_singleton _ hp, ← hxp]; exact not_le.1 hle) hlen
    rw [mean_singleton _ hp] at this
    have hw1 : wt [data[s.i]] = (data[s.i]).2 := by simp [wt]
    rw [hw1] at this
    have hbl : (bs0 ++ [L]).length = s.b + 1 := by simp [hb]
    rw [hbl] at this
    obtain ⟨s', k1, k2, k3⟩ := this
    exact ⟨_, s', k1, k2, k3⟩

theorem mainLoop_inv {data : List (K × K)} (hpos : ∀ p ∈ data, 0 < p.2) :
    ∀ (fuel : Nat) (bs : List (List (K × K))) (s : St K), Inv data bs s → data.length ≤ s.i + fuel →
    ∃ bs' s', mainLoop fuel s = some s' ∧ Inv data bs' s' ∧ s'.i = data.length := by
  intro fuel
  induction fuel with
  | zero =>
    intro bs s h hf
    have hi := h.i_le
    refine ⟨bs, s, ?_, h, by omega⟩
    rw [mainLoop, if_neg (by rw [h.xlen]; omega)]
  | succ fuel ih =>
    intro bs s h hf
    rw [mainLoop]
    by_cases hi : s.i < s.x.length
    · rw [if_pos hi]
      obtain ⟨bs', s', h1, h2, h3⟩ := step_inv hpos h (by rw [← h.xlen]; exact hi)
      rw [h1, Option.bind_some]
      exact ih bs' s' h2 (by omega)
    · rw [if_neg hi]
      have := h.i_le
      rw [h.xlen] at hi
      exact ⟨bs, s, rfl, h, by omega⟩

/-! ### Expansion -/

theorem foldlM_set (xk : K) : ∀ (n t : Nat) (x : List K), t + n ≤ x.length →
    (List.range' t n).foldlM (fun x i => if i < x.length then some (x.set i xk) else none) x =
      some (x.take t ++ List.replicate n xk ++ x.drop (t + n)) := by
  intro n
  induction n with
  | zero => intro t x h; simp
  | succ n ih =>
    intro t x h
    rw [List.range'_succ, List.foldlM_cons, if_pos (by omega)]
    simp only [Option.bind_eq_bind, Option.bind_some]
    rw [ih (t + 1) _ (by simp; omega), take_set_eq _ _ _ (by omega), List.drop_set_of_lt (by omega)]
    simp [List.replicate_succ, Nat.add_assoc, Nat.add_comm 1]

theorem fill_spec (x : List K) (t f : Nat) (xk : K) (h1 : t ≤ f + 1) (h2 : f < x.length) :
    fill x t f xk = some (x.take t ++ List.replicate (f + 1 - t) xk ++ x.drop (f + 1)) := by
  unfold fill
  rw [foldlM_set _ _ _ _ (by omega)]
  congr 3
  omega

/-- The fitted values: every block repeats its mean. -/
def fitted (bs : List (List (K × K))) : List K :=
  bs.flatMap fun B => List.replicate B.length (Spec.mean B)

theorem bounds_get (a : List (List (K × K))) (b : List (List (K × K))) : ∀ o,
    (bounds o (a ++ b))[a.length]? = some (o + a.flatten.length) := by
  induction a with
  | nil => intro o; cases b <;> simp [bounds]
  | cons B a ih =>
    intro o
    simp only [List.cons_append, bounds, List.length_cons, List.getElem?_cons_succ, ih,
      List.flatten_cons, List.length_append, Nat.add_assoc]

theorem expand_spec (r : List Nat) (bsAll : List (List (K × K))) (hr : ∀ k, k ≤ bsAll.length →
      r[k]? = (bounds 0 bsAll)[k]?) :
    ∀ (bs tail : List (List (K × K))) (x : List K), bsAll = bs ++ tail → (∀ B ∈ bs, Good B) →
    x.take bs.length = bs.map Spec.mean → bs.flatten.length ≤ x.length →
    bs.flatten.length ≤ 2 ^ 64 →
    expand r bs.length (if bs.flatten.length = 0 then 2 ^ 64 - 1 else bs.flatten.length - 1) x =
      some (fitted bs ++ x.drop bs.flatten.length) := by
  intro bs
  induction bs using List.reverseRecOn with
  | nil => intro tail x _ _ _ _ _; simp [expand, fitted]
  | append_singleton bs B ih =>
    intro tail x hall hg hx hl h64
    have hB : Good B := hg B (by simp)
    have hBl : 0 < B.length := List.length_pos_of_ne_nil hB.ne
    have hlen : (bs ++ [B]).length = bs.length + 1 := by simp
    have hfl : (bs ++ [B]).flatten.length = bs.flatten.length + B.length := by simp
    rw [hlen] at hx ⊢
    rw [hfl] at hl h64 ⊢
    have hrk : r[bs.length]? = some bs.flatten.length := by
      rw [hr _ (by rw [hall]; simp), hall, List.append_assoc, bounds_get]
      simp
    have hxk : x[bs.length]? = some (Spec.mean B) := by
      have : (x.take (bs.length + 1))[bs.length]? = some (Spec.mean B) := by rw [hx]; simp
      rwa [List.getElem?_take_of_lt (by omega)] at this
    have hx' : x.take bs.length = bs.map Spec.mean := by
      have := congrArg (List.take bs.length) hx
      rwa [List.take_take, Nat.min_eq_left (by omega), List.map_append,
        List.take_left' (by simp)] at this
    rw [if_neg (by omega)]
    simp only [expand, hrk, hxk]
    rw [fill_spec _ _ _ _ (by omega) (by omega), Option.bind_some]
    have hbf : bs.length ≤ bs.flatten.length := length_le_flatten bs fun A hA => hg A (by simp [hA])
    rw [ih (B :: tail) _ (by rw [hall]; simp) (fun A hA => hg A (by simp [hA])) ?_ ?_ (by omega)]
    · congr 1
      rw [List.append_assoc, List.drop_left' (by rw [List.length_take]; omega)]
      simp only [fitted, List.flatMap_append, List.flatMap_cons, List.flatMap_nil, List.append_nil,
        List.append_assoc]
      have e1 : bs.flatten.length + B.length - 1 + 1 = bs.flatten.length + B.length := by omega
      rw [e1, Nat.add_sub_cancel_left]
    · rw [List.append_assoc, List.take_append_of_le_length (by rw [List.length_take]; omega),
        List.take_take, Nat.min_eq_left hbf, hx']
    · simp only [List.length_append, List.length_take]; omega

theorem isotonic_blocks (x w : List K) (hl : w.length = x.length) (hn : x ≠ [])
    (hw : ∀ v ∈ w, 0 < v) (h64 : x.length ≤ 2 ^ 64) :
    ∃ bs : List (List (K × K)), bs.flatten = x.zip w ∧ (∀ B ∈ bs, Good B) ∧
      (bs.map Spec.mean).Pairwise (· < ·) ∧ isotonic x w = some (fitted bs) := by
  obtain ⟨x0, xs, rfl⟩ := List.exists_cons_of_ne_nil hn
  cases w with
  | nil => simp at hl
  | cons w0 ws =>
    set data := (x0 :: xs).zip (w0 :: ws) with hdata
    have hdl : data.length = (x0 :: xs).length := by rw [hdata, List.length_zip, hl]; simp
    have hpos : ∀ p ∈ data, 0 < p.2 := fun p hp => hw _ (List.of_mem_zip (a := p.1) (b := p.2) hp).2
    have hp0 : 0 < w0 := hw w0 (by simp)
    have h0 : Inv data [[(x0, w0)]] ⟨x0 :: xs, w0 :: ws,
        ((List.replicate ((x0 :: xs).length + 1) 0).set 0 0).set 1 1, 0, 1, x0, w0⟩ := by
      constructor
      · exact hdl.symm
      · rw [hdl, ← hl]
      · simp [hdl]
      · rfl
      · rw [hdl]; simp
      · simp [hdata]
      · simp [mean_singleton (x0, w0) hp0]
      · simp [wt]
      · simp [bounds, List.replicate_succ]
      · intro j p hj hp
        rw [hdata, List.getElem?_zip_eq_some] at hp
        exact hp
      · intro B hB; rw [List.mem_singleton.1 hB]; exact good_singleton _ hp0
      · simp
      · simp [mean_singleton (x0, w0) hp0]
      · simp [wt]
    obtain ⟨bs, s, h1, h2, h3⟩ := mainLoop_inv hpos (x0 :: xs).length _ _ h0 (by rw [hdl]; simp)
    have hfl : bs.flatten = data := by rw [h2.pref, h3, List.take_length]
    refine ⟨bs, hfl, h2.good, h2.incr, ?_⟩
    simp only [isotonic, List.getElem?_cons_zero, h1, Option.bind_some]
    have hfpos : bs.flatten.length = (x0 :: xs).length := by rw [hfl, hdl]
    have := expand_spec s.r bs (by
      intro k hk
      have := congrArg (fun l => l[k]?) h2.rb
      rw [List.getElem?_take_of_lt (by have := h2.b_eq; omega)] at this
      exact this) bs [] s.x (by simp) h2.good (by rw [← h2.b_eq]; exact h2.xb)
      (by rw [hfpos, h2.xlen, hdl]) (by rw [hfpos]; exact h64)
    rw [if_neg (by rw [hfpos]; simp), hfpos, ← h2.b_eq] at this
    rw [this]
    rw [List.drop_of_length_le (by rw [h2.xlen, hdl]), List.append_nil]

/-! ### Optimality -/

/-- Summation by parts: non-negative prefix sums against a non-decreasing sequence. -/
theorem abel (c z : List K) (hl : c.length = z.length) (hc : ∀ k, 0 ≤ (c.take k).sum)
    (hz : z.Pairwise (· ≤ ·)) (M : K) (hM : ∀ y ∈ z, y ≤ M) :
    ((c.zip z).map fun p => p.1 * p.2).sum ≤ c.sum * M := by
  induction c using List.reverseRecOn generalizing z M with
  | nil => simp
  | append_singleton c a ih =>
    obtain ⟨z', y, rfl⟩ : ∃ z' y, z = z' ++ [y] := by
      have hne : z ≠ [] := by intro hh; subst hh; simp at hl
      exact ⟨z.dropLast, z.getLast hne, (List.dropLast_append_getLast hne).symm⟩
    have hl' : c.length = z'.length := by simpa using hl
    rw [List.zip_append hl']
    have hz' := List.pairwise_append.1 hz
    have h1 := ih z' hl' (fun k => by
      rcases Nat.le_total k c.length with hk | hk
      · have := hc k; rwa [List.take_append_of_le_length hk] at this
      · have := hc c.length
        rw [List.take_append_of_le_length (le_refl _), List.take_of_length_le (le_refl _)] at this
        rwa [List.take_of_length_le hk]) hz'.1 y (fun v hv => hz'.2.2 v hv y (by simp))
    have hM' := hM y (by simp)
    have htot : 0 ≤ (c ++ [a]).sum := by
      have := hc (c ++ [a]).length; rwa [List.take_length] at this
    simp only [List.map_append, List.sum_append, List.map_cons, List.map_nil, List.sum_cons, List.sum_nil,
      List.zip_cons_cons, List.zip_nil_left, add_zero] at htot ⊢
    have h2 := mul_le_mul_of_nonneg_left hM' htot
    nlinarith [h1, h2]

theorem cost_append (a b : List (K × K)) (z y : List K) (h : a.length = z.length) :
    Spec.cost (a ++ b) (z ++ y) = Spec.cost a z + Spec.cost b y := by
  simp [Spec.cost, List.zip_append h]

/-- On one block, a monotone candidate costs at least the block mean plus its squared distance to it. -/
theorem block_opt {B : List (K × K)} (hB : Good B) (z : List K) (hl : z.length = B.length)
    (hz : z.Pairwise (· ≤ ·)) :
    Spec.cost B (List.replicate B.length (Spec.mean B)) +
      ((B.zip z).map fun p => p.1.2 * (Spec.mean B - p.2) ^ 2).sum ≤ Spec.cost B z := by
  set m := Spec.mean B with hm
  have hcross : ((B.zip z).map fun p => p.1.2 * (p.1.1 - m) * p.2).sum ≤ 0 := by
    have hab := abel (B.map fun p => p.2 * (p.1 - m)) z (by simp [hl])
      (fun k => by rw [← List.map_take]; exact hB.pre k) hz
      (z.getLast?.getD 0) (fun y hy => by
        cases hg : z.getLast? with
        | none => rw [List.getLast?_eq_none_iff] at hg; subst hg; simp at hy
        | some l =>
          obtain ⟨z', rfl⟩ := List.getLast?_eq_some_iff.1 hg
          simp only [Option.getD_some]
          rcases List.mem_append.1 hy with hy | hy
          · exact (List.pairwise_append.1 hz).2.2 y hy l (by simp)
          · rw [List.mem_singleton.1 hy])
    have ht : (B.map fun p => p.2 * (p.1 - m)).sum = 0 := hB.total
    rw [ht, zero_mul] at hab
    have e : (((B.map fun p => p.2 * (p.1 - m)).zip z).map fun p => p.1 * p.2).sum =
        ((B.zip z).map fun p => p.1.2 * (p.1.1 - m) * p.2).sum := by
      rw [← List.map_id z, List.zip_map, List.map_map, List.map_id]
      rfl
    rwa [e] at hab
  have hdev : dev m B = 0 := hB.total
  have key : ∀ (B : List (K × K)) (z : List K), z.length = B.length →
      Spec.cost B z = Spec.cost B (List.replicate B.length m) +
        ((B.zip z).map fun p => p.1.2 * (m - p.2) ^ 2).sum +
        2 * (m * dev m B - ((B.zip z).map fun p => p.1.2 * (p.1.1 - m) * p.2).sum) := by
    intro B
    induction B with
    | nil => intro z hz; simp [Spec.cost, dev]
    | cons p B ih =>
      intro z hz
      cases z with
      | nil => simp at hz
      | cons y z =>
        have := ih z (by simpa using hz)
        simp only [Spec.cost, dev, List.zip_cons_cons, List.map_cons, List.sum_cons, List.length_cons,
          List.replicate_succ] at this ⊢
        rw [this]; ring
  rw [key B z hl, hdev]
  linarith

theorem cost_ge (bs : List (List (K × K))) (hg : ∀ B ∈ bs, Good B) : ∀ z : List K,
    z.length = bs.flatten.length → z.Pairwise (· ≤ ·) →
    Spec.cost bs.flatten (fitted bs) +
      (((bs.flatten.zip (fitted bs)).zip z).map fun p => p.1.1.2 * (p.1.2 - p.2) ^ 2).sum ≤
      Spec.cost bs.flatten z := by
  induction bs with
  | nil => intro z hz _; simp [Spec.cost, fitted]
  | cons B bs ih =>
    intro z hz hs
    simp only [List.flatten_cons, List.length_append] at hz
    have hzsplit : z = z.take B.length ++ z.drop B.length := (List.take_append_drop _ _).symm
    have l1 : (z.take B.length).length = B.length := by rw [List.length_take]; omega
    have l2 : (z.drop B.length).length = bs.flatten.length := by rw [List.length_drop]; omega
    have s1 := block_opt (hg B (by simp)) (z.take B.length) l1 (hs.sublist (List.take_sublist _ _))
    have s2 := ih (fun A hA => hg A (by simp [hA])) (z.drop B.length) l2
      (hs.sublist (List.drop_sublist _ _))
    have hf : fitted (B :: bs) = List.replicate B.length (Spec.mean B) ++ fitted bs := by simp [fitted]
    have hrep : ∀ (B : List (K × K)) (m : K) (y : List K), y.length = B.length →
        (((B.zip (List.replicate B.length m)).zip y).map fun p => p.1.1.2 * (p.1.2 - p.2) ^ 2).sum =
        ((B.zip y).map fun p => p.1.2 * (m - p.2) ^ 2).sum := by
      intro B m
      induction B with
      | nil => intro y _; simp
      | cons p B ih =>
        intro y hy
        cases y with
        | nil => simp at hy
        | cons v y =>
          simp only [List.length_cons, List.replicate_succ, List.zip_cons_cons, List.map_cons, List.sum_cons]
          rw [ih y (by simpa using hy)]
    rw [List.flatten_cons, hf, hzsplit, cost_append _ _ _ _ (by simp), cost_append _ _ _ _ l1.symm,
      List.zip_append (by simp), List.zip_append (by simp [l1]), List.map_append, List.sum_append,
      hrep B _ _ l1]
    linarith

theorem fitted_length (bs : List (List (K × K))) : (fitted bs).length = bs.flatten.length := by
  induction bs with
  | nil => rfl
  | cons B bs ih => simp only [fitted, List.flatMap_cons, List.length_append, List.length_replicate,
      List.flatten_cons] at ih ⊢; omega

theorem fitted_sorted (bs : List (List (K × K))) (h : (bs.map Spec.mean).Pairwise (· < ·)) :
    (fitted bs).Pairwise (· ≤ ·) := by
  induction bs with
  | nil => simp [fitted]
  | cons B bs ih =>
    rw [List.map_cons, List.pairwise_cons] at h
    simp only [fitted, List.flatMap_cons]
    rw [List.pairwise_append]
    refine ⟨?_, ih h.2, ?_⟩
    · rw [List.pairwise_replicate]; right; exact le_refl _
    · intro a ha b hb
      rw [(List.mem_replicate.1 ha).2]
      obtain ⟨A, hA, hb⟩ := List.mem_flatMap.1 hb
      rw [(List.mem_replicate.1 hb).2]
      exact le_of_lt (h.1 _ (List.mem_map_of_mem hA))

/-! ### The expression -/

theorem mapM_id_some (l : List K) : (l.map some).mapM id = some l := by
  induction l with
  | nil => rfl
  | cons a l ih => simp [ih]

theorem zip_rev {α β : Type} (a : List α) (b : List β) (h : a.length = b.length) :
    a.reverse.zip b.reverse = (a.zip b).reverse := by
  induction a generalizing b with
  | nil => simp
  | cons x a ih =>
    cases b with
    | nil => simp at h
    | cons y b =>
      have h' : a.length = b.length := by simpa using h
      rw [List.reverse_cons, List.reverse_cons, List.zip_append (by simp [h']), ih b h']
      simp

theorem cost_rev (d : List (K × K)) (z : List K) (h : d.length = z.length) :
    Spec.cost d.reverse z.reverse = Spec.cost d z := by
  simp [Spec.cost, zip_rev d z h, List.map_reverse, List.sum_reverse]

theorem weights_ok (ws : Option (List K)) (n : Nat) (inc : Bool)
    (hl : (Spec.weightsOf ws n).length = n) (hp : ∀ v ∈ Spec.weightsOf ws n, 0 < v) :
    weights (ws.map (·.map some)) n inc =
      .ok (if inc then Spec.weightsOf ws n else (Spec.weightsOf ws n).reverse) := by
  cases ws with
  | none => cases inc <;> simp [weights, Spec.weightsOf]
  | some w =>
    simp only [Spec.weightsOf, Option.getD_some] at hl hp ⊢
    have hany : w.any (fun x => decide (x ≤ 0)) = false := by
      rw [List.any_eq_false]
      intro x hx
      simpa using hp x hx
    simp only [weights, Option.map_some, List.length_map, hl, ne_eq, not_true_eq_false, if_false,
      mapM_id_some, hany, Bool.false_eq_true]

end Verif.Iso
