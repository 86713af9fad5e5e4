import Verif.Model.Isotonic
import Mathlib.Data.List.Basic
import Mathlib.Data.List.Sort
import Mathlib.Data.List.TakeWhile
import Mathlib.Data.List.Infix

/-!
# The pooling loops of isotonic regression for arbitrary arithmetic

Nothing is assumed about `+`, `*` and `/`.  What a block knows about its contents is a predicate `Q`, what the running sum
knows a predicate `M`; the loops keep them if single values and merging do.
-/

set_option linter.unusedSectionVars false

namespace Verif.Iso.Gen
open Verif.Iso
variable {K : Type} [Add K] [Mul K] [Div K] [Zero K] [One K] [LinearOrder K]

/-- A block: its data, its value and its weight as computed. -/
structure Blk (K : Type) where
  data : List (K × K)
  val : K
  wgt : K

/-- All data of a list of blocks. -/
def flat (bs : List (Blk K)) : List (K × K) := bs.flatMap (·.data)

/-- Every block repeats its value. -/
def fit (bs : List (Blk K)) : List K := bs.flatMap fun B => List.replicate B.data.length B.val

@[simp] theorem flat_nil : flat ([] : List (Blk K)) = [] := rfl
@[simp] theorem flat_append (a b : List (Blk K)) : flat (a ++ b) = flat a ++ flat b := List.flatMap_append
@[simp] theorem flat_cons (B : Blk K) (bs : List (Blk K)) : flat (B :: bs) = B.data ++ flat bs := rfl

/-- What has to be shown of `Q` and `M` for a data set. -/
structure Sound (data : List (K × K)) (Q : List (K × K) → K → K → Prop) (M : List (K × K) → K → K → Prop) : Prop where
  single : ∀ p ∈ data, Q [p] p.1 p.2
  start : ∀ A B va wa vb wb, A ++ B <:+: data → Q A va wa → Q B vb wb → vb ≤ va → M (A ++ B) (wa * va + wb * vb) (wb + wa)
  fwd : ∀ C B s w vb wb, C ++ B <:+: data → M C s w → Q B vb wb → vb ≤ s / w → M (C ++ B) (s + wb * vb) (w + wb)
  bwd : ∀ A C s w va wa, A ++ C <:+: data → M C s w → Q A va wa → s / w ≤ va → M (A ++ C) (s + wa * va) (w + wa)
  done : ∀ C s w, M C s w → Q C (s / w) w
  ne : ∀ C v w, Q C v w → C ≠ []

variable {data : List (K × K)} {Q M : List (K × K) → K → K → Prop}

theorem infix_of_take {pre C : List (K × K)} {k : Nat} (h : pre ++ C = data.take k) : C <:+: data := by
  refine List.IsInfix.trans ⟨pre, [], ?_⟩ (List.take_prefix k data).isInfix
  simpa using h

theorem fwd_spec (hQ : Sound data Q M) (x w : List K) :
    ∀ (m i : Nat) (pre C : List (K × K)) (s v : K), i + 1 + m = data.length →
    (∀ j p, i < j → data[j]? = some p → x[j]? = some p.1 ∧ w[j]? = some p.2) → pre ++ C = data.take (i + 1) → M C s v →
    ∃ i' C' s' v', fwd x w m i s v (s / v) = some (i', s', v', s' / v') ∧
      i ≤ i' ∧ i' < i + 1 + m ∧ pre ++ C' = data.take (i' + 1) ∧ M C' s' v' := by
  intro m
  induction m with
  | zero =>
    intro i pre C s v hm hr hpre hC
    exact ⟨i, C, s, v, rfl, le_refl _, by omega, hpre, hC⟩
  | succ m ih =>
    intro i pre C s v hm hr hpre hC
    have hi : i + 1 < data.length := by omega
    obtain ⟨hx, hw⟩ := hr (i + 1) data[i + 1] (by omega) (by simp)
    simp only [fwd, hx, hw]
    by_cases hle : (data[i + 1]).1 ≤ s / v
    · rw [if_pos hle]
      have hpre' : pre ++ (C ++ [data[i + 1]]) = data.take (i + 1 + 1) := by
        rw [← List.append_assoc, hpre, List.take_succ_eq_append_getElem hi]
      have hC' := hQ.fwd C [data[i + 1]] s v _ _ (infix_of_take hpre') hC (hQ.single _ (List.getElem_mem hi)) hle
      obtain ⟨i', C', s', v', h1, h2, h3, h4, h5⟩ := ih (i + 1) pre _ _ _ (by omega) (fun j p hj => hr j p (by omega)) hpre' hC'
      exact ⟨i', C', s', v', h1, by omega, by omega, h4, h5⟩
    · rw [if_neg hle]
      exact ⟨i, C, s, v, rfl, le_refl _, by omega, hpre, hC⟩

theorem bwd_spec (hQ : Sound data Q M) (x w : List K) (k : Nat) :
    ∀ (bs : List (Blk K)) (C : List (K × K)) (s v : K),
    x.take bs.length = bs.map (·.val) → w.take bs.length = bs.map (·.wgt) →
    (∀ B ∈ bs, Q B.data B.val B.wgt) → flat bs ++ C = data.take k → M C s v →
    ∃ bs' C' s' v', bwd x w bs.length s v (s / v) = some (bs'.length, s', v', s' / v') ∧
      (∃ mid, bs = bs' ++ mid) ∧ flat bs' ++ C' = data.take k ∧ M C' s' v' ∧
      (∀ B, bs'.getLast? = some B → B.val < s' / v') := by
  intro bs
  induction bs using List.reverseRecOn with
  | nil =>
    intro C s v _ _ _ hpre hC
    exact ⟨[], C, s, v, rfl, ⟨[], rfl⟩, hpre, hC, by simp⟩
  | append_singleton bs B ih =>
    intro C s v hx hw hg hpre hC
    have hlen : (bs ++ [B]).length = bs.length + 1 := by simp
    rw [hlen] at hx hw ⊢
    have hxb : x[bs.length]? = some B.val := by
      have : (x.take (bs.length + 1))[bs.length]? = some B.val := by rw [hx]; simp
      rwa [List.getElem?_take_of_lt (by omega)] at this
    have hwb : w[bs.length]? = some B.wgt := by
      have : (w.take (bs.length + 1))[bs.length]? = some B.wgt := by rw [hw]; simp
      rwa [List.getElem?_take_of_lt (by omega)] at this
    have hx' : x.take bs.length = bs.map (·.val) := by
      have := congrArg (List.take bs.length) hx
      rwa [List.take_take, Nat.min_eq_left (by omega), List.map_append, List.take_left' (by simp)] at this
    have hw' : w.take bs.length = bs.map (·.wgt) := by
      have := congrArg (List.take bs.length) hw
      rwa [List.take_take, Nat.min_eq_left (by omega), List.map_append, List.take_left' (by simp)] at this
    simp only [bwd, hxb, hwb]
    have hB := hg B (by simp)
    by_cases hle : s / v ≤ B.val
    · rw [if_pos hle]
      have hpre' : flat bs ++ (B.data ++ C) = data.take k := by
        rw [← hpre]; simp
      have hC' := hQ.bwd B.data C s v B.val B.wgt (infix_of_take hpre') hC hB hle
      obtain ⟨bs', C', s', v', h1, ⟨mid, h2⟩, h3, h4, h5⟩ := ih _ _ _ hx' hw' (fun A hA => hg A (by simp [hA])) hpre' hC'
      exact ⟨bs', C', s', v', h1, ⟨mid ++ [B], by rw [h2]; simp⟩, h3, h4, h5⟩
    · rw [if_neg hle]
      refine ⟨bs ++ [B], C, s, v, by simp, ⟨[], by simp⟩, hpre, hC, ?_⟩
      intro A hA
      simp only [List.getLast?_append, List.getLast?_singleton, Option.some_or, Option.some.injEq] at hA
      subst hA
      exact not_le.1 hle

/-- Boundaries of the blocks: the start of each, and the end of the last. -/
def bounds : Nat → List (Blk K) → List Nat
  | o, [] => [o]
  | o, B :: bs => o :: bounds (o + B.data.length) bs

theorem bounds_snoc (a : List (Blk K)) (C : Blk K) : ∀ o,
    bounds o (a ++ [C]) = bounds o a ++ [o + (flat a).length + C.data.length] := by
  induction a with
  | nil => intro o; simp [bounds]
  | cons B a ih =>
    intro o
    simp only [List.cons_append, bounds, ih, flat_cons, List.length_append]
    rw [Nat.add_assoc o]

theorem bounds_take (a b : List (Blk K)) : ∀ o, (bounds o (a ++ b)).take (a.length + 1) = bounds o a := by
  induction a with
  | nil => intro o; cases b <;> simp [bounds]
  | cons B a ih => intro o; simp [bounds, ih]

theorem bounds_get (a b : List (Blk K)) : ∀ o, (bounds o (a ++ b))[a.length]? = some (o + (flat a).length) := by
  induction a with
  | nil => intro o; cases b <;> simp [bounds]
  | cons B a ih =>
    intro o
    simp only [List.cons_append, bounds, List.length_cons, List.getElem?_cons_succ, ih, flat_cons, List.length_append,
      Nat.add_assoc]

/-- Relation between the buffers and the list of blocks. -/
structure Inv (data : List (K × K)) (Q : List (K × K) → K → K → Prop) (bs : List (Blk K)) (s : St K) : Prop where
  xlen : s.x.length = data.length
  wlen : s.w.length = data.length
  rlen : s.r.length = data.length + 1
  b_eq : s.b + 1 = bs.length
  i_le : s.i ≤ data.length
  pref : flat bs = data.take s.i
  xb : s.x.take (s.b + 1) = bs.map (·.val)
  wb : s.w.take (s.b + 1) = bs.map (·.wgt)
  rb : s.r.take (s.b + 2) = bounds 0 bs
  rest : ∀ j p, s.i ≤ j → data[j]? = some p → s.x[j]? = some p.1 ∧ s.w[j]? = some p.2
  good : ∀ B ∈ bs, Q B.data B.val B.wgt
  incr : (bs.map (·.val)).Pairwise (· < ·)
  xp : bs.getLast?.map (·.val) = some s.xp
  wp : bs.getLast?.map (·.wgt) = some s.wp

theorem take_set_eq {α : Type} (l : List α) (b : Nat) (v : α) (h : b < l.length) :
    (l.set b v).take (b + 1) = l.take b ++ [v] := by
  apply List.ext_getElem?
  intro j
  rcases Nat.lt_trichotomy j b with hj | hj | hj
  · rw [List.getElem?_take_of_lt (by omega), List.getElem?_set_ne (by omega),
      List.getElem?_append_left (by rw [List.length_take]; omega), List.getElem?_take_of_lt hj]
  · subst hj
    rw [List.getElem?_take_of_lt (by omega), List.getElem?_set_self h,
      List.getElem?_append_right (by rw [List.length_take]; omega)]
    simp [Nat.min_eq_left (le_of_lt h)]
  · rw [List.getElem?_eq_none (by rw [List.length_take]; omega),
      List.getElem?_eq_none (by rw [List.length_append, List.length_take]; simp; omega)]

theorem store_inv {bs : List (Blk K)} {s : St K} (h : Inv data Q bs s)
    (bs1 : List (Blk K)) (C : Blk K) (i' : Nat) (rest : List (Blk K))
    (hbs : bs = bs1 ++ rest) (hi' : i' < data.length) (hii : s.i ≤ i')
    (hflat : flat bs1 ++ C.data = data.take (i' + 1))
    (hC : Q C.data C.val C.wgt) (hlast : ∀ B, bs1.getLast? = some B → B.val < C.val) (hb : bs1.length ≤ s.i) :
    ∃ s', store s bs1.length i' C.wgt C.val = some s' ∧ Inv data Q (bs1 ++ [C]) s' ∧ s.i < s'.i := by
  have hb1 : bs1.length < s.x.length := by rw [h.xlen]; omega
  have hb2 : bs1.length < s.w.length := by rw [h.wlen]; omega
  have hb3 : bs1.length + 1 < s.r.length := by rw [h.rlen]; omega
  have hbl : bs1.length ≤ s.b + 1 := by rw [h.b_eq, hbs]; simp
  have tk : ∀ {α : Type} (l : List α) (f : Blk K → α), l.take (s.b + 1) = bs.map f → l.take bs1.length = bs1.map f := by
    intro α l f hl
    have := congrArg (List.take bs1.length) hl
    rwa [List.take_take, Nat.min_eq_left hbl, hbs, List.map_append, List.take_left' (by simp)] at this
  refine ⟨_, by rw [store, if_pos ⟨hb1, hb2, hb3⟩], ?_, by simp; omega⟩
  constructor
  · simpa using h.xlen
  · simpa using h.wlen
  · simpa using h.rlen
  · simp
  · exact hi'
  · simpa using hflat
  · simp only
    rw [take_set_eq _ _ _ hb1, tk s.x (·.val) h.xb]; simp
  · simp only
    rw [take_set_eq _ _ _ hb2, tk s.w (·.wgt) h.wb]; simp
  · simp only
    rw [take_set_eq _ _ _ hb3, bounds_snoc]
    have hr0 := congrArg (List.take (bs1.length + 1)) h.rb
    rw [List.take_take, Nat.min_eq_left (by omega), hbs, bounds_take] at hr0
    rw [hr0]
    have := congrArg List.length hflat
    rw [List.length_append, List.length_take] at this
    congr 2
    omega
  · intro j p hj hp
    have := h.rest j p (by simp at hj; omega) hp
    simp only at hj ⊢
    rw [List.getElem?_set_ne (by omega), List.getElem?_set_ne (by omega)]
    exact this
  · intro B hB
    rcases List.mem_append.1 hB with hB | hB
    · exact h.good B (by rw [hbs]; simp [hB])
    · rw [List.mem_singleton.1 hB]; exact hC
  · have hinc := h.incr
    rw [hbs, List.map_append, List.pairwise_append] at hinc
    rw [List.map_append, List.pairwise_append]
    refine ⟨hinc.1, by simp, ?_⟩
    intro a ha c hc
    simp only [List.map_cons, List.map_nil, List.mem_singleton] at hc
    subst hc
    cases hl : bs1.getLast? with
    | none => rw [List.getLast?_eq_none_iff] at hl; subst hl; simp at ha
    | some B =>
      have hm := hlast B hl
      obtain ⟨bs0, rfl⟩ := List.getLast?_eq_some_iff.1 hl
      rw [List.map_append, List.mem_append] at ha
      rcases ha with ha | ha
      · have := hinc.1
        rw [List.map_append, List.pairwise_append] at this
        exact lt_trans (this.2.2 a ha B.val (by simp)) hm
      · simp only [List.map_cons, List.map_nil, List.mem_singleton] at ha
        rw [ha]; exact hm
  · simp
  · simp

theorem length_le_flat (hQ : Sound data Q M) (bs : List (Blk K)) (h : ∀ B ∈ bs, Q B.data B.val B.wgt) :
    bs.length ≤ (flat bs).length := by
  induction bs with
  | nil => simp
  | cons B bs ih =>
    have h1 := List.length_pos_of_ne_nil (hQ.ne _ _ _ (h B (by simp)))
    have h2 := ih fun A hA => h A (by simp [hA])
    simp only [flat_cons, List.length_append, List.length_cons]
    omega

theorem step_inv (hQ : Sound data Q M) {bs : List (Blk K)} {s : St K} (h : Inv data Q bs s) (hi : s.i < data.length) :
    ∃ bs' s', step s = some s' ∧ Inv data Q bs' s' ∧ s.i < s'.i := by
  obtain ⟨hx, hw⟩ := h.rest s.i data[s.i] (le_refl _) (by simp)
  have hp := hQ.single _ (List.getElem_mem hi)
  have hlen : bs.length ≤ s.i := by
    have h1 := length_le_flat hQ bs h.good
    rw [h.pref, List.length_take] at h1
    omega
  obtain ⟨bs0, L, rfl⟩ : ∃ bs0 L, bs = bs0 ++ [L] := by
    have hne : bs ≠ [] := by
      intro hh; have := h.b_eq; rw [hh] at this; simp at this
    exact ⟨bs.dropLast, bs.getLast hne, (List.dropLast_append_getLast hne).symm⟩
  have hxp : s.xp = L.val := by have := h.xp; simp at this; exact this.symm
  have hwp : s.wp = L.wgt := by have := h.wp; simp at this; exact this.symm
  have hL := h.good L (by simp)
  have hb : s.b = bs0.length := by have := h.b_eq; simp at this; omega
  have hdata : data.take (s.i + 1) = data.take s.i ++ [data[s.i]] := by
    rw [List.take_succ_eq_append_getElem hi]
  simp only [step, hx, hw]
  by_cases hle : (data[s.i]).1 ≤ s.xp
  · rw [if_pos hle]
    have hpre : flat bs0 ++ (L.data ++ [data[s.i]]) = data.take (s.i + 1) := by
      rw [hdata, ← h.pref]; simp
    have hC0 := hQ.start L.data [data[s.i]] _ _ _ _ (infix_of_take hpre) hL hp (by rw [← hxp]; exact hle)
    rw [← hwp, ← hxp] at hC0
    obtain ⟨i', C', s1, v1, f1, f2, f3, f4, f5⟩ := fwd_spec hQ s.x s.w (s.x.length - (s.i + 1)) s.i (flat bs0)
      _ _ _ (by rw [h.xlen]; omega) (fun j p hj => h.rest j p (by omega)) hpre hC0
    rw [f1]
    simp only [Option.bind_some]
    have tk : ∀ (l : List K) (f : Blk K → K), l.take (s.b + 1) = (bs0 ++ [L]).map f → l.take bs0.length = bs0.map f := by
      intro l f hl
      have := congrArg (List.take bs0.length) hl
      rwa [List.take_take, Nat.min_eq_left (by omega), List.map_append, List.take_left' (by simp)] at this
    obtain ⟨bs', C'', s2, v2, g1, ⟨mid, g2⟩, g3, g4, g5⟩ := bwd_spec hQ s.x s.w (i' + 1) bs0 C' s1 v1 (tk _ _ h.xb) (tk _ _ h.wb)
      (fun B hB => h.good B (by simp [hB])) f4 f5
    rw [hb, g1]
    simp only [Option.bind_some]
    have hil : i' < data.length := by rw [h.xlen] at f3; omega
    obtain ⟨s', k1, k2, k3⟩ := store_inv h bs' ⟨C'', s2 / v2, v2⟩ i' (mid ++ [L]) (by rw [g2]; simp) hil f2 g3
      (hQ.done _ _ _ g4) g5 (by
        have : bs'.length ≤ bs0.length := by rw [g2]; simp
        simp at hlen; omega)
    exact ⟨_, s', k1, k2, k3⟩
  · rw [if_neg hle]
    have := store_inv h (bs0 ++ [L]) ⟨[data[s.i]], (data[s.i]).1, (data[s.i]).2⟩ s.i [] (by simp) hi (le_refl _)
      (by rw [h.pref, hdata]) hp (by
        intro B hB
        simp only [List.getLast?_append, List.getLast?_singleton, Option.some_or, Option.some.injEq] at hB
        subst hB
        rw [← hxp]; exact not_le.1 hle) hlen
    have hbl : (bs0 ++ [L]).length = s.b + 1 := by simp [hb]
    rw [hbl] at this
    obtain ⟨s', k1, k2, k3⟩ := this
    exact ⟨_, s', k1, k2, k3⟩

theorem mainLoop_inv (hQ : Sound data Q M) :
    ∀ (fuel : Nat) (bs : List (Blk K)) (s : St K), Inv data Q bs s → data.length ≤ s.i + fuel →
    ∃ bs' s', mainLoop fuel s = some s' ∧ Inv data Q bs' s' ∧ s'.i = data.length := by
  intro fuel
  induction fuel with
  | zero =>
    intro bs s h hf
    have hi := h.i_le
    refine ⟨bs, s, ?_, h, by omega⟩
    rw [mainLoop, if_neg (by rw [h.xlen]; omega)]
  | succ fuel ih =>
    intro bs s h hf
    rw [mainLoop]
    by_cases hi : s.i < s.x.length
    · rw [if_pos hi]
      obtain ⟨bs', s', h1, h2, h3⟩ := step_inv hQ h (by rw [← h.xlen]; exact hi)
      rw [h1, Option.bind_some]
      exact ih bs' s' h2 (by omega)
    · rw [if_neg hi]
      have := h.i_le
      rw [h.xlen] at hi
      exact ⟨bs, s, rfl, h, by omega⟩

theorem foldlM_set (xk : K) : ∀ (n t : Nat) (x : List K), t + n ≤ x.length →
    (List.range' t n).foldlM (fun x i => if i < x.length then some (x.set i xk) else none) x =
      some (x.take t ++ List.replicate n xk ++ x.drop (t + n)) := by
  intro n
  induction n with
  | zero => intro t x h; simp
  | succ n ih =>
    intro t x h
    rw [List.range'_succ, List.foldlM_cons, if_pos (by omega)]
    simp only [Option.bind_eq_bind, Option.bind_some]
    rw [ih (t + 1) _ (by simp; omega), take_set_eq _ _ _ (by omega), List.drop_set_of_lt (by omega)]
    simp [List.replicate_succ, Nat.add_assoc, Nat.add_comm 1]

theorem fill_spec (x : List K) (t f : Nat) (xk : K) (h1 : t ≤ f + 1) (h2 : f < x.length) :
    fill x t f xk = some (x.take t ++ List.replicate (f + 1 - t) xk ++ x.drop (f + 1)) := by
  unfold fill
  rw [foldlM_set _ _ _ _ (by omega)]
  congr 3
  omega

theorem expand_spec (hQ : Sound data Q M) (r : List Nat) (bsAll : List (Blk K)) (hr : ∀ k, k ≤ bsAll.length →
      r[k]? = (bounds 0 bsAll)[k]?) :
    ∀ (bs tail : List (Blk K)) (x : List K), bsAll = bs ++ tail → (∀ B ∈ bs, Q B.data B.val B.wgt) →
    x.take bs.length = bs.map (·.val) → (flat bs).length ≤ x.length → (flat bs).length ≤ 2 ^ 64 →
    expand r bs.length (if (flat bs).length = 0 then 2 ^ 64 - 1 else (flat bs).length - 1) x =
      some (fit bs ++ x.drop (flat bs).length) := by
  intro bs
  induction bs using List.reverseRecOn with
  | nil => intro tail x _ _ _ _ _; simp [expand, fit]
  | append_singleton bs B ih =>
    intro tail x hall hg hx hl h64
    have hBl : 0 < B.data.length := List.length_pos_of_ne_nil (hQ.ne _ _ _ (hg B (by simp)))
    have hlen : (bs ++ [B]).length = bs.length + 1 := by simp
    have hfl : (flat (bs ++ [B])).length = (flat bs).length + B.data.length := by simp
    rw [hlen] at hx ⊢
    rw [hfl] at hl h64 ⊢
    have hrk : r[bs.length]? = some (flat bs).length := by
      rw [hr _ (by rw [hall]; simp), hall, List.append_assoc, bounds_get]
      simp
    have hxk : x[bs.length]? = some B.val := by
      have : (x.take (bs.length + 1))[bs.length]? = some B.val := by rw [hx]; simp
      rwa [List.getElem?_take_of_lt (by omega)] at this
    have hx' : x.take bs.length = bs.map (·.val) := by
      have := congrArg (List.take bs.length) hx
      rwa [List.take_take, Nat.min_eq_left (by omega), List.map_append, List.take_left' (by simp)] at this
    rw [if_neg (by omega)]
    simp only [expand, hrk, hxk]
    rw [fill_spec _ _ _ _ (by omega) (by omega), Option.bind_some]
    have hbf : bs.length ≤ (flat bs).length := length_le_flat hQ bs fun A hA => hg A (by simp [hA])
    rw [ih (B :: tail) _ (by rw [hall]; simp) (fun A hA => hg A (by simp [hA])) ?_ ?_ (by omega)]
    · congr 1
      rw [List.append_assoc, List.drop_left' (by rw [List.length_take]; omega)]
      simp only [fit, List.flatMap_append, List.flatMap_cons, List.flatMap_nil, List.append_nil, List.append_assoc]
      have e1 : (flat bs).length + B.data.length - 1 + 1 = (flat bs).length + B.data.length := by omega
      rw [e1, Nat.add_sub_cancel_left]
    · rw [List.append_assoc, List.take_append_of_le_length (by rw [List.length_take]; omega),
        List.take_take, Nat.min_eq_left hbf, hx']
    · simp only [List.length_append, List.length_take]; omega

/-- For any arithmetic the loops end with blocks that cover the data, know what `Q` says, and strictly increase. -/
theorem isotonic_blocks (x w : List K) (hQ : Sound (x.zip w) Q M) (hl : w.length = x.length) (hn : x ≠ []) (h64 : x.length ≤ 2 ^ 64) :
    ∃ bs : List (Blk K), flat bs = x.zip w ∧ (∀ B ∈ bs, Q B.data B.val B.wgt) ∧
      (bs.map (·.val)).Pairwise (· < ·) ∧ isotonic x w = some (fit bs) := by
  obtain ⟨x0, xs, rfl⟩ := List.exists_cons_of_ne_nil hn
  cases w with
  | nil => simp at hl
  | cons w0 ws =>
    set data := (x0 :: xs).zip (w0 :: ws) with hdata
    have hdl : data.length = (x0 :: xs).length := by rw [hdata, List.length_zip, hl]; simp
    have h0 : Inv data Q [⟨[(x0, w0)], x0, w0⟩] ⟨x0 :: xs, w0 :: ws,
        ((List.replicate ((x0 :: xs).length + 1) 0).set 0 0).set 1 1, 0, 1, x0, w0⟩ := by
      constructor
      · exact hdl.symm
      · rw [hdl, ← hl]
      · simp [hdl]
      · rfl
      · rw [hdl]; simp
      · simp [hdata]
      · simp
      · simp
      · simp [bounds, List.replicate_succ]
      · intro j p hj hp
        rw [hdata, List.getElem?_zip_eq_some] at hp
        exact hp
      · intro B hB; rw [List.mem_singleton.1 hB]; exact hQ.single (x0, w0) (by simp [hdata])
      · simp
      · simp
      · simp
    obtain ⟨bs, s, h1, h2, h3⟩ := mainLoop_inv hQ (x0 :: xs).length _ _ h0 (by rw [hdl]; simp)
    have hfl : flat bs = data := by rw [h2.pref, h3, List.take_length]
    refine ⟨bs, hfl, h2.good, h2.incr, ?_⟩
    simp only [isotonic, List.getElem?_cons_zero, h1, Option.bind_some]
    have hfpos : (flat bs).length = (x0 :: xs).length := by rw [hfl, hdl]
    have := expand_spec hQ s.r bs (by
      intro k hk
      have := congrArg (fun l => l[k]?) h2.rb
      rw [List.getElem?_take_of_lt (by have := h2.b_eq; omega)] at this
      exact this) bs [] s.x (by simp) h2.good (by rw [← h2.b_eq]; exact h2.xb)
      (by rw [hfpos, h2.xlen, hdl]) (by rw [hfpos]; exact h64)
    rw [if_neg (by rw [hfpos]; simp), hfpos, ← h2.b_eq] at this
    rw [this]
    rw [List.drop_of_length_le (by rw [h2.xlen, hdl]), List.append_nil]

theorem fit_length (bs : List (Blk K)) : (fit bs).length = (flat bs).length := by
  induction bs with
  | nil => rfl
  | cons B bs ih =>
    simp only [fit, List.flatMap_cons, List.length_append, List.length_replicate, flat_cons] at ih ⊢; omega

theorem fit_sorted (bs : List (Blk K)) (h : (bs.map (·.val)).Pairwise (· < ·)) : (fit bs).Pairwise (· ≤ ·) := by
  induction bs with
  | nil => simp [fit]
  | cons B bs ih =>
    rw [List.map_cons, List.pairwise_cons] at h
    simp only [fit, List.flatMap_cons]
    rw [List.pairwise_append]
    refine ⟨?_, ih h.2, ?_⟩
    · rw [List.pairwise_replicate]; right; exact le_refl _
    · intro a ha b hb
      rw [(List.mem_replicate.1 ha).2]
      obtain ⟨A, hA, hb⟩ := List.mem_flatMap.1 hb
      rw [(List.mem_replicate.1 hb).2]
      exact le_of_lt (h.1 _ (List.mem_map_of_mem hA))

end Verif.Iso.Gen
