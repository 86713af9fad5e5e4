import Verif.Lemmas.SnowballEnv
import Mathlib.Data.List.Lex

/-!
# `find_among` and `find_among_b` find the longest matching entry
-/

namespace Verif.Snowball

deriving instance Inhabited for Among

/-- Comparison of the text with a key, both read in the direction of the search: the first difference (0 if the
key is matched entirely, −1 if the text ends first) and the number of bytes in common. -/
def cmpL : List Nat → List Nat → Nat → Int × Nat
  | _, [], k => (0, k)
  | [], _ :: _, k => (-1, k)
  | x :: t, y :: key, k => if (x : Int) - y = 0 then cmpL t key (k + 1) else ((x : Int) - y, k)

/-- Length of the longest common prefix. -/
def lcp : List Nat → List Nat → Nat
  | x :: t, y :: key => if x = y then lcp t key + 1 else 0
  | _, _ => 0

theorem cmpL_append (p t key : List Nat) (k : Nat) : cmpL (p ++ t) (p ++ key) k = cmpL t key (k + p.length) := by
  induction p generalizing k with
  | nil => rfl
  | cons x p ih =>
    simp only [List.cons_append, cmpL, sub_self, if_true, ih, List.length_cons]
    congr 1
    omega

theorem cmpL_snd (t key : List Nat) (k : Nat) : (cmpL t key k).2 = k + lcp t key := by
  induction key generalizing t k with
  | nil => cases t <;> simp [cmpL, lcp]
  | cons y key ih =>
    cases t with
    | nil => simp [cmpL, lcp]
    | cons x t =>
      by_cases h : x = y
      · subst h
        simp only [cmpL, sub_self, if_true, ih, lcp]
        omega
      · have h' : ¬ (x : Int) - y = 0 := by omega
        simp only [cmpL, lcp, if_neg h', if_neg h, Nat.add_zero]

theorem cmpL_lt (t key : List Nat) (k : Nat) : (cmpL t key k).1 < 0 ↔ t < key := by
  induction key generalizing t k with
  | nil => cases t <;> simp [cmpL]
  | cons y key ih =>
    cases t with
    | nil => simp [cmpL]
    | cons x t =>
      rw [List.cons_lt_cons_iff]
      by_cases h : x = y
      · subst h
        simp only [cmpL, sub_self, if_true, ih, lt_irrefl, false_or, true_and]
      · have h' : ¬ (x : Int) - y = 0 := by omega
        simp only [cmpL, if_neg h', h, false_and, or_false]
        omega

theorem lcp_prefix (t key p : List Nat) (hp : p <+: key) : p <+: t ↔ p.length ≤ lcp t key := by
  induction p generalizing t key with
  | nil => simp
  | cons x p ih =>
    obtain ⟨s, rfl⟩ := hp
    cases t with
    | nil => simp [lcp]
    | cons y t =>
      rw [List.cons_prefix_cons]
      simp only [List.cons_append, lcp, List.length_cons]
      by_cases h : x = y
      · subst h
        simp [ih t (p ++ s) (List.prefix_append p s)]
      · have : ¬ y = x := fun e => h e.symm
        simp [h, this]

theorem lcp_le_left (t key : List Nat) : lcp t key ≤ t.length := by
  induction t generalizing key with
  | nil => simp [lcp]
  | cons x t ih =>
    cases key with
    | nil => simp [lcp]
    | cons y key =>
      simp only [lcp]
      split
      · have := ih key
        simp only [List.length_cons]; omega
      · omega

theorem lcp_le_right (t key : List Nat) : lcp t key ≤ key.length := by
  induction t generalizing key with
  | nil => simp [lcp]
  | cons x t ih =>
    cases key with
    | nil => simp [lcp]
    | cons y key =>
      simp only [lcp]
      split
      · have := ih key
        simp only [List.length_cons]; omega
      · omega

theorem take_lcp_prefix (t key : List Nat) (c : Nat) (hc : c ≤ lcp t key) : t.take c <+: key := by
  induction t generalizing key c with
  | nil => simp
  | cons x t ih =>
    cases key with
    | nil => simp [lcp] at hc; simp [hc]
    | cons y key =>
      cases c with
      | zero => simp
      | succ c =>
        simp only [lcp] at hc
        split at hc
        · rename_i h
          rw [List.take_succ_cons, List.cons_prefix_cons]
          exact ⟨h, ih key c (by omega)⟩
        · omega

/-- Between two lists with a common prefix, every list has that prefix. -/
theorem sandwich (p a b d : List Nat) (hab : a ≤ b) (hbd : b ≤ d) (ha : p <+: a) (hd : p <+: d) : p <+: b := by
  induction p generalizing a b d with
  | nil => simp
  | cons x p ih =>
    obtain ⟨a', rfl⟩ := ha
    obtain ⟨d', rfl⟩ := hd
    cases b with
    | nil => exact absurd hab (not_le.mpr (by simp))
    | cons y b =>
      rw [List.cons_append] at hab hbd
      have h1 : x ≤ y := by
        by_contra h
        exact absurd hab (not_le.mpr (List.cons_lt_cons_iff.mpr (Or.inl (by omega))))
      have h2 : y ≤ x := by
        by_contra h
        exact absurd hbd (not_le.mpr (List.cons_lt_cons_iff.mpr (Or.inl (by omega))))
      obtain rfl : x = y := by omega
      rw [List.cons_prefix_cons]
      refine ⟨rfl, ih (p ++ a') b (p ++ d') ?_ ?_ (List.prefix_append _ _) (List.prefix_append _ _)⟩
      · by_contra h
        exact absurd hab (not_le.mpr (List.cons_lt_cons_iff.mpr (Or.inr ⟨rfl, not_le.mp h⟩)))
      · by_contra h
        exact absurd hbd (not_le.mpr (List.cons_lt_cons_iff.mpr (Or.inr ⟨rfl, not_le.mp h⟩)))

theorem prefix_le (p t : List Nat) (h : p <+: t) : p ≤ t := by
  rw [← not_lt, ← cmpL_lt t p 0]
  obtain ⟨s, rfl⟩ := h
  have := cmpL_append p s [] 0
  rw [List.append_nil] at this
  rw [this]
  cases s <;> simp [cmpL]

/-- The search reads keys and text through `rd` (the identity forward, `reverse` backward). -/
def CmpOK (rd : List Nat → List Nat) (T : List Nat) (cmp : List Nat → Nat → Nat → Except Fault (Int × Nat)) : Prop :=
  ∀ key common, common ≤ key.length → common ≤ T.length →
    cmp key (key.length - common) common = .ok (cmpL (T.drop common) ((rd key).drop common) common)

/-- The keys are strictly increasing. -/
def Sorted (rd : List Nat → List Nat) (tbl : List Among) : Prop :=
  ∀ a b, a < b → b < tbl.length → rd (tbl.getD a default).key < rd (tbl.getD b default).key

/-- The substring links point to the longest proper prefix in the table. -/
def Links (rd : List Nat → List Nat) (tbl : List Among) : Prop :=
  ∀ m, m < tbl.length →
    (((tbl.getD m default).sub < 0 ∧
      ∀ v ∈ tbl, rd v.key <+: rd (tbl.getD m default).key → ¬ v.key.length < (tbl.getD m default).key.length) ∨
     (0 ≤ (tbl.getD m default).sub ∧ (tbl.getD m default).sub.toNat < m ∧
      rd (tbl.getD (tbl.getD m default).sub.toNat default).key <+: rd (tbl.getD m default).key ∧
      ∀ v ∈ tbl, rd v.key <+: rd (tbl.getD m default).key → v.key.length < (tbl.getD m default).key.length →
        v.key.length ≤ (tbl.getD (tbl.getD m default).sub.toNat default).key.length))

theorem getElem?_getD {tbl : List Among} {k : Nat} (hk : k < tbl.length) : tbl[k]? = some (tbl.getD k default) := by
  rw [List.getD_eq_getElem?_getD, List.getElem?_eq_getElem hk]
  rfl

section
variable {rd : List Nat → List Nat} {T : List Nat} {cmp : List Nat → Nat → Nat → Except Fault (Int × Nat)}
  {tbl : List Among}

/-- The state of the search at the start of an iteration. -/
structure Inv (rd : List Nat → List Nat) (T : List Nat) (tbl : List Among) (s : Search) : Prop where
  lt : s.i < s.j
  le : s.j ≤ tbl.length
  hi : (s.i = 0 ∧ s.ci = 0) ∨
    (rd (tbl.getD s.i default).key ≤ T ∧ s.ci = lcp T (rd (tbl.getD s.i default).key))
  hj : (s.j = tbl.length ∧ s.cj = 0) ∨
    (s.j < tbl.length ∧ T < rd (tbl.getD s.j default).key ∧ s.cj = lcp T (rd (tbl.getD s.j default).key))
  hf : s.first = true → s.j - s.i ≤ 1

/-- What the search returns: the last key that is not after the text. -/
def Found (rd : List Nat → List Nat) (T : List Nat) (tbl : List Among) (i ci : Nat) : Prop :=
  i < tbl.length ∧
  ((rd (tbl.getD i default).key ≤ T ∧ ci = lcp T (rd (tbl.getD i default).key)) ∨
    (i = 0 ∧ ci = 0 ∧ T < rd (tbl.getD 0 default).key)) ∧
  ∀ m, i < m → m < tbl.length → T < rd (tbl.getD m default).key

theorem search_found (hrd : ∀ k, (rd k).length = k.length) (hcmp : CmpOK rd T cmp) (hs : Sorted rd tbl) :
    ∀ (fuel : Nat) (s : Search), Inv rd T tbl s → s.j - s.i + (if s.first then 0 else 1) ≤ fuel →
      ∃ i ci, searchLoop cmp tbl fuel s = .ok (i, ci) ∧ Found rd T tbl i ci := by
  intro fuel
  induction fuel with
  | zero =>
    intro s inv hm
    have := inv.lt
    omega
  | succ fuel ih =>
    intro s inv hm
    have hlt := inv.lt
    have hle := inv.le
    obtain ⟨k, hkdef⟩ : ∃ k, k = s.i + (s.j - s.i) / 2 := ⟨_, rfl⟩
    have hk1 : s.i ≤ k := by omega
    have hk2 : k < s.j := by omega
    have hkn : k < tbl.length := by omega
    have hsle : ∀ a b, a ≤ b → b < tbl.length → rd (tbl.getD a default).key ≤ rd (tbl.getD b default).key := by
      intro a b hab hb
      rcases Nat.lt_or_eq_of_le hab with h | h
      · exact le_of_lt (hs a b h hb)
      · rw [h]
    have hcT : Nat.min s.ci s.cj ≤ T.length := by
      rcases inv.hi with ⟨-, h⟩ | ⟨-, h⟩
      · rw [h]; simp
      · have := lcp_le_left T (rd (tbl.getD s.i default).key)
        exact le_trans (Nat.min_le_left _ _) (by omega)
    have hpre : T.take (Nat.min s.ci s.cj) <+: rd (tbl.getD k default).key := by
      rcases inv.hi with ⟨-, h⟩ | ⟨hi1, hi2⟩
      · have : Nat.min s.ci s.cj = 0 := by rw [h]; exact Nat.zero_min _
        rw [this]; simp
      · rcases inv.hj with ⟨-, h⟩ | ⟨hj0, hj1, hj2⟩
        · have : Nat.min s.ci s.cj = 0 := by rw [h]; exact Nat.min_zero _
          rw [this]; simp
        · refine sandwich _ _ _ _ (hsle _ _ hk1 hkn) (hsle k s.j (by omega) hj0) ?_ ?_
          · exact take_lcp_prefix _ _ _ (hi2 ▸ Nat.min_le_left _ _)
          · exact take_lcp_prefix _ _ _ (hj2 ▸ Nat.min_le_right _ _)
    have hclen : Nat.min s.ci s.cj ≤ (tbl.getD k default).key.length := by
      have := hpre.length_le
      rw [hrd, List.length_take] at this
      omega
    have hr : cmp (tbl.getD k default).key ((tbl.getD k default).key.length - Nat.min s.ci s.cj) (Nat.min s.ci s.cj)
        = .ok (cmpL T (rd (tbl.getD k default).key) 0) := by
      rw [hcmp _ _ hclen hcT]
      congr 1
      obtain ⟨q, hq⟩ := hpre
      have e1 : T = T.take (Nat.min s.ci s.cj) ++ T.drop (Nat.min s.ci s.cj) := (List.take_append_drop _ _).symm
      have hl : (T.take (Nat.min s.ci s.cj)).length = Nat.min s.ci s.cj := by rw [List.length_take]; omega
      have e2 : (rd (tbl.getD k default).key).drop (Nat.min s.ci s.cj) = q := by
        rw [← hq]
        conv_lhs => rw [← hl]
        rw [hl, List.drop_left' hl]
      rw [e2]
      conv_rhs => rw [e1, ← hq, cmpL_append, hl]
      simp
    have hsn := cmpL_snd T (rd (tbl.getD k default).key) 0
    rw [Nat.zero_add] at hsn
    have hun : searchLoop cmp tbl (fuel + 1) s =
        (let s' : Search := if (cmpL T (rd (tbl.getD k default).key) 0).1 < 0
            then { s with j := k, cj := lcp T (rd (tbl.getD k default).key) }
            else { s with i := k, ci := lcp T (rd (tbl.getD k default).key) }
        if s'.j - s'.i ≤ 1 then
          if 0 < s'.i || s'.j == s'.i || s'.first then .ok (s'.i, s'.ci)
          else searchLoop cmp tbl fuel { s' with first := true }
        else searchLoop cmp tbl fuel s') := by
      rw [searchLoop]
      simp only [← hkdef]
      rw [getElem?_getD hkn]
      simp only [Option.elim_some, if_neg (Nat.not_lt.mpr hclen), bind, Except.bind, hr, hsn]
    rw [hun]
    by_cases hd : (cmpL T (rd (tbl.getD k default).key) 0).1 < 0
    · have hTk : T < rd (tbl.getD k default).key := (cmpL_lt _ _ _).mp hd
      simp only [if_pos hd]
      by_cases hki : k - s.i ≤ 1
      · rw [if_pos hki]
        by_cases h0 : 0 < s.i
        · have hb : (decide (0 < s.i) || k == s.i || s.first) = true := by simp [h0]
          rw [if_pos hb]
          refine ⟨_, _, rfl, by omega, ?_, ?_⟩
          · rcases inv.hi with ⟨h, -⟩ | h
            · omega
            · exact Or.inl h
          · intro m hm1 hm2
            exact lt_of_lt_of_le hTk (hsle k m (by omega) hm2)
        · have hi0 : s.i = 0 := by omega
          by_cases hk0 : k = 0
          · have hb : (decide (0 < s.i) || k == s.i || s.first) = true := by simp [hi0, hk0]
            rw [if_pos hb]
            rw [hk0] at hTk
            refine ⟨_, _, rfl, by omega, Or.inr ⟨hi0, ?_, hTk⟩, ?_⟩
            · rcases inv.hi with ⟨-, h⟩ | ⟨h, -⟩
              · exact h
              · rw [hi0] at h
                exact absurd h (not_le.mpr hTk)
            · intro m hm1 hm2
              exact lt_of_lt_of_le hTk (hsle 0 m (by omega) hm2)
          · have hfirst : s.first = false := by
              cases hf : s.first with
              | false => rfl
              | true =>
                have := inv.hf hf
                omega
            have hb : ¬ (decide (0 < s.i) || k == s.i || s.first) = true := by simp [hi0, hk0, hfirst]
            rw [if_neg hb]
            apply ih
            · exact ⟨by simp only; omega, by simp only; omega, inv.hi, Or.inr ⟨hkn, hTk, rfl⟩, fun _ => hki⟩
            · simp only [if_true]
              rw [hfirst] at hm
              simp only [Bool.false_eq_true, if_false] at hm
              omega
      · rw [if_neg hki]
        have hfirst : s.first = false := by
          cases hf : s.first with
          | false => rfl
          | true =>
            have := inv.hf hf
            omega
        apply ih
        · exact ⟨by simp only; omega, by simp only; omega, inv.hi, Or.inr ⟨hkn, hTk, rfl⟩,
            fun h => absurd h (by simp [hfirst])⟩
        · rw [hfirst] at hm ⊢
          simp only [Bool.false_eq_true, if_false] at hm ⊢
          omega
    · have hTk : rd (tbl.getD k default).key ≤ T := not_lt.mp (fun h => hd ((cmpL_lt _ _ _).mpr h))
      simp only [if_neg hd]
      have hjm : ∀ m, k < m → s.j - k ≤ 1 → m < tbl.length → T < rd (tbl.getD m default).key := by
        intro m hm1 hj1 hm2
        rcases inv.hj with ⟨h, -⟩ | ⟨h1, h2, -⟩
        · omega
        · exact lt_of_lt_of_le h2 (hsle s.j m (by omega) hm2)
      by_cases hki : s.j - k ≤ 1
      · rw [if_pos hki]
        by_cases hb : (decide (0 < k) || s.j == k || s.first) = true
        · rw [if_pos hb]
          exact ⟨_, _, rfl, hkn, Or.inl ⟨hTk, rfl⟩, fun m hm1 hm2 => hjm m hm1 hki hm2⟩
        · rw [if_neg hb]
          simp only [Bool.or_eq_true, decide_eq_true_eq, beq_iff_eq, not_or, Bool.not_eq_true] at hb
          apply ih
          · exact ⟨by simp only; omega, hle, Or.inr ⟨hTk, rfl⟩, inv.hj, fun _ => hki⟩
          · simp only [if_true]
            rw [hb.2] at hm
            simp only [Bool.false_eq_true, if_false] at hm
            omega
      · rw [if_neg hki]
        have hfirst : s.first = false := by
          cases hf : s.first with
          | false => rfl
          | true =>
            have := inv.hf hf
            omega
        apply ih
        · exact ⟨by simp only; omega, hle, Or.inr ⟨hTk, rfl⟩, inv.hj,
            fun h => absurd h (by simp [hfirst])⟩
        · rw [hfirst] at hm ⊢
          simp only [Bool.false_eq_true, if_false] at hm ⊢
          omega

/-- The longest of the keys with property `P`. -/
def Longest (tbl : List Among) (P : List Nat → Prop) : Option Among → Prop
  | some v => v ∈ tbl ∧ P v.key ∧ ∀ v' ∈ tbl, P v'.key → v'.key.length ≤ v.key.length
  | none => ∀ v' ∈ tbl, ¬ P v'.key

theorem chain_longest (hrd : ∀ k, (rd k).length = k.length) (hl : Links rd tbl) (ci : Nat) :
    ∀ (fuel m : Nat), m < fuel → m < tbl.length →
      ∃ r, chainLoop tbl ci fuel (m : Int) = .ok r ∧
        Longest tbl (fun k => rd k <+: rd (tbl.getD m default).key ∧ k.length ≤ ci) r := by
  intro fuel
  induction fuel with
  | zero => intro m hm; omega
  | succ fuel ih =>
    intro m hm hmn
    have hmem : ∀ a, a < tbl.length → tbl.getD a default ∈ tbl := by
      intro a ha
      have := getElem?_getD ha
      exact List.mem_of_getElem? this
    rw [chainLoop, if_neg (by omega), Int.toNat_natCast, getElem?_getD hmn]
    simp only [Option.elim_some]
    by_cases hlen : (tbl.getD m default).key.length ≤ ci
    · rw [if_pos hlen]
      refine ⟨_, rfl, hmem m hmn, ⟨List.prefix_rfl, hlen⟩, ?_⟩
      intro v' _ h
      have := h.1.length_le
      rwa [hrd, hrd] at this
    · rw [if_neg hlen]
      rcases hl m hmn with ⟨h1, h2⟩ | ⟨h1, h2, h3, h4⟩
      · rw [if_pos h1]
        refine ⟨_, rfl, ?_⟩
        intro v' hv' ⟨ha, hb⟩
        exact h2 v' hv' ha (by omega)
      · rw [if_neg (by omega)]
        obtain ⟨n, hn⟩ : ∃ n : Nat, (tbl.getD m default).sub = n := ⟨_, (Int.toNat_of_nonneg h1).symm⟩
        rw [hn, Int.toNat_natCast] at h2 h3 h4
        rw [hn]
        obtain ⟨r, hr1, hr2⟩ := ih n (by omega) (by omega)
        refine ⟨r, hr1, ?_⟩
        have key : ∀ v' ∈ tbl, rd v'.key <+: rd (tbl.getD m default).key → v'.key.length ≤ ci →
            rd v'.key <+: rd (tbl.getD n default).key := by
          intro v' hv' ha hb
          have := h4 v' hv' ha (by omega)
          exact List.prefix_of_prefix_length_le ha h3 (by rwa [hrd, hrd])
        cases r with
        | none =>
          intro v' hv' ⟨ha, hb⟩
          exact hr2 v' hv' ⟨key v' hv' ha hb, hb⟩
        | some v =>
          obtain ⟨ha, ⟨hb, hc⟩, hd⟩ := hr2
          refine ⟨ha, ⟨hb.trans h3, hc⟩, ?_⟩
          intro v' hv' ⟨hx, hy⟩
          exact hd v' hv' ⟨key v' hv' hx hy, hy⟩

/-- Both loops together: the longest key that is a prefix of the text (as read). -/
theorem find_longest (hrd : ∀ k, (rd k).length = k.length) (hcmp : CmpOK rd T cmp) (hs : Sorted rd tbl)
    (hl : Links rd tbl) (hne : 0 < tbl.length) :
    ∃ i ci r, searchLoop cmp tbl (tbl.length + 2) ⟨0, tbl.length, 0, 0, false⟩ = .ok (i, ci) ∧
      chainLoop tbl ci (tbl.length + 1) (i : Int) = .ok r ∧ Longest tbl (fun k => rd k <+: T) r := by
  obtain ⟨i, ci, h1, hin, h2, h3⟩ := search_found (T := T) hrd hcmp hs (tbl.length + 2) ⟨0, tbl.length, 0, 0, false⟩
    ⟨hne, le_refl _, Or.inl ⟨rfl, rfl⟩, Or.inl ⟨rfl, rfl⟩, fun h => absurd h (by simp)⟩ (by simp)
  obtain ⟨r, hr1, hr2⟩ := chain_longest hrd hl ci (tbl.length + 1) i (by omega) hin
  refine ⟨i, ci, r, h1, hr1, ?_⟩
  have idx : ∀ v' ∈ tbl, ∃ m, m < tbl.length ∧ tbl.getD m default = v' := by
    intro v' hv'
    obtain ⟨m, hm, he⟩ := List.mem_iff_getElem.mp hv'
    refine ⟨m, hm, ?_⟩
    rw [List.getD_eq_getElem?_getD, List.getElem?_eq_getElem hm]
    exact he
  have key : ∀ v' ∈ tbl, (rd v'.key <+: T ↔ rd v'.key <+: rd (tbl.getD i default).key ∧ v'.key.length ≤ ci) := by
    intro v' hv'
    constructor
    · intro h
      obtain ⟨m, hm, rfl⟩ := idx v' hv'
      have hmT := prefix_le _ _ h
      have hmi : m ≤ i := by
        by_contra hc
        exact absurd hmT (not_le.mpr (h3 m (by omega) hm))
      rcases h2 with ⟨ha, hb⟩ | ⟨ha, -, hb⟩
      · have hle : rd (tbl.getD m default).key ≤ rd (tbl.getD i default).key := by
          rcases Nat.lt_or_eq_of_le hmi with h | h
          · exact le_of_lt (hs m i h hin)
          · rw [h]
        have hp := sandwich _ _ _ _ hle ha List.prefix_rfl h
        refine ⟨hp, ?_⟩
        have := (lcp_prefix T _ _ hp).mp h
        rw [hrd] at this
        omega
      · have : m = 0 := by omega
        subst this
        exact absurd hmT (not_le.mpr hb)
    · rintro ⟨ha, hb⟩
      rcases h2 with ⟨-, hc⟩ | ⟨h0, hc, hd⟩
      · rw [lcp_prefix T _ _ ha, hrd]
        omega
      · have : rd v'.key = [] := by
          have := hrd v'.key
          exact List.eq_nil_of_length_eq_zero (by omega)
        rw [this]
        exact List.nil_prefix
  cases r with
  | none =>
    intro v' hv' h
    exact hr2 v' hv' ((key v' hv').mp h)
  | some v =>
    obtain ⟨ha, hb, hc⟩ := hr2
    exact ⟨ha, (key v ha).mpr hb, fun v' hv' h => hc v' hv' ((key v' hv').mp h)⟩

end

theorem byteAt_nat (t : List Nat) (n : Nat) (x : Nat) (h : t[n]? = some x) : byteAt t (n : Int) = .ok x := by
  unfold byteAt
  rw [if_neg (by omega), Int.toNat_natCast, h]
  rfl

/-- The forward comparison reads the text after the cursor. -/
theorem cmpFwd_ok (t : List Nat) (c : Nat) (hc : c ≤ t.length) :
    CmpOK id (t.drop c) (cmpFwd t c t.length) := by
  intro key common h1 h2
  obtain ⟨n, hn⟩ : ∃ n, n = key.length - common := ⟨_, rfl⟩
  rw [← hn]
  induction n generalizing common with
  | zero =>
    have : key.drop common = [] := List.drop_eq_nil_of_le (by omega)
    simp only [cmpFwd, id_eq, this]
    cases (List.drop c t).drop common <;> rfl
  | succ n ih =>
    rw [List.length_drop] at h2
    have hkl : common < key.length := by omega
    rw [cmpFwd]
    by_cases he : common = t.length - c
    · rw [if_pos (by omega)]
      have : (t.drop c).drop common = [] := List.drop_eq_nil_of_le (by rw [List.length_drop]; omega)
      rw [this, id_eq, List.drop_eq_getElem_cons hkl]
      rfl
    · have hlt : c + common < t.length := by omega
      rw [if_neg (by omega)]
      rw [show (c : Int) + (common : Int) = ((c + common : Nat) : Int) by omega]
      rw [byteAt_nat t (c + common) _ (List.getElem?_eq_getElem hlt),
        byteAt_nat key common _ (List.getElem?_eq_getElem hkl)]
      have hT : (t.drop c).drop common = t[c + common] :: (t.drop c).drop (common + 1) := by
        rw [List.drop_drop, List.drop_drop, List.drop_eq_getElem_cons hlt]
        rfl
      rw [id_eq, hT, List.drop_eq_getElem_cons hkl]
      simp only [bind, Except.bind, cmpL]
      split
      · rw [ih (common + 1) (by omega) (by rw [List.length_drop]; omega) (by omega)]
        rfl
      · rfl

/-- The backward comparison reads the text before the cursor, from the right. -/
theorem cmpBwd_ok (t : List Nat) (c : Nat) (hc : c ≤ t.length) :
    CmpOK List.reverse (t.take c).reverse (cmpBwd t c 0) := by
  intro key common h1 h2
  obtain ⟨n, hn⟩ : ∃ n, n = key.length - common := ⟨_, rfl⟩
  rw [← hn]
  have hl : (t.take c).reverse.length = c := by rw [List.length_reverse, List.length_take]; omega
  induction n generalizing common with
  | zero =>
    have : key.reverse.drop common = [] := List.drop_eq_nil_of_le (by rw [List.length_reverse]; omega)
    rw [cmpBwd, this]
    cases (t.take c).reverse.drop common <;> rfl
  | succ n ih =>
    rw [hl] at h2
    have hkl : common < key.reverse.length := by rw [List.length_reverse]; omega
    have hnk : n < key.length := by omega
    rw [cmpBwd]
    by_cases he : common = c
    · rw [if_pos (by omega)]
      have : (t.take c).reverse.drop common = [] := List.drop_eq_nil_of_le (by omega)
      rw [this, List.drop_eq_getElem_cons hkl]
      rfl
    · have hlt : common < c := by omega
      have hlt' : common < (t.take c).reverse.length := by omega
      rw [if_neg (by omega)]
      rw [show (c : Int) - (common : Int) - 1 = ((c - common - 1 : Nat) : Int) by omega]
      rw [byteAt_nat t (c - common - 1) _ (List.getElem?_eq_getElem (by omega)),
        byteAt_nat key n _ (List.getElem?_eq_getElem hnk)]
      rw [List.drop_eq_getElem_cons hlt', List.drop_eq_getElem_cons hkl]
      have e1 : (t.take c).reverse[common] = t[c - common - 1] := by
        rw [List.getElem_reverse, List.getElem_take]
        congr 1
        rw [List.length_take]
        omega
      have e2 : key.reverse[common] = key[n] := by
        rw [List.getElem_reverse]
        congr 1
        omega
      simp only [bind, Except.bind, cmpL, e1, e2]
      split
      · rw [ih (common + 1) (by omega) (by rw [hl]; omega) (by omega)]
      · rfl

end Verif.Snowball
