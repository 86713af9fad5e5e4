import Verif.Model.StrExpr
import Verif.Props.EditDist
import Verif.Props.Snowball
import Mathlib.Tactic.NormNum
import Mathlib.Algebra.BigOperators.Group.List.Lemmas
import Mathlib.Algebra.Order.BigOperators.Group.List

/-!
# Vocabulary similarity, tokens, numbers in text, white space: theorems
-/

namespace Verif.StrExpr.Spec
open Verif.EditDist.Spec

/-- A similarity between an entry and a word. -/
abbrev Sim (K : Type) := List Char → List Char → K

/-- `s` is the normalized similarity for the least number of edits. -/
def IsLevSim {K : Type} [Field K] (sim : Sim K) : Prop :=
  ∀ x y d, LeastEdits d x y →
    sim x y = if max x.length y.length = 0 then 1 else 1 - (d : K) / ((max x.length y.length : Nat) : K)

/-- `s` is the normalized similarity for the least cost of cutting both strings into pieces that are equal, replaced,
deleted, inserted or swapped neighbors. -/
def IsOsaSim {K : Type} [Field K] (sim : Sim K) : Prop :=
  ∀ x y d, Alignable d x y → (∀ n, Alignable n x y → d ≤ n) →
    sim x y = if max x.length y.length = 0 then 1 else 1 - (d : K) / ((max x.length y.length : Nat) : K)

/-- The columns for the three strategies. -/
def Strategies {K : Type} [Field K] [LinearOrder K] (run : String → Vocab) (sim : Sim K) (vocab : List (List Char)) (t : K)
    (c : List (List Char)) : Prop :=
  (∃ col : List (Option Bool), run "all" = .col col ∧ col.length = c.length ∧
    ∀ (i : Nat) (s : List Char), c[i]? = some s → ∃ b, col[i]? = some (some b) ∧ (b = true ↔ ∀ w ∈ vocab, t ≤ sim s w)) ∧
  (∃ col : List (Option Bool), run "any" = .col col ∧ col.length = c.length ∧
    ∀ (i : Nat) (s : List Char), c[i]? = some s → ∃ b, col[i]? = some (some b) ∧ (b = true ↔ ∃ w ∈ vocab, t ≤ sim s w)) ∧
  (∃ col : List (Option Bool), run "avg" = .col col ∧ col.length = c.length ∧
    ∀ (i : Nat) (s : List Char), c[i]? = some s → ∃ b, col[i]? = some (some b) ∧
      (b = true ↔ t * vocab.length ≤ (vocab.map (sim s)).sum))

/-- A number as `\d+` or `\d*\.\d+`. -/
def NumberForm (dig : Char → Bool) (m : List Char) : Prop :=
  (m ≠ [] ∧ ∀ c ∈ m, dig c = true) ∨
  ∃ a b, m = a ++ '.' :: b ∧ (∀ c ∈ a, dig c = true) ∧ b ≠ [] ∧ ∀ c ∈ b, dig c = true

/-- `s` consists of the pieces `ms` in order with text without digits between and around them. -/
inductive Cut (dig : Char → Bool) : List Char → List (List Char) → Prop
  | done (g : List Char) (h : ∀ c ∈ g, dig c = false) : Cut dig g []
  | piece (g m s : List Char) (ms : List (List Char)) (hg : ∀ c ∈ g, dig c = false) (h : Cut dig s ms) :
      Cut dig (g ++ m ++ s) (m :: ms)

end Verif.StrExpr.Spec

namespace Verif.StrExpr
open Verif.StrExpr.Spec Verif.EditDist Verif.EditDist.Spec Verif.StrMisc

section vocab
variable {K : Type} [Field K] [LinearOrder K] [IsStrictOrderedRing K]

theorem strategies_of (dlv : List Char → List Char → Nat) (metric : String) (sim : Sim K) (vocab : List (List Char))
    (hv : vocab ≠ []) (hsims : ∀ s, vocabSims (K := K) dlv metric vocab s = .ok (vocab.map (sim s))) (t : K)
    (c : List (List Char)) :
    Strategies (fun st => similarToVocab dlv metric st vocab t (c.map some)) sim vocab t c := by
  have hlen : (0 : K) < vocab.length := by
    exact_mod_cast List.length_pos_iff.2 hv
  simp only [Strategies, similarToVocab, hsims, Except.toOption, Option.getD_some, if_true, List.map_map,
    Function.comp_def, Option.map_some, Option.elim_some, String.reduceEq, if_false]
  refine ⟨⟨_, rfl, by simp, fun i s h => ?_⟩, ⟨_, rfl, by simp, fun i s h => ?_⟩, ⟨_, rfl, by simp, fun i s h => ?_⟩⟩
  · refine ⟨_, by rw [List.getElem?_map, h]; rfl, ?_⟩
    simp
  · refine ⟨_, by rw [List.getElem?_map, h]; rfl, ?_⟩
    simp
  · refine ⟨_, by rw [List.getElem?_map, h]; rfl, ?_⟩
    exact decide_eq_true_iff.trans (le_div_iff₀ hlen)

/-- `all` holds iff the entry is similar to every word, `any` iff to some word, `avg` iff the mean similarity reaches
the threshold; the similarity is the normalized edit similarity.  The entries are present. -/
theorem similar_to_vocab_partial (dlv : List Char → List Char → Nat) (sim : Sim K) (hsim : IsLevSim sim)
    (vocab : List (List Char)) (hv : vocab ≠ []) (t : K) (c : List (List Char)) :
    Strategies (fun st => similarToVocab dlv "lv" st vocab t (c.map some)) sim vocab t c := by
  refine strategies_of dlv "lv" sim vocab hv (fun s => ?_) t c
  rw [vocabSims, if_pos rfl]
  congr 1
  refine List.map_congr_left fun w _ => ?_
  rw [hsim s w (lev w s) (by rw [lev_symm]; exact lev_least s w), normSim, max_comm]

/-- The same with `osa`, where swapping two neighbors counts as one edit. -/
theorem similar_to_vocab_osa_partial (dlv : List Char → List Char → Nat) (sim : Sim K) (hsim : IsOsaSim sim)
    (vocab : List (List Char)) (hv : vocab ≠ []) (t : K) (c : List (List Char)) :
    Strategies (fun st => similarToVocab dlv "osa" st vocab t (c.map some)) sim vocab t c := by
  refine strategies_of dlv "osa" sim vocab hv (fun s => ?_) t c
  rw [vocabSims, if_neg (by decide), if_neg (by decide), if_pos rfl]
  congr 1
  refine List.map_congr_left fun w _ => ?_
  rw [hsim s w (osa w s) (by rw [osa_symm]; exact (osa_align s w).alignable)
    (fun n hn => by rw [osa_symm]; exact osa_le_align (Alignable.align hn)), normSim, max_comm]

/-- Similar to all words implies similar on average implies similar to some word. -/
theorem similar_to_vocab_order (sims : List K) (hv : sims ≠ []) (t : K) :
    ((∀ v ∈ sims, t ≤ v) → t * sims.length ≤ sims.sum) ∧
    (t * sims.length ≤ sims.sum → ∃ v ∈ sims, t ≤ v) := by
  constructor
  · intro h
    have := List.card_nsmul_le_sum sims t h
    rw [nsmul_eq_mul, mul_comm] at this
    exact this
  · intro h
    by_contra hn
    push Not at hn
    have hlt : ∀ l : List K, l ≠ [] → (∀ v ∈ l, v < t) → l.sum < t * l.length := by
      intro l hl h
      induction l with
      | nil => exact absurd rfl hl
      | cons a l ih =>
        have ha := h a (List.mem_cons_self ..)
        rw [List.sum_cons, List.length_cons]
        push_cast
        rcases eq_or_ne l [] with rfl | hl'
        · simp only [List.sum_nil, List.length_nil, Nat.cast_zero]; linarith
        · have := ih hl' fun v hv => h v (List.mem_cons_of_mem _ hv)
          linarith
    exact absurd h (not_le.2 (hlt sims hv hn))

omit [IsStrictOrderedRing K] in
/-- The documented metric `jw` raises for every vocabulary, strategy and column. -/
theorem similar_to_vocab_jw (dlv : List Char → List Char → Nat) (strategy : String) (w : List Char)
    (vocab : List (List Char)) (t : K) (c : StrCol) :
    similarToVocab dlv "jw" strategy (w :: vocab) t c = .typeError := by
  simp [similarToVocab, vocabSims]

omit [IsStrictOrderedRing K] in
/-- A missing entry: null for `all` and `any`, but with `avg` it counts as similarity zero to every word. -/
theorem similar_to_vocab_null (dlv : List Char → List Char → Nat) (vocab : List (List Char)) (t : K) :
    similarToVocab dlv "lv" "all" vocab t [none] = .col [none] ∧
    similarToVocab dlv "lv" "any" vocab t [none] = .col [none] ∧
    similarToVocab dlv "lv" "avg" vocab t [none] = .col [some (decide (t ≤ 0))] := by
  simp [similarToVocab, vocabSims, Except.toOption]

omit [IsStrictOrderedRing K] in
/-- Unknown names are errors. -/
theorem similar_to_vocab_names (dlv : List Char → List Char → Nat) (metric strategy : String) (vocab : List (List Char))
    (t : K) (c : StrCol) (h : metric ∉ ["lv", "dlv", "jw", "osa"] ∨
      (metric ∈ ["lv", "dlv", "osa"] ∧ strategy ∉ ["all", "any", "avg"])) :
    similarToVocab dlv metric strategy vocab t c = .valueError := by
  rcases h with h | ⟨h, h2⟩
  · simp only [List.mem_cons, List.not_mem_nil, or_false, not_or] at h
    simp [similarToVocab, vocabSims, h]
  · simp only [List.mem_cons, List.not_mem_nil, or_false, not_or] at h h2
    rcases h with rfl | rfl | rfl <;> simp [similarToVocab, vocabSims, h2]

example : similarToVocab (K := ℚ) (fun _ _ => 0) "lv" "avg" ["ab".toList, "cd".toList] (1 / 2)
      [some "ab".toList, some "xy".toList, none] = .col [some true, some false, some false] ∧
    similarToVocab (K := ℚ) (fun _ _ => 0) "lv" "all" ["ab".toList, "cd".toList] (1 / 2)
      [some "ab".toList, some "xy".toList, none] = .col [some false, some false, none] ∧
    similarToVocab (K := ℚ) (fun _ _ => 0) "osa" "any" ["ab".toList, "cd".toList] (1 / 2)
      [some "ba".toList, some "xy".toList, none] = .col [some true, some false, none] := by
  decide +kernel

/-- The similarity of `rapidfuzz` meets `IsLevSim`. -/
example : IsLevSim (K := ℚ) fun x y => normSim (lev x y) (max x.length y.length) := by
  intro x y d h
  have : d = lev x y := Nat.le_antisymm (h.2 _ (lev_least _ _).1) ((lev_least _ _).2 _ h.1)
  rw [this]
  rfl

example : IsOsaSim (K := ℚ) fun x y => normSim (osa x y) (max x.length y.length) := by
  intro x y d h h'
  have : d = osa x y := Nat.le_antisymm (h' _ (osa_align x y).alignable) (osa_le_align (Alignable.align h))
  rw [this]
  rfl

end vocab

/-! ## Tokens -/

/-- With `stem=True` each list keeps one entry per token: stop words become empty strings and equal stems stay. -/
theorem tokenize_stem_all (rows : List (Option (List String))) (i : Nat) (ts : List String)
    (h : rows[i]? = some (some ts)) :
    ∃ l : List (Except Snowball.Fault (List Nat)), (tokenizeStem rows)[i]? = some (some l) ∧ l.length = ts.length ∧
      ∀ (j : Nat) (t : String), ts[j]? = some t →
        l[j]? = some (Snowball.snowball t true) ∧
        (t ∈ Stopword.enStopwords → l[j]? = some (.ok [])) := by
  have hf : ∀ ts : List String, (Snowball.snowballCol (ts.map some) true).filterMap id =
      ts.map fun t => Snowball.snowball t true := by
    intro ts
    induction ts with
    | nil => rfl
    | cons t ts ih =>
      have : Snowball.snowballCol ((t :: ts).map some) true =
          some (Snowball.snowball t true) :: Snowball.snowballCol (ts.map some) true := rfl
      rw [this, List.filterMap_cons_some (by rfl), ih]
      rfl
  refine ⟨ts.map fun t => Snowball.snowball t true, ?_, by simp, fun j t hj => ⟨?_, fun hs => ?_⟩⟩
  · rw [tokenizeStem, List.getElem?_map, h]
    simp only [Option.map_some, hf]
  · rw [List.getElem?_map, hj]; rfl
  · rw [List.getElem?_map, hj, Option.map_some, (Snowball.snowball_eq t true).2.1 hs]

/-- So neither are the stems unique nor the stop words removed, as documented. -/
theorem tokenize_stem_wrong :
    tokenizeStem [some ["cats", "the", "cat", "the"]] =
      [some [.ok (Snowball.str "cat"), .ok [], .ok (Snowball.str "cat"), .ok []]] := by
  decide +kernel

/-! ## Numbers in text -/

section numbers
variable {dig : Char → Bool}

theorem takeWhile_all {s : List Char} : ∀ c ∈ s.takeWhile dig, dig c = true := by
  intro c hc
  exact List.mem_takeWhile_imp hc

theorem dropWhile_head {s : List Char} (c : Char) (h : (s.dropWhile dig).head? = some c) : dig c = false := by
  have := List.head?_dropWhile_not dig s
  rw [h] at this
  simpa using this

/-- A match is a number at the start; what it leaves does not start with a digit. -/
theorem matchNumber_some {s m r : List Char} (h : matchNumber dig s = some (m, r)) :
    s = m ++ r ∧ NumberForm dig m ∧ (∀ c, r.head? = some c → dig c = false) := by
  unfold matchNumber at h
  simp only [] at h
  split at h
  · rename_i hc
    simp only [Option.some.injEq, Prod.mk.injEq] at h
    obtain ⟨rfl, rfl⟩ := h
    have hr : s.dropWhile dig = '.' :: (s.dropWhile dig).tail := by
      cases hd : s.dropWhile dig with
      | nil => rw [hd] at hc; simp at hc
      | cons a l => rw [hd] at hc; simp only [List.head?_cons, Option.some.injEq] at hc; rw [hc.1]; rfl
    refine ⟨?_, Or.inr ⟨_, _, rfl, takeWhile_all, hc.2, takeWhile_all⟩, fun c hc => dropWhile_head c hc⟩
    rw [List.append_assoc, List.cons_append, List.takeWhile_append_dropWhile, ← hr, List.takeWhile_append_dropWhile]
  · split at h
    · rename_i hd
      simp only [Option.some.injEq, Prod.mk.injEq] at h
      obtain ⟨rfl, rfl⟩ := h
      exact ⟨(List.takeWhile_append_dropWhile).symm, Or.inl ⟨hd, takeWhile_all⟩, fun c hc => dropWhile_head c hc⟩
    · simp at h

theorem matchNumber_none {c : Char} {s : List Char} (h : matchNumber dig (c :: s) = none) : dig c = false := by
  unfold matchNumber at h
  simp only [] at h
  split at h
  · simp at h
  · split at h
    · simp at h
    · rename_i hd
      by_contra hc
      simp only [Bool.not_eq_false] at hc
      simp [hc] at hd

theorem extractFuel_nil (n : Nat) : extractFuel dig n [] = [] := by cases n <;> rfl

theorem extractFuel_spec (n : Nat) (s : List Char) (hn : s.length ≤ n) :
    Cut dig s (extractFuel dig n s) ∧ ∀ m ∈ extractFuel dig n s, NumberForm dig m := by
  induction n generalizing s with
  | zero =>
    have : s = [] := List.length_eq_zero_iff.1 (by omega)
    subst this
    exact ⟨.done [] (by simp), by simp [extractFuel]⟩
  | succ n ih =>
    cases s with
    | nil => exact ⟨.done [] (by simp), by simp [extractFuel]⟩
    | cons c s =>
      simp only [extractFuel]
      cases hm : matchNumber dig (c :: s) with
      | none =>
        obtain ⟨h1, h2⟩ := ih s (by simpa using hn)
        refine ⟨?_, h2⟩
        have hc := matchNumber_none hm
        generalize extractFuel dig n s = ms at h1
        cases h1 with
        | done g h => exact .done _ (by simpa [hc] using h)
        | piece g m s ms hg h => exact Cut.piece (c :: g) m s ms (by simpa [hc] using hg) h
      | some p =>
        obtain ⟨m, r⟩ := p
        obtain ⟨e, hf, _⟩ := matchNumber_some hm
        have hml : 0 < m.length := by
          rcases hf with h | ⟨a, b, rfl, _⟩
          · exact List.length_pos_iff.2 h.1
          · simp
        have hrl : r.length ≤ n := by
          have := congrArg List.length e
          simp only [List.length_cons, List.length_append] at this hn
          omega
        obtain ⟨h1, h2⟩ := ih r hrl
        simp only []
        constructor
        · rw [e]
          exact Cut.piece [] m r _ (by simp) h1
        · intro x hx
          rcases List.mem_cons.1 hx with rfl | hx
          · exact hf
          · exact h2 x hx

/-- Every result of `extract_numbers` is a number, they stand in the text in this order, and no digit of the text is
outside them. -/
theorem extract_numbers_cut (s : List Char) :
    extractNumbers dig false [] s = .list (extractAll dig s) ∧ Cut dig s (extractAll dig s) ∧
    ∀ m ∈ extractAll dig s, NumberForm dig m := by
  refine ⟨rfl, ?_⟩
  exact extractFuel_spec s.length s le_rfl

theorem extractFuel_enough (n m : Nat) (s : List Char) (hn : s.length ≤ n)
    (hm : s.length ≤ m) : extractFuel dig n s = extractFuel dig m s := by
  induction n generalizing s m with
  | zero =>
    have : s = [] := List.length_eq_zero_iff.1 (by omega)
    subst this
    rw [extractFuel_nil, extractFuel_nil]
  | succ n ih =>
    cases s with
    | nil => rw [extractFuel_nil, extractFuel_nil]
    | cons c s =>
      cases m with
      | zero => simp at hm
      | succ m =>
        simp only [List.length_cons] at hn hm
        simp only [extractFuel]
        cases hx : matchNumber dig (c :: s) with
        | none => exact ih m s (by omega) (by omega)
        | some p =>
          obtain ⟨u, r⟩ := p
          obtain ⟨e, hf, _⟩ := matchNumber_some hx
          have hml : 0 < u.length := by
            rcases hf with h | ⟨a, b, rfl, _⟩
            · exact List.length_pos_iff.2 h.1
            · simp
          have := congrArg List.length e
          simp only [List.length_cons, List.length_append] at this
          simp only []
          rw [ih m r (by omega) (by omega)]

theorem matchNumber_sep {a b : List Char} {g : Char} (hg : dig g = false) (hg2 : g ≠ '.') :
    matchNumber dig (a ++ g :: b) = (matchNumber dig a).map fun p => (p.1, p.2 ++ g :: b) := by
  have htw : ∀ l : List Char, (l ++ g :: b).takeWhile dig = l.takeWhile dig := by
    intro l
    induction l with
    | nil => simp [hg]
    | cons c l ih =>
      rw [List.cons_append, List.takeWhile_cons, List.takeWhile_cons, ih]
  have hdw : ∀ l : List Char, (l ++ g :: b).dropWhile dig = l.dropWhile dig ++ g :: b := by
    intro l
    induction l with
    | nil => simp [hg]
    | cons c l ih =>
      rw [List.cons_append, List.dropWhile_cons, List.dropWhile_cons, ih]
      split <;> rfl
  unfold matchNumber
  simp only [htw, hdw]
  cases hr : a.dropWhile dig with
  | nil =>
    simp only [List.nil_append, List.head?_cons, Option.some.injEq, hg2, false_and, if_false, List.head?_nil, reduceCtorEq]
    split <;> rfl
  | cons c r =>
    simp only [List.cons_append, List.head?_cons, List.tail_cons, htw, hdw]
    by_cases h1 : c = '.' <;> by_cases h2 : List.takeWhile dig r = [] <;>
      by_cases h3 : List.takeWhile dig a = [] <;> simp [h1, h2, h3]

/-- Text that is neither a digit nor a point separates: the numbers of `a`, then those of `b`. -/
theorem extract_numbers_separate (a b : List Char) (g : Char) (hg : dig g = false)
    (hg2 : g ≠ '.') : extractAll dig (a ++ g :: b) = extractAll dig a ++ extractAll dig b := by
  have key : ∀ (n : Nat) (a : List Char), a.length ≤ n →
      extractAll dig (a ++ g :: b) = extractAll dig a ++ extractAll dig b := by
    intro n
    induction n with
    | zero =>
      intro a ha
      have : a = [] := List.length_eq_zero_iff.1 (by omega)
      subst this
      have hm : matchNumber dig (g :: b) = none := by
        have := matchNumber_sep (a := []) (b := b) hg hg2
        simpa [matchNumber] using this
      simp only [List.nil_append, extractAll, List.length_cons, extractFuel, hm, List.length_nil]
    | succ n ih =>
      intro a ha
      cases a with
      | nil => exact ih [] (by simp)
      | cons c a =>
        simp only [List.length_cons] at ha
        have hx := matchNumber_sep (a := c :: a) (b := b) hg hg2
        rw [List.cons_append] at hx ⊢
        have e1 : extractAll dig (c :: (a ++ g :: b)) =
            extractFuel dig ((a ++ g :: b).length + 1) (c :: (a ++ g :: b)) := rfl
        have e2 : extractAll dig (c :: a) = extractFuel dig (a.length + 1) (c :: a) := rfl
        rw [e1, e2, extractFuel, extractFuel, hx]
        cases hm : matchNumber dig (c :: a) with
        | none =>
          simp only [Option.map_none]
          exact ih a (by omega)
        | some p =>
          obtain ⟨u, r⟩ := p
          obtain ⟨e, hf, _⟩ := matchNumber_some hm
          have hml : 0 < u.length := by
            rcases hf with h | ⟨a, b, rfl, _⟩
            · exact List.length_pos_iff.2 h.1
            · simp
          have hl := congrArg List.length e
          simp only [List.length_cons, List.length_append] at hl
          simp only [Option.map_some, List.cons_append]
          have h1 := ih r (by omega)
          rw [extractAll, extractAll] at h1
          rw [extractFuel_enough _ (r ++ g :: b).length _ (by simp only [List.length_append, List.length_cons]; omega)
            le_rfl, extractFuel_enough a.length r.length r (by omega) le_rfl, h1]
  exact key a.length a le_rfl

/-- A number alone is found whole. -/
theorem extract_numbers_number (hdot : dig '.' = false) (m : List Char) (hm : NumberForm dig m) :
    extractAll dig m = [m] := by
  have hmatch : matchNumber dig m = some (m, []) := by
    rcases hm with ⟨hne, hd⟩ | ⟨a, b, rfl, ha, hb, hbd⟩
    · have h1 : m.takeWhile dig = m := List.takeWhile_eq_self_iff.2 hd
      have h2 : m.dropWhile dig = [] := List.dropWhile_eq_nil_iff.2 hd
      simp [matchNumber, h1, h2, hne]
    · have h1 : (a ++ '.' :: b).takeWhile dig = a := by
        rw [List.takeWhile_append_of_pos ha]; simp [hdot]
      have h2 : (a ++ '.' :: b).dropWhile dig = '.' :: b := by
        rw [List.dropWhile_append_of_pos ha]; simp [hdot]
      have h3 : b.takeWhile dig = b := List.takeWhile_eq_self_iff.2 hbd
      have h4 : b.dropWhile dig = [] := List.dropWhile_eq_nil_iff.2 hbd
      simp [matchNumber, h1, h2, h3, h4, hb]
  have hne : m ≠ [] := by
    rcases hm with h | ⟨a, b, rfl, _⟩
    · exact h.1
    · simp
  cases m with
  | nil => exact absurd rfl hne
  | cons c m =>
    rw [extractAll, List.length_cons, extractFuel, hmatch]
    simp only [extractFuel_nil]

/-- A text that lists numbers with separators: exactly these numbers. -/
theorem extract_numbers_list (hdot : dig '.' = false) (m : List Char) (hm : NumberForm dig m)
    (ms : List (Char × List Char)) (h : ∀ p ∈ ms, dig p.1 = false ∧ p.1 ≠ '.' ∧ NumberForm dig p.2) :
    extractAll dig (m ++ ms.flatMap fun p => p.1 :: p.2) = m :: ms.map Prod.snd := by
  induction ms generalizing m with
  | nil => simp [extract_numbers_number hdot m hm]
  | cons p ms ih =>
    obtain ⟨h1, h2, h3⟩ := h p (List.mem_cons_self ..)
    rw [List.flatMap_cons, List.cons_append, extract_numbers_separate _ _ _ h1 h2,
      extract_numbers_number hdot m hm, ih p.2 h3 fun q hq => h q (List.mem_cons_of_mem _ hq)]
    rfl

/-- A sign is dropped: a negative number and its absolute value give the same. -/
theorem extract_numbers_sign (hm : dig '-' = false) (s : List Char) :
    extractAll dig ('-' :: s) = extractAll dig s := by
  have := extract_numbers_separate [] s '-' hm (by decide)
  simpa [extractAll, extractFuel] using this

end numbers

/-- So the numeric result for `-5` is `5`. -/
theorem extract_numbers_sign_wrong :
    extractValues false "-5".toList = [5] ∧ extractValues false "from -1.5 to 2".toList = [3 / 2, 2] := by
  decide +kernel

/-- With the default `join_by=""` the strings are not joined but returned as a list. -/
theorem extract_numbers_join (dig : Char → Bool) (b : Bool) (s : List Char) :
    ∃ l, extractNumbers dig b [] s = .list l := ⟨_, rfl⟩

/-- With a separator the cell is the joined string; `ignore_comma` removes the commas first. -/
theorem extract_numbers_joined (dig : Char → Bool) (j : List Char) (hj : j ≠ []) (s : List Char) :
    extractNumbers dig false j s = .str (j.intercalate (extractAll dig s)) ∧
    extractNumbers dig true j s = .str (j.intercalate (extractAll dig (s.filter (· ≠ ',')))) := by
  simp [extractNumbers, hj]

example : extractNumbers Char.isDigit false [] "1% to 25.5% of".toList = .list ["1".toList, "25.5".toList] ∧
    extractNumbers Char.isDigit false ['-'] "75% to 99%".toList = .str "75-99".toList ∧
    extractNumbers Char.isDigit true [] "1,000".toList = .list ["1000".toList] ∧
    extractNumbers Char.isDigit false [] "1.2.3 4.".toList = .list ["1.2".toList, ".3".toList, "4".toList] := by
  decide +kernel

/-- Digits are separate from `.` and `-`, as the theorems ask for, and numbers of both forms exist. -/
example : Char.isDigit '.' = false ∧ Char.isDigit '-' = false ∧ NumberForm Char.isDigit "25".toList ∧
    NumberForm Char.isDigit "2.5".toList := by
  refine ⟨by decide, by decide, Or.inl ⟨by decide, by decide⟩, Or.inr ⟨['2'], ['5'], rfl, ?_⟩⟩
  decide

/-! ## White space and non-ASCII text -/

/-- `normalize_whitespace(only_spaces=True)` leaves all other characters, leaves no two spaces next to each other and
changes nothing the second time. -/
theorem collapse_spaces (s : List Char) :
    (collapseSpaces s).filter (· ≠ ' ') = s.filter (· ≠ ' ') ∧
    (∀ i : Nat, ¬ ((collapseSpaces s)[i]? = some ' ' ∧ (collapseSpaces s)[i + 1]? = some ' ')) ∧
    (collapseSpaces s).head? = s.head? ∧ collapseSpaces (collapseSpaces s) = collapseSpaces s := by
  induction s with
  | nil => simp [collapseSpaces]
  | cons c s ih =>
    obtain ⟨h1, h2, h3, h4⟩ := ih
    by_cases hc : c = ' ' ∧ s.head? = some ' '
    · rw [collapseSpaces, if_pos hc]
      refine ⟨?_, h2, by rw [h3, hc.2, hc.1]; rfl, h4⟩
      rw [h1, List.filter_cons, hc.1]; rfl
    · have e : collapseSpaces (c :: s) = c :: collapseSpaces s := by rw [collapseSpaces, if_neg hc]
      rw [e]
      refine ⟨?_, ?_, rfl, ?_⟩
      · rw [List.filter_cons, List.filter_cons, h1]
      · intro i hi
        cases i with
        | zero =>
          simp only [List.getElem?_cons_zero, Option.some.injEq, List.getElem?_cons_succ] at hi
          rw [← List.head?_eq_getElem?, h3] at hi
          exact hc hi
        | succ i => exact h2 i (by simpa using hi)
      · rw [collapseSpaces, h3, if_neg hc, h4]

/-- The words between spaces are the same as before. -/
theorem collapse_spaces_words (s : List Char) :
    splitWhitespace (· == ' ') (collapseSpaces s) = splitWhitespace (· == ' ') s := by
  have hsp : ∀ (t : List Char), splitWhitespace (· == ' ') (' ' :: t) = splitWhitespace (· == ' ') t := by
    intro t
    exact splitWhitespace_pre (ws := (· == ' ')) [' '] t (by simp)
  have hcons : ∀ (c : Char) (t u : List Char), t.splitOnP (· == ' ') ≠ [] → c ≠ ' ' →
      t.head? = u.head? → splitWhitespace (· == ' ') t = splitWhitespace (· == ' ') u →
      splitWhitespace (· == ' ') (c :: t) = splitWhitespace (· == ' ') (c :: u) := by
    intro c t u _ hc hh he
    cases t with
    | nil =>
      cases u with
      | nil => rfl
      | cons d u => simp at hh
    | cons d t =>
      cases u with
      | nil => simp at hh
      | cons d' u =>
        simp only [List.head?_cons, Option.some.injEq] at hh
        subst hh
        have hcf : (c == ' ') = false := by simpa using hc
        by_cases hd : d = ' '
        · subst hd
          rw [hsp, hsp] at he
          simp only [splitWhitespace, List.splitOnP_cons_eq_if_modifyHead, hcf, beq_self_eq_true, if_true, Bool.false_eq_true, if_false,
            List.modifyHead_cons] at he ⊢
          simp only [List.filter_cons, List.isEmpty_cons, Bool.not_false, if_true]
          rw [he]
        · have hdf : (d == ' ') = false := by simpa using hd
          have hst : ∀ l : List Char, ∃ a b, l.splitOnP (· == ' ') = a :: b := by
            intro l
            cases h : l.splitOnP (· == ' ') with
            | nil => exact absurd h (List.splitOnP_ne_nil _ _)
            | cons a b => exact ⟨a, b, rfl⟩
          obtain ⟨a, b, ht⟩ := hst t
          obtain ⟨a', b', hu⟩ := hst u
          simp only [splitWhitespace, List.splitOnP_cons_eq_if_modifyHead, hcf, hdf, Bool.false_eq_true, if_false, ht, hu,
            List.modifyHead_cons, List.filter_cons, List.isEmpty_cons, Bool.not_false, if_true] at he ⊢
          simp only [List.cons.injEq, true_and] at he ⊢
          exact he
  induction s with
  | nil => rfl
  | cons c s ih =>
    by_cases hc : c = ' ' ∧ s.head? = some ' '
    · rw [collapseSpaces, if_pos hc, ih, hc.1, hsp]
    · rw [collapseSpaces, if_neg hc]
      by_cases h : c = ' '
      · rw [h, hsp, hsp, ih]
      · exact hcons c _ _ (List.splitOnP_ne_nil _ _) h (collapse_spaces s).2.2.1 ih

/-- For text whose only white space is the space, the two modes differ at the ends: the default drops spaces there,
this one keeps one. -/
theorem collapse_spaces_ends :
    normalizeWhitespace (· == ' ') "  a  b ".toList = "a b".toList ∧
    collapseSpaces "  a  b ".toList = " a b ".toList := by
  decide +kernel

/-- `replace_non_ascii`: with ASCII `value` the result is ASCII, ASCII text is unchanged, text is treated piece by piece
and the empty `value` is no special case. -/
theorem replace_non_ascii_spec (value : List Char) :
    ((∀ c ∈ value, c.toNat < 128) → ∀ s, ∀ c ∈ replaceNonAscii value s, c.toNat < 128) ∧
    (∀ s : List Char, (∀ c ∈ s, c.toNat < 128) → replaceNonAscii value s = s) ∧
    (∀ s t, replaceNonAscii value (s ++ t) = replaceNonAscii value s ++ replaceNonAscii value t) ∧
    (∀ c : Char, 128 ≤ c.toNat → replaceNonAscii value [c] = value) := by
  have e : ∀ s, replaceNonAscii value s = s.flatMap fun c => if c.toNat < 128 then [c] else value := by
    intro s
    unfold replaceNonAscii
    split
    · rename_i h
      subst h
      induction s with
      | nil => rfl
      | cons c s ih =>
        rw [removeNonAscii, List.filter_cons, List.flatMap_cons]
        rw [removeNonAscii] at ih
        by_cases hc : c.toNat < 128
        · simp [hc, ih]
        · simp [hc, ih]
    · rfl
  refine ⟨fun hv s c hc => ?_, fun s hs => ?_, fun s t => ?_, fun c hc => ?_⟩
  · rw [e, List.mem_flatMap] at hc
    obtain ⟨d, _, hd⟩ := hc
    split at hd
    · simp only [List.mem_singleton] at hd; subst hd; assumption
    · exact hv c hd
  · rw [e]
    induction s with
    | nil => rfl
    | cons c s ih =>
      rw [List.flatMap_cons, ih fun d hd => hs d (List.mem_cons_of_mem _ hd), if_pos (hs c (List.mem_cons_self ..))]
      rfl
  · rw [e, e, e, List.flatMap_append]
  · rw [e]
    simp [Nat.not_lt.2 hc]

/-- `remove_diacritics` gives ASCII text, and leaves ASCII text alone (the decomposition of ASCII text is itself). -/
theorem remove_diacritics_ascii (nfd : List Char → List Char) (hn : ∀ s, (∀ c ∈ s, c.toNat < 128) → nfd s = s) :
    (∀ s, ∀ c ∈ removeDiacritics nfd s, c.toNat < 128) ∧
    (∀ s : List Char, (∀ c ∈ s, c.toNat < 128) → removeDiacritics nfd s = s) ∧
    (∀ s, removeDiacritics nfd (removeDiacritics nfd s) = removeDiacritics nfd s) := by
  have h1 : ∀ s, ∀ c ∈ removeDiacritics nfd s, c.toNat < 128 := by
    intro s c hc
    simpa using (List.mem_filter.1 hc).2
  have h2 : ∀ s : List Char, (∀ c ∈ s, c.toNat < 128) → removeDiacritics nfd s = s := by
    intro s hs
    rw [removeDiacritics, hn s hs]
    exact List.filter_eq_self.2 fun c hc => by simpa using hs c hc
  exact ⟨h1, h2, fun s => h2 _ (h1 s)⟩

example : replaceNonAscii ['?'] "xbĤ".toList = "xb?".toList ∧ replaceNonAscii [] "xbĤ".toList = "xb".toList := by
  decide +kernel

/-- A decomposition that meets the hypothesis: one accented letter. -/
example : (∀ s : List Char, (∀ c ∈ s, c.toNat < 128) →
      (s.flatMap fun c => if c = 'è' then ['e', '̀'] else [c]) = s) ∧
    removeDiacritics (fun s => s.flatMap fun c => if c = 'è' then ['e', '̀'] else [c]) "mèrcy".toList =
      "mercy".toList := by
  refine ⟨fun s hs => ?_, by decide +kernel⟩
  induction s with
  | nil => rfl
  | cons c s ih =>
    have hc : c ≠ 'è' := by
      rintro rfl
      exact absurd (hs 'è' (List.mem_cons_self ..)) (by decide)
    rw [List.flatMap_cons, if_neg hc, ih fun d hd => hs d (List.mem_cons_of_mem _ hd)]
    rfl

end Verif.StrExpr
