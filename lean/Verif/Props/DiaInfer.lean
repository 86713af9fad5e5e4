import Verif.Model.Dia
import Mathlib.Data.List.Perm.Basic
import Mathlib.Tactic.Linarith
import Mathlib.Tactic.NormNum

/-!
# C124: the guesses of the data inspection assistant on columns
-/

namespace Verif.Dia

namespace Spec

variable {V : Type}

/-- The column has exactly `k` distinct values, null counting as a value. -/
def HasValues (k : Nat) (c : List (Option V)) : Prop :=
  ∃ l : List (Option V), l.Nodup ∧ l.length = k ∧ ∀ v, v ∈ l ↔ v ∈ c

/-- The column has exactly `k` distinct values besides null. -/
def HasNonNull (k : Nat) (c : List (Option V)) : Prop :=
  ∃ l : List V, l.Nodup ∧ l.length = k ∧ ∀ v, v ∈ l ↔ some v ∈ c

end Spec

open Spec

section Infer

variable {V : Type} [DecidableEq V]

omit [DecidableEq V] in
theorem mem_namesWhere {ok : List (Option V) → Bool} {f : Frame V} {s : String} :
    s ∈ namesWhere ok f ↔ ∃ c, (s, c) ∈ f ∧ ok c = true := by
  simp only [namesWhere, List.mem_map, List.mem_filter, Prod.exists]
  constructor
  · rintro ⟨a, b, h, rfl⟩; exact ⟨b, h⟩
  · rintro ⟨c, h⟩; exact ⟨s, c, h, rfl⟩

theorem nUnique_iff {c : List (Option V)} {k : Nat} : nUnique c = k ↔ HasValues k c := by
  constructor
  · rintro rfl
    exact ⟨c.dedup, c.nodup_dedup, rfl, fun v => List.mem_dedup⟩
  · rintro ⟨l, hn, rfl, hm⟩
    exact ((List.perm_ext_iff_of_nodup c.nodup_dedup hn).2 fun v => by rw [List.mem_dedup, hm]).length_eq

omit [DecidableEq V] in
theorem length_reduce (l : List (Option V)) (hn : l.Nodup) (h : none ∈ l) :
    (l.filterMap id).length + 1 = l.length := by
  induction l with
  | nil => simp at h
  | cons a t ih =>
    rw [List.nodup_cons] at hn
    cases a with
    | none =>
      have : ∀ t : List (Option V), none ∉ t → (t.filterMap id).length = t.length := by
        intro t
        induction t with
        | nil => simp
        | cons b u ihu =>
          intro hb
          rw [List.mem_cons, not_or] at hb
          cases b with
          | none => exact absurd rfl hb.1
          | some b => simpa using ihu hb.2
      simpa using this t hn.1
    | some a =>
      simpa using ih hn.2 (by simpa using h)

theorem nUnique_null_iff {c : List (Option V)} {k : Nat} (h : none ∈ c) :
    nUnique c = k + 1 ↔ HasNonNull k c := by
  have hl := length_reduce c.dedup c.nodup_dedup (List.mem_dedup.2 h)
  have hnd : (c.dedup.filterMap id).Nodup := by
    refine c.nodup_dedup.filterMap ?_
    intro a a' b hb hb'
    simp only [id_eq, Option.mem_def] at hb hb'
    rw [hb, hb']
  have hm : ∀ v, v ∈ c.dedup.filterMap id ↔ some v ∈ c := fun v => by simp
  unfold nUnique
  constructor
  · intro he
    exact ⟨_, hnd, by omega, hm⟩
  · rintro ⟨l, hn, rfl, hl'⟩
    have := ((List.perm_ext_iff_of_nodup hnd hn).2 fun v => by rw [hm, hl']).length_eq
    omega

theorem nullCount_pos {c : List (Option V)} : 0 < nullCount c ↔ none ∈ c := List.count_pos_iff

/-- C124: `infer_k_distinct` returns exactly the columns with `k` distinct values (null is one of them) and, if
`include_null`, those with a null and `k` distinct values besides. -/
theorem infer_k_distinct_spec (f : Frame V) (k : Int) (b : Bool) (l : List String)
    (h : inferKDistinct f k b = some l) (s : String) :
    s ∈ l ↔ ∃ c, (s, c) ∈ f ∧
      (HasValues k.toNat c ∨ (b = true ∧ none ∈ c ∧ HasNonNull k.toNat c)) := by
  unfold inferKDistinct at h
  split at h
  · simp at h
  · obtain rfl := Option.some.inj h
    rw [mem_namesWhere]
    refine exists_congr fun c => and_congr_right fun _ => ?_
    unfold kDistinct
    cases b
    · simp [nUnique_iff]
    · by_cases hn : none ∈ c
      · simp [nUnique_iff, nullCount_pos, hn, ← nUnique_null_iff hn]
      · simp [nUnique_iff, nullCount_pos, hn]

/-- It raises exactly for `k < 1`. -/
theorem infer_k_distinct_raises (f : Frame V) (k : Int) (b : Bool) : inferKDistinct f k b = none ↔ k < 1 := by
  unfold inferKDistinct; split <;> simp_all

/-- `infer_const` and `infer_binary` are the cases 1 and 2. -/
theorem infer_const_binary (f : Frame V) (b : Bool) :
    inferKDistinct f 1 b = some (inferConst f b) ∧ inferKDistinct f 2 b = some (inferBinary f b) := by
  constructor <;> rfl

/-- Without nulls a column is returned for exactly one `k`: its number of distinct values. -/
theorem infer_k_distinct_unique (f : Frame V) (k : Int) (b : Bool) (l : List String)
    (h : inferKDistinct f k b = some l) (hn : ∀ c ∈ f, none ∉ c.2) (s : String) :
    s ∈ l ↔ ∃ c, (s, c) ∈ f ∧ HasNonNull k.toNat c := by
  rw [infer_k_distinct_spec f k b l h]
  refine exists_congr fun c => and_congr_right fun hc => ?_
  have hnc := hn _ hc
  constructor
  · rintro (⟨l', hd, hl, hm⟩ | h)
    · refine ⟨l'.filterMap id, ?_, ?_, fun v => by simp [hm]⟩
      · refine hd.filterMap ?_
        intro a a' b hb hb'
        simp only [id_eq, Option.mem_def] at hb hb'
        rw [hb, hb']
      · rw [← hl]
        have : ∀ t : List (Option V), none ∉ t → (t.filterMap id).length = t.length := by
          intro t
          induction t with
          | nil => simp
          | cons b u ihu =>
            intro hb
            rw [List.mem_cons, not_or] at hb
            cases b with
            | none => exact absurd rfl hb.1
            | some b => simpa using ihu hb.2
        exact this l' fun h0 => hnc ((hm none).1 h0)
    · exact absurd h.2.1 hnc
  · rintro ⟨l', hd, hl, hm⟩
    refine Or.inl ⟨l'.map some, hd.map (Option.some_injective V), by simpa using hl, fun v => ?_⟩
    cases v with
    | none => simp [hnc]
    | some v => simp [hm]

/-- A column with one value and a null is called binary, with and without `include_null`: null is a value. -/
theorem infer_binary_null (b : Bool) :
    inferBinary [("x", [some 1, none, some (1 : ℕ)]), ("y", [some 1, some 2, none])] b =
      if b then ["x", "y"] else ["x"] := by
  cases b <;> decide +kernel

example : inferKDistinct [("x", [some 1, none, some (1 : ℕ)]), ("y", [some 1, some 2, none])] 2 true = some ["x", "y"] ∧
    inferKDistinct [("x", [some 1, none, some (1 : ℕ)])] 0 true = none := by decide +kernel

example : (∀ c ∈ [("y", [some 1, some (2 : ℕ)])], none ∉ c.2) ∧
    inferKDistinct [("y", [some 1, some (2 : ℕ)])] 2 false = some ["y"] := by decide +kernel

/-- `infer_high_null`, the part that holds: every column with more than `threshold` nulls is returned, and every column
returned has at least `threshold` nulls. -/
theorem infer_high_null_partial (f : Frame V) (t : ℚ) (s : String) :
    ((∃ c, (s, c) ∈ f ∧ t < ((c.filter Option.isNone).length : ℚ) / c.length ∧ c ≠ []) → s ∈ inferHighNull f t) ∧
    (s ∈ inferHighNull f t → ∃ c, (s, c) ∈ f ∧ (c ≠ [] → t ≤ ((c.filter Option.isNone).length : ℚ) / c.length)) := by
  have key : ∀ c : List (Option V), nullCount c = (c.filter Option.isNone).length := by
    intro c
    unfold nullCount
    rw [List.count, ← List.countP_eq_length_filter]
    refine List.countP_congr fun v _ => ?_
    cases v <;> simp
  unfold inferHighNull
  rw [mem_namesWhere]
  constructor
  · rintro ⟨c, hc, ht, hne⟩
    refine ⟨c, hc, ?_⟩
    have hp : (0 : ℚ) < c.length := by exact_mod_cast List.length_pos_iff.2 hne
    rw [lt_div_iff₀ hp] at ht
    rw [decide_eq_true_eq, key]
    linarith
  · rintro ⟨c, hc, ht⟩
    refine ⟨c, hc, fun hne => ?_⟩
    have hp : (0 : ℚ) < c.length := by exact_mod_cast List.length_pos_iff.2 hne
    rw [decide_eq_true_eq, key] at ht
    rw [le_div_iff₀ hp]
    linarith

example : ∃ c : List (Option ℕ), ("x", c) ∈ [("x", [none, none, some 1])] ∧
    (1 / 2 : ℚ) < ((c.filter Option.isNone).length : ℚ) / c.length ∧ c ≠ [] :=
  ⟨[none, none, some 1], by simp, by norm_num [List.filter], by simp⟩

/-- The documentation says "more than threshold percentage nulls"; a column with exactly the threshold is returned too,
with threshold 0 every column. -/
theorem infer_high_null_wrong :
    inferHighNull [("x", [none, some (1 : ℕ)])] (1 / 2) = ["x"] ∧ inferHighNull [("x", [some (1 : ℕ)])] 0 = ["x"] := by
  decide +kernel

/-- `infer_discrete`, the part that holds: among the columns that are neither boolean nor categorical exactly those
with fewer than `max_val_cnt` distinct values or less than the threshold share of distinct values. -/
theorem infer_discrete_partial (f : Frame V) (simple : List String) (t : ℚ) (m : Int) (s : String) :
    s ∈ inferDiscrete f simple t m ↔ s ∉ simple ∧ ∃ c k, (s, c) ∈ f ∧ HasValues k c ∧
      ((k : Int) < m ∨ (k : ℚ) < t * c.length) := by
  unfold inferDiscrete
  rw [mem_namesWhere]
  constructor
  · rintro ⟨c, hc, h⟩
    simp only [List.mem_filter, decide_eq_true_eq, Bool.or_eq_true] at hc h
    exact ⟨hc.2, c, nUnique c, hc.1, nUnique_iff.1 rfl, h⟩
  · rintro ⟨hs, c, k, hc, hk, h⟩
    refine ⟨c, by simp [hc, hs], ?_⟩
    rw [← nUnique_iff] at hk
    subst hk
    simpa using h

example : HasValues 2 [some 1, none, some (1 : ℕ)] := ⟨[some 1, none], by decide, rfl, by
  intro v; simp; tauto⟩

/-- A boolean column is never called discrete. -/
theorem infer_discrete_wrong :
    inferDiscrete [("flag", [some 0, some (1 : ℕ)]), ("x", [some 0, some 1])] ["flag"] (1 / 10) 100 = ["x"] := by
  decide +kernel

end Infer

section Prob

variable {K : Type} [Field K] [LinearOrder K]

namespace Spec

/-- A row of class probabilities (up to the tolerance). -/
def ProbVector (r : List K) : Prop := (∀ v ∈ r, 0 ≤ v) ∧ |r.sum - 1| < 1 / 1000000

/-- A column of class probabilities: every row, all of the same length. -/
def ProbColumn (c : List (List K)) : Prop :=
  (∀ r ∈ c, ProbVector r) ∧ ∀ a ∈ c, ∀ b ∈ c, a.length = b.length

end Spec

theorem probFloat_iff {c : List (Option K)} :
    probFloat c = true ↔ ∀ v, some v ∈ c → 0 ≤ v ∧ v ≤ 1 := by
  unfold probFloat
  rw [List.all_eq_true]
  simp only [List.mem_filterMap, id_eq, exists_eq_right, Bool.and_eq_true, decide_eq_true_eq]

theorem probRow_iff {c : List (List K)} {r : List K} :
    probRow c r = true ↔ ProbVector r ∧ ∀ a ∈ c, ∀ b ∈ c, a.length = b.length := by
  simp [probRow, ProbVector, and_assoc]

/-- `infer_prob`, exactly: float columns with all values in [0, 1] (nulls aside), list columns whose FIRST row is a
probability vector and whose rows have the same length. -/
theorem infer_prob_exact (fl : List (String × List (Option K))) (ls : List (String × List (List K)))
    (l : List String) (h : inferProb fl ls = some l) (s : String) :
    s ∈ l ↔ (∃ c, (s, c) ∈ fl ∧ ∀ v, some v ∈ c → 0 ≤ v ∧ v ≤ 1) ∨
      (∃ r t, (s, r :: t) ∈ ls ∧ ProbVector r ∧ ∀ a ∈ r :: t, ∀ b ∈ r :: t, a.length = b.length) := by
  unfold inferProb at h
  split at h
  · simp at h
  · obtain rfl := Option.some.inj h
    rw [List.mem_append]
    refine or_congr ?_ ?_
    · simp only [List.mem_map, List.mem_filter, Prod.exists]
      constructor
      · rintro ⟨a, c, ⟨hc, hp⟩, rfl⟩
        exact ⟨c, hc, probFloat_iff.1 hp⟩
      · rintro ⟨c, hc, hp⟩
        exact ⟨s, c, ⟨hc, probFloat_iff.2 hp⟩, rfl⟩
    · simp only [List.mem_map, List.mem_filter, Prod.exists]
      constructor
      · rintro ⟨a, c, ⟨hc, hp⟩, rfl⟩
        cases c with
        | nil => simp at hp
        | cons r t => exact ⟨r, t, hc, probRow_iff.1 (by simpa using hp)⟩
      · rintro ⟨r, t, hc, hp⟩
        exact ⟨s, r :: t, ⟨hc, by simpa using probRow_iff.2 hp⟩, rfl⟩

/-- `infer_prob`, the part that holds: no column of probabilities is missed. -/
theorem infer_prob_partial (fl : List (String × List (Option K))) (ls : List (String × List (List K)))
    (l : List String) (h : inferProb fl ls = some l) (s : String) (c : List (List K)) (hc : (s, c) ∈ ls)
    (hp : ProbColumn c) : s ∈ l := by
  rw [infer_prob_exact fl ls l h]
  cases c with
  | nil =>
    exfalso
    unfold inferProb at h
    rw [if_pos (List.any_eq_true.2 ⟨_, hc, by simp⟩)] at h
    simp at h
  | cons r t => exact Or.inr ⟨r, t, hc, hp.1 r (by simp), hp.2⟩

example : inferProb [("p", [some (1 / 2 : ℚ), none])] [("q", [[1 / 2, 1 / 2], [1, 0]])] = some ["p", "q"] := by
  decide +kernel

/-- Only the first row of a list column is looked at: rows after it may be negative or sum to anything. -/
theorem infer_prob_wrong :
    inferProb [] [("q", [[(1 / 2 : ℚ), 1 / 2], [-3, 7]])] = some ["q"] ∧ ¬ ProbColumn [[(1 / 2 : ℚ), 1 / 2], [-3, 7]] := by
  refine ⟨by decide +kernel, fun h => ?_⟩
  have := (h.1 [-3, 7] (by simp)).1 (-3) (by simp)
  norm_num at this

end Prob

section Cache

variable {Q : Type} [DecidableEq Q]

/-- As long as nobody changes a list that was handed out, every answer is the one computed from the data, whatever was
asked before, whatever the size of the cache. -/
theorem cache_partial (size : Nat) (compute : Q → List String) (as : List (Act Q))
    (h : ∀ a ∈ as, ∃ q, a = .ask q) (cache : List (Q × List String)) (hc : ∀ e ∈ cache, e.2 = compute e.1) :
    answers size compute cache as = as.map fun a => match a with | .ask q => some (compute q) | .change _ _ => none := by
  induction as generalizing cache with
  | nil => rfl
  | cons a as ih =>
    obtain ⟨q, rfl⟩ := h a (by simp)
    have hq : (act size compute cache (.ask q)).2 = some (compute q) ∧
        ∀ e ∈ (act size compute cache (.ask q)).1, e.2 = compute e.1 := by
      simp only [act]
      split
      · rename_i l hl
        have hmem : (q, l) ∈ cache := by
          obtain ⟨l1, l2, rfl, -⟩ := List.lookup_eq_some_iff.1 hl
          simp
        have := hc _ hmem
        refine ⟨by simpa using this, fun e he => ?_⟩
        rcases List.mem_cons.1 he with rfl | he
        · exact this
        · exact hc e (List.mem_filter.1 he).1
      · refine ⟨rfl, fun e he => ?_⟩
        rcases List.mem_cons.1 (List.mem_of_mem_take he) with rfl | he
        · rfl
        · exact hc e he
    simp only [answers, List.map_cons, hq.1]
    rw [ih (fun a ha => h a (by simp [ha])) _ hq.2]

example : ∀ a ∈ [Act.ask 1, .ask 2, .ask (1 : ℕ)], ∃ q, a = .ask q := by simp

/-- The list handed out is the one in the cache: after the caller empties it, the same question gets the empty list. -/
theorem cache_wrong (compute : Q → List String) (q : Q) (h : compute q ≠ []) :
    answers 128 compute [] [.ask q, .change q [], .ask q] = [some (compute q), none, some []] ∧
      some ([] : List String) ≠ some (compute q) := by
  refine ⟨?_, fun e => h (Option.some.inj e).symm⟩
  simp [answers, act]

example : (fun _ : ℕ => ["x"]) 0 ≠ [] := by simp

end Cache

end Verif.Dia
