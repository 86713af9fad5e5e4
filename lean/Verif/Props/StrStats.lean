import Verif.Model.StrStats
import Mathlib.Data.Finset.Card
import Mathlib.Data.Finset.Dedup
import Mathlib.Algebra.Order.BigOperators.Group.List
import Mathlib.Algebra.Order.Field.Basic
import Mathlib.Data.Finset.Option
import Mathlib.Tactic.Linarith
import Mathlib.Tactic.Positivity
import Mathlib.Tactic.FieldSimp

/-!
# C156: the statistics of string columns
-/

namespace Verif.StrStats

namespace Spec

/-- The texts of a column. -/
def known (c : List (Option Text)) : List Text := c.filterMap id

/-- `m` is the least of the numbers `f t` over the texts of the column, `none` if there is no text. -/
def Least (f : Text → ℕ) (c : List (Option Text)) (m : Option ℕ) : Prop :=
  (known c = [] ∧ m = none) ∨ ∃ v, m = some v ∧ (∃ t ∈ known c, f t = v) ∧ ∀ t ∈ known c, v ≤ f t

/-- The same for the greatest. -/
def Greatest (f : Text → ℕ) (c : List (Option Text)) (m : Option ℕ) : Prop :=
  (known c = [] ∧ m = none) ∨ ∃ v, m = some v ∧ (∃ t ∈ known c, f t = v) ∧ ∀ t ∈ known c, f t ≤ v

/-- Only characters of one byte. -/
def Ascii (t : Text) : Prop := ∀ ch ∈ t, ch.toNat < 128

end Spec

open Spec

/-! ## When the report raises -/

/-- **C156.** The report raises exactly without string columns, or with one named `count`. -/
theorem report_raises (strs : List (String × List (Option Text))) :
    Report strs none ↔ strs = [] ∨ "count" ∈ strs.map Prod.fst := by
  constructor
  · rintro (h | h)
    · exact Or.inl h
    · exact Or.inr h
  · rintro (h | h)
    · exact .noColumns h
    · exact .nameClash h

example : Report [("count", [some ['a']])] none := (report_raises _).2 (Or.inr (by decide))

/-! ## One row -/

section Row

variable {name : String} {c : List (Option Text)} {row : Row}

theorem isRow_iff (h : IsRow name c row) : ∃ (vc1 vc2 : List (Option Text × ℕ)) (a b : Option Text × ℕ),
    ValueCounts c vc1 ∧ ValueCounts c vc2 ∧ vc1.head? = some a ∧ vc2.head? = some b ∧
    row = { column := name, nullCount := c.count none, nUnique := c.dedup.length, mostFreq := a.1, mostFreqCnt := b.2,
            minByte := (lens lenBytes c).min?, minChar := (lens lenChars c).min?, avgByte := mean (lens lenBytes c),
            avgChar := mean (lens lenChars c), maxByte := (lens lenBytes c).max?, maxChar := (lens lenChars c).max? } := by
  obtain ⟨vc1, vc2, h1, h2, h3⟩ := h
  unfold statsRow at h3
  split at h3
  · rename_i a b ha hb
    exact ⟨vc1, vc2, a, b, h1, h2, ha, hb, (Option.some.inj h3).symm⟩
  · cases h3

theorem head_max {vc : List (Option Text × ℕ)} {a : Option Text × ℕ} (h : ValueCounts c vc) (ha : vc.head? = some a) :
    a.1 ∈ c ∧ a.2 = c.count a.1 ∧ ∀ v, c.count v ≤ a.2 := by
  obtain ⟨t, rfl⟩ : ∃ t, vc = a :: t := by
    cases vc with
    | nil => simp at ha
    | cons b t => simp at ha; exact ⟨t, by rw [ha]⟩
  have hm := h.1.subset (List.mem_cons_self)
  obtain ⟨v, hv, rfl⟩ := List.mem_map.1 hm
  refine ⟨List.mem_dedup.1 hv, rfl, fun w => ?_⟩
  by_cases hw : w ∈ c
  · have : (w, c.count w) ∈ (v, c.count v) :: t :=
      h.1.symm.subset (List.mem_map.2 ⟨w, List.mem_dedup.2 hw, rfl⟩)
    rcases List.mem_cons.1 this with e | e
    · exact (Prod.mk.inj e).2.le
    · exact (List.pairwise_cons.1 h.2).1 _ e
  · rw [List.count_eq_zero_of_not_mem hw]
    exact Nat.zero_le _

/-- **C156.** The counts: every row holds either a null or a text; `n_unique` is the number of different texts, plus one
if there is a null. -/
theorem row_counts (h : IsRow name c row) : row.column = name ∧ row.nullCount + (known c).length = c.length ∧
    row.nUnique = (known c).toFinset.card + (if none ∈ c then 1 else 0) := by
  obtain ⟨vc1, vc2, a, b, -, -, -, -, rfl⟩ := isRow_iff h
  refine ⟨rfl, ?_, ?_⟩
  · simp only
    clear h
    induction c with
    | nil => rfl
    | cons x t ih => cases x <;> simp_all [known] <;> omega
  · simp only
    have e : c.dedup.length = c.toFinset.card := by rw [List.card_toFinset]
    rw [e]
    have e2 : c.toFinset = (known c).toFinset.image some ∪ (if none ∈ c then {none} else ∅) := by
      ext x
      cases x with
      | none => split_ifs with h0 <;> simp [h0]
      | some v => split_ifs with h0 <;> simp [known]
    rw [e2, Finset.card_union_of_disjoint, Finset.card_image_of_injective _ (Option.some_injective _)]
    · split_ifs <;> simp
    · split_ifs <;> simp

/-- **C156.** The most frequent value: the reported count is the number of its rows, no value (null included) has more, and there is
a row with it. -/
theorem most_frequent (h : IsRow name c row) : row.mostFreq ∈ c ∧ c.count row.mostFreq = row.mostFreqCnt ∧
    ∀ v, c.count v ≤ row.mostFreqCnt := by
  obtain ⟨vc1, vc2, a, b, h1, h2, ha, hb, rfl⟩ := isRow_iff h
  obtain ⟨p1, p2, p3⟩ := head_max h1 ha
  obtain ⟨q1, q2, q3⟩ := head_max h2 hb
  refine ⟨p1, le_antisymm (q3 _) ?_, q3⟩
  change b.2 ≤ c.count a.1
  rw [← p2, q2]
  exact p3 _

/-- **C156.** The count of the most frequent value times the number of values is at least the number of rows. -/
theorem most_frequent_share (h : IsRow name c row) : c.length ≤ row.nUnique * row.mostFreqCnt := by
  have h3 := (most_frequent h).2.2
  obtain ⟨vc1, vc2, a, b, -, -, -, -, rfl⟩ := isRow_iff h
  simp only at h3 ⊢
  have : c.length = ∑ v ∈ c.toFinset, c.count v := by
    rw [← List.sum_toFinset_count_eq_length c]
    refine Finset.sum_congr rfl fun v _ => ?_
    unfold List.count
    exact List.countP_congr fun x _ => by simp
  rw [this, ← List.card_toFinset]
  exact Finset.sum_le_card_nsmul _ _ _ fun v _ => h3 v

/-- **C156 (disagreement).** Null takes part: when it is more frequent than every text, the most frequent value is null although the
column has texts. -/
theorem most_frequent_null (h : IsRow name c row) (hn : ∀ t, c.count (some t) < c.count none) : row.mostFreq = none := by
  obtain ⟨-, h2, h3⟩ := most_frequent h
  cases hm : row.mostFreq with
  | none => rfl
  | some t =>
    rw [hm] at h2
    have := h3 none
    have := hn t
    omega

/-! ## Lengths -/

theorem min_least (f : Text → ℕ) : Least f c (lens f c).min? := by
  cases hm : (lens f c).min? with
  | none =>
    left
    rw [List.min?_eq_none_iff] at hm
    exact ⟨List.map_eq_nil_iff.1 hm, rfl⟩
  | some v =>
    right
    rw [List.min?_eq_some_iff] at hm
    obtain ⟨t, ht, e⟩ := List.mem_map.1 hm.1
    exact ⟨v, rfl, ⟨t, ht, e⟩, fun s hs => hm.2 _ (List.mem_map.2 ⟨s, hs, rfl⟩)⟩

theorem max_greatest (f : Text → ℕ) : Greatest f c (lens f c).max? := by
  cases hm : (lens f c).max? with
  | none =>
    left
    rw [List.max?_eq_none_iff] at hm
    exact ⟨List.map_eq_nil_iff.1 hm, rfl⟩
  | some v =>
    right
    rw [List.max?_eq_some_iff] at hm
    obtain ⟨t, ht, e⟩ := List.mem_map.1 hm.1
    exact ⟨v, rfl, ⟨t, ht, e⟩, fun s hs => hm.2 _ (List.mem_map.2 ⟨s, hs, rfl⟩)⟩

theorem chars_le_bytes (t : Text) : t.length ≤ (t.map Char.utf8Size).sum ∧ (t.map Char.utf8Size).sum ≤ 4 * t.length := by
  induction t with
  | nil => simp
  | cons a s ih =>
    have h1 := a.utf8Size_pos
    have h4 := a.utf8Size_le_four
    simp only [List.map_cons, List.sum_cons, List.length_cons]
    omega

theorem utf8Size_one (a : Char) : a.utf8Size = 1 ↔ a.toNat < 128 := by
  rw [Char.utf8Size_eq_one_iff, UInt32.le_iff_toNat_le]
  exact Nat.lt_succ_iff.symm

theorem bytes_eq_chars (t : Text) : (t.map Char.utf8Size).sum = t.length ↔ Ascii t := by
  induction t with
  | nil => simp [Ascii]
  | cons a s ih =>
    have h1 := a.utf8Size_pos
    have h2 := (chars_le_bytes s).1
    have h3 := utf8Size_one a
    simp only [List.map_cons, List.sum_cons, List.length_cons, Ascii, List.mem_cons, forall_eq_or_imp]
    rw [← h3, ← Ascii.eq_def, ← ih]
    omega

/-- **C156.** The least and greatest lengths, in bytes and in characters. -/
theorem length_extremes (h : IsRow name c row) :
    Least (fun t => (t.map Char.utf8Size).sum) c row.minByte ∧ Least List.length c row.minChar ∧
    Greatest (fun t => (t.map Char.utf8Size).sum) c row.maxByte ∧ Greatest List.length c row.maxChar := by
  obtain ⟨vc1, vc2, a, b, -, -, -, -, rfl⟩ := isRow_iff h
  exact ⟨min_least _, min_least _, max_greatest _, max_greatest _⟩

/-- **C156.** The mean lengths: the sum over the texts by their number. Without a text they are null. -/
theorem length_means (h : IsRow name c row) (hk : known c ≠ []) :
    row.avgByte = some ((((known c).map fun t => (t.map Char.utf8Size).sum).sum : ℕ) / (known c).length : ℚ) ∧
    row.avgChar = some ((((known c).map List.length).sum : ℕ) / (known c).length : ℚ) := by
  obtain ⟨vc1, vc2, a, b, -, -, -, -, rfl⟩ := isRow_iff h
  have e : ∀ f : Text → ℕ, mean (lens f c) = some ((((known c).map f).sum : ℕ) / (known c).length : ℚ) := by
    intro f
    unfold mean lens
    rw [if_neg (by rw [List.map_eq_nil_iff]; exact hk), List.length_map]
    rfl
  exact ⟨e lenBytes, e lenChars⟩

/-- **C156.** Bytes against characters: the mean in bytes is between one and four times the mean in characters, and they are equal
exactly if all texts are ASCII. -/
theorem bytes_against_chars (h : IsRow name c row) (hk : known c ≠ []) (p q : ℚ) (hp : row.avgByte = some p)
    (hq : row.avgChar = some q) : q ≤ p ∧ p ≤ 4 * q ∧ (p = q ↔ ∀ t ∈ known c, Ascii t) := by
  obtain ⟨h1, h2⟩ := length_means h hk
  rw [h1] at hp
  rw [h2] at hq
  have hp := Option.some.inj hp
  have hq := Option.some.inj hq
  have hl : (0 : ℚ) < (known c).length := by exact_mod_cast List.length_pos_iff.2 hk
  have key : ∀ l : List Text, (l.map List.length).sum ≤ (l.map fun t => (t.map Char.utf8Size).sum).sum ∧
      (l.map fun t => (t.map Char.utf8Size).sum).sum ≤ 4 * (l.map List.length).sum ∧
      ((l.map fun t => (t.map Char.utf8Size).sum).sum = (l.map List.length).sum ↔ ∀ t ∈ l, Ascii t) := by
    intro l
    induction l with
    | nil => simp
    | cons a s ih =>
      obtain ⟨i1, i2, i3⟩ := ih
      have b1 := chars_le_bytes a
      have b2 := bytes_eq_chars a
      simp only [List.map_cons, List.sum_cons, List.mem_cons, forall_eq_or_imp]
      rw [← i3, ← b2]
      omega
  obtain ⟨k1, k2, k3⟩ := key (known c)
  rw [← k3, ← hp, ← hq]
  refine ⟨?_, ?_, ?_⟩
  · exact div_le_div_of_nonneg_right (by exact_mod_cast k1) hl.le
  · rw [← mul_div_assoc]
    exact div_le_div_of_nonneg_right (by exact_mod_cast k2) hl.le
  · rw [div_left_inj' hl.ne']
    exact_mod_cast Iff.rfl

end Row

/-- The column `"é", null, null, "ab"`. -/
def exCol : List (Option Text) := [some ['é'], none, none, some ['a', 'b']]

/-- Its row: null is the most frequent value, the mean length is 2 bytes and 3/2 characters. -/
theorem exRow : IsRow "s" exCol
    { column := "s", nullCount := 2, nUnique := 3, mostFreq := none, mostFreqCnt := 2, minByte := some 2, minChar := some 1,
      avgByte := some 2, avgChar := some (3 / 2), maxByte := some 2, maxChar := some 2 } := by
  refine ⟨[(none, 2), (some ['é'], 1), (some ['a', 'b'], 1)], [(none, 2), (some ['a', 'b'], 1), (some ['é'], 1)],
    ⟨?_, by decide⟩, ⟨?_, by decide⟩, ?_⟩
  · decide
  · decide
  · have h1 : mean (lens lenBytes exCol) = some 2 := by decide +kernel
    have h2 : mean (lens lenChars exCol) = some (3 / 2) := by decide +kernel
    unfold statsRow
    simp only [List.head?_cons, h1, h2]
    rfl

example : exCol.length ≤ 3 * 2 := most_frequent_share exRow

example : (none : Option Text) = none := most_frequent_null exRow (by
  intro t
  have : exCol.count (some t) = ([['é'], ['a', 'b']] : List Text).count t := by
    simp [exCol, List.count_cons]
  rw [this]
  exact lt_of_le_of_lt (List.nodup_iff_count_le_one.1 (by decide) t) (by decide))

example : (3 / 2 : ℚ) ≤ 2 ∧ (2 : ℚ) ≤ 4 * (3 / 2) ∧ ((2 : ℚ) = 3 / 2 ↔ ∀ t ∈ known exCol, Ascii t) :=
  bytes_against_chars exRow (by decide) 2 (3 / 2) rfl rfl

end Verif.StrStats
