import Verif.Lemmas.SnowballLen
import Verif.Props.Stopword

/-!
# C112: the Snowball stemmer computes Porter2 stems

The specification of the stems is `Verif.Porter2.porter2` (`Verif/Spec/Porter2.lean`), on lists of characters.
-/

namespace Verif.Snowball

open Verif.Porter2

namespace Spec

/-- ASCII digits only. -/
def Digits (s : List Char) : Prop := ∀ c ∈ s, '0' ≤ c ∧ c ≤ '9'

/-- An optional sign. -/
def Sign (s : List Char) : Prop := s = [] ∨ s = ['+'] ∨ s = ['-']

/-- Digits with an optional point, at least one digit. -/
def Mantissa (s : List Char) : Prop :=
  (Digits s ∧ s ≠ []) ∨ ∃ a b, s = a ++ '.' :: b ∧ Digits a ∧ Digits b ∧ (a ≠ [] ∨ b ≠ [])

/-- Nothing, or `e` with an optional sign and at least one digit. -/
def Exponent (s : List Char) : Prop :=
  s = [] ∨ ∃ e g d, s = e :: (g ++ d) ∧ (e = 'e' ∨ e = 'E') ∧ Sign g ∧ Digits d ∧ d ≠ []

/-- A decimal number as text. -/
def Number (s : List Char) : Prop := ∃ g m x, s = g ++ m ++ x ∧ Sign g ∧ Mantissa m ∧ Exponent x

/-- A word spelled like a special value, with an optional sign. -/
def Special (s : List Char) : Prop :=
  ∃ g r, s = g ++ r ∧ Sign g ∧ r.map Char.toLower ∈ ["inf".toList, "infinity".toList, "nan".toList]

end Spec

open Spec

/-! ## The grammar of numbers -/

theorem isDigit_iff (c : Char) : c.isDigit = true ↔ '0' ≤ c ∧ c ≤ '9' := by
  simp [Char.isDigit, Char.le_def, UInt32.le_iff_toNat_le]

theorem all_digits (s : List Char) : s.all Char.isDigit = true ↔ Digits s := by
  simp [Digits, List.all_eq_true, isDigit_iff]

theorem takeWhile_of_all {p : Char → Bool} {a r : List Char} (h : ∀ c ∈ a, p c = true)
    (hr : ∀ c, r.head? = some c → p c = false) : (a ++ r).takeWhile p = a ∧ (a ++ r).dropWhile p = r := by
  induction a with
  | nil =>
    cases r with
    | nil => simp
    | cons c r => simp [hr c rfl]
  | cons c a ih =>
    have := ih fun c hc => h c (List.mem_cons_of_mem _ hc)
    simp [h c List.mem_cons_self, this]

theorem isDecimal_iff (s : List Char) : isDecimal s = true ↔ Mantissa s := by
  constructor
  · intro h
    have hs := (List.takeWhile_append_dropWhile (p := Char.isDigit) (l := s)).symm
    have ha : Digits (s.takeWhile Char.isDigit) := (all_digits _).mp (List.all_takeWhile)
    unfold isDecimal at h
    simp only [Bool.or_eq_true, Bool.and_eq_true, List.isEmpty_iff, Bool.not_eq_true', beq_iff_eq] at h
    generalize s.takeWhile Char.isDigit = a at *
    generalize s.dropWhile Char.isDigit = r at *
    subst hs
    rcases h with ⟨rfl, h⟩ | ⟨⟨h1, h2⟩, h3⟩
    · left
      rw [List.append_nil]
      exact ⟨ha, by simpa using h⟩
    · right
      cases r with
      | nil => simp at h1
      | cons c r =>
        simp only [List.head?_cons, Option.some.injEq] at h1
        subst h1
        refine ⟨a, r, rfl, ha, (all_digits r).mp h2, ?_⟩
        by_contra hc
        push Not at hc
        simp [hc.1, hc.2] at h3
  · rintro (⟨h1, h2⟩ | ⟨a, b, rfl, ha, hb, hne⟩)
    · have := takeWhile_of_all (p := Char.isDigit) (a := s) (r := []) (fun c hc => (isDigit_iff c).mpr (h1 c hc)) (by simp)
      rw [List.append_nil] at this
      unfold isDecimal
      simp [this.1, this.2, h2]
    · have := takeWhile_of_all (p := Char.isDigit) (a := a) (r := '.' :: b) (fun c hc => (isDigit_iff c).mpr (ha c hc))
        (by simp)
      have hb' := (all_digits b).mpr hb
      unfold isDecimal
      simp only [this.1, this.2, List.head?_cons, List.tail_cons, hb']
      rcases hne with h | h
      · simp [h]
      · simp [h]

theorem dropSign_spec (s : List Char) : ∃ g, s = g ++ dropSign s ∧ Sign g := by
  cases s with
  | nil => exact ⟨[], rfl, Or.inl rfl⟩
  | cons c r =>
    unfold dropSign
    by_cases h : ((c :: r).head? == some '+' || (c :: r).head? == some '-') = true
    · rw [if_pos h]
      simp only [List.head?_cons, Bool.or_eq_true, beq_iff_eq, Option.some.injEq] at h
      rcases h with rfl | rfl
      · exact ⟨['+'], rfl, Or.inr (Or.inl rfl)⟩
      · exact ⟨['-'], rfl, Or.inr (Or.inr rfl)⟩
    · rw [if_neg h]
      exact ⟨[], rfl, Or.inl rfl⟩

theorem dropSign_append {g r : List Char} (hg : Sign g) (hr : r.head? ≠ some '+' ∧ r.head? ≠ some '-') :
    dropSign (g ++ r) = r := by
  rcases hg with rfl | rfl | rfl
  · unfold dropSign
    rw [List.nil_append, if_neg]
    simpa using hr
  · rfl
  · rfl

theorem digit_ne {c d : Char} (h : '0' ≤ c ∧ c ≤ '9') (hd : ¬ ('0' ≤ d ∧ d ≤ '9')) : c ≠ d := by
  rintro rfl
  exact hd h

theorem head_digits {s : List Char} (h : Digits s) {d : Char} (hd : ¬ ('0' ≤ d ∧ d ≤ '9')) : s.head? ≠ some d := by
  cases s with
  | nil => simp
  | cons c r =>
    simp only [List.head?_cons, ne_eq, Option.some.injEq]
    exact digit_ne (h c List.mem_cons_self) hd

/-- The characters of a mantissa are digits and the point. -/
theorem mantissa_mem {m : List Char} (h : Mantissa m) {c : Char} (hc : c ∈ m) : ('0' ≤ c ∧ c ≤ '9') ∨ c = '.' := by
  rcases h with ⟨h, -⟩ | ⟨a, b, rfl, ha, hb, -⟩
  · exact Or.inl (h c hc)
  · rcases List.mem_append.mp hc with hc | hc
    · exact Or.inl (ha c hc)
    · rcases List.mem_cons.mp hc with rfl | hc
      · exact Or.inr rfl
      · exact Or.inl (hb c hc)

theorem mantissa_ne {m : List Char} (h : Mantissa m) : m ≠ [] := by
  rcases h with ⟨-, h⟩ | ⟨a, b, rfl, -⟩
  · exact h
  · simp

theorem exponent_iff (x : List Char) (hx : ∀ c, x.head? = some c → c = 'e' ∨ c = 'E') :
    (x.isEmpty || (!(dropSign x.tail).isEmpty && (dropSign x.tail).all Char.isDigit)) = true ↔ Exponent x := by
  cases x with
  | nil => simp [Exponent]
  | cons e r =>
    have he := hx e rfl
    simp only [List.isEmpty_cons, List.tail_cons, Bool.false_or, Bool.and_eq_true, Bool.not_eq_true', all_digits]
    constructor
    · rintro ⟨h1, h2⟩
      obtain ⟨g, hg, hs⟩ := dropSign_spec r
      exact Or.inr ⟨e, g, dropSign r, by rw [← hg], he, hs, h2, by simpa using h1⟩
    · rintro (h | ⟨e', g, d, h, -, hs, hd, hne⟩)
      · simp at h
      · simp only [List.cons.injEq] at h
        rw [h.2, dropSign_append hs ⟨head_digits hd (by decide), head_digits hd (by decide)⟩]
        exact ⟨by simpa using hne, hd⟩

/-- The test used by the code accepts the decimal numbers and the special words, and nothing else. -/
theorem parsesF64_iff (s : List Char) : parsesF64 s = true ↔ Number s ∨ Special s := by
  have hnote : ∀ c : Char, (c != 'e' && c != 'E') = false ↔ c = 'e' ∨ c = 'E' := by
    intro c
    simp only [Bool.and_eq_false_iff, bne_eq_false_iff_eq]
  constructor
  · intro h
    obtain ⟨g, hg, hs⟩ := dropSign_spec s
    unfold parsesF64 at h
    simp only [Bool.or_eq_true (a := _ || _ || _), Bool.and_eq_true (a := isDecimal _)] at h
    generalize dropSign s = r at *
    rcases h with h | ⟨h1, h2⟩
    · right
      refine ⟨g, r, hg, hs, ?_⟩
      simpa [or_assoc] using h
    · left
      refine ⟨g, _, _, ?_, hs, (isDecimal_iff _).mp h1, (exponent_iff _ ?_).mp h2⟩
      · rw [List.append_assoc, List.takeWhile_append_dropWhile, hg]
      · intro c hc
        have := List.head?_dropWhile_not (fun c => c != 'e' && c != 'E') r
        rw [hc] at this
        exact (hnote c).mp (by simpa using this)
  · rintro (⟨g, m, x, rfl, hg, hm, hx⟩ | ⟨g, r, rfl, hg, hr⟩)
    · have hnosign : ∀ d : Char, ¬ ('0' ≤ d ∧ d ≤ '9') → d ≠ '.' → (m ++ x).head? ≠ some d := by
        intro d h1 h2
        obtain ⟨c, m', rfl⟩ := List.exists_cons_of_ne_nil (mantissa_ne hm)
        simp only [List.cons_append, List.head?_cons, ne_eq, Option.some.injEq]
        rintro rfl
        rcases mantissa_mem hm List.mem_cons_self with h | h
        · exact h1 h
        · exact h2 h
      have hx' : ∀ c, x.head? = some c → c = 'e' ∨ c = 'E' := by
        intro c hc
        rcases hx with rfl | ⟨e, g, d, rfl, he, -⟩
        · simp at hc
        · simp only [List.head?_cons, Option.some.injEq] at hc
          exact hc ▸ he
      have hsplit := takeWhile_of_all (p := fun c => c != 'e' && c != 'E') (a := m) (r := x)
        (fun c hc => by
          cases hcc : (c != 'e' && c != 'E')
          · rcases (hnote c).mp hcc with rfl | rfl
            · rcases mantissa_mem hm hc with h | h <;> exact absurd h (by decide)
            · rcases mantissa_mem hm hc with h | h <;> exact absurd h (by decide)
          · rfl)
        (fun c hc => (hnote c).mpr (hx' c hc))
      unfold parsesF64
      rw [List.append_assoc, dropSign_append hg ⟨hnosign _ (by decide) (by decide), hnosign _ (by decide) (by decide)⟩]
      simp only [hsplit.1, hsplit.2, (isDecimal_iff m).mpr hm, (exponent_iff x hx').mpr hx, Bool.and_self, Bool.or_true]
    · have hnosign : r.head? ≠ some '+' ∧ r.head? ≠ some '-' := by
        cases r with
        | nil => simp
        | cons c r =>
          simp only [List.head?_cons, ne_eq, Option.some.injEq]
          constructor <;>
          · rintro rfl
            revert hr
            simp [Char.toLower]
      unfold parsesF64
      rw [dropSign_append hg hnosign]
      have : (r.map Char.toLower == "inf".toList || r.map Char.toLower == "infinity".toList ||
          r.map Char.toLower == "nan".toList) = true := by
        simpa [or_assoc] using hr
      simp only [this, Bool.true_or]

/-! ## The stemmer -/

/-- **C112a.** On every word, of whatever characters, the stemmer stops without a panic and its result is the UTF-8
encoding of the Porter2 stem. -/
theorem stem_eq_porter2 (w : List Char) : stem (bytes w) = .ok (bytes (porter2 w)) := stem_eq w

example : stem (str "généralisations") = .ok (str "généralis") := by
  have := stem_eq_porter2 "généralisations".toList
  have h : porter2 "généralisations".toList = "généralis".toList := by decide +kernel
  rw [h] at this
  exact this

/-- **C112b.** What `str_snowball` gives: nothing for numbers (and for the words `inf`, `infinity`, `nan`), nothing
for stop words if they are to be dropped, and the Porter2 stem for every other word. -/
theorem snowball_eq (s : String) (noStopwords : Bool) :
    (Number s.toList ∨ Special s.toList → snowball s noStopwords = .ok []) ∧
    (s ∈ Stopword.enStopwords → snowball s true = .ok []) ∧
    (¬ Number s.toList → ¬ Special s.toList → s ∉ Stopword.enStopwords ∨ noStopwords = false →
      snowball s noStopwords = .ok (bytes (porter2 s.toList))) := by
  unfold snowball
  refine ⟨fun h => ?_, fun h => ?_, fun h1 h2 h3 => ?_⟩
  · rw [(parsesF64_iff _).mpr h, Bool.true_or, if_pos rfl]
  · rw [(Stopword.is_stopword_iff s).mpr h, Bool.true_and, Bool.or_true, if_pos rfl]
  · have hp : parsesF64 s.toList = false := by
      cases hc : parsesF64 s.toList
      · rfl
      · rcases (parsesF64_iff _).mp hc with h | h
        · exact absurd h h1
        · exact absurd h h2
    have hs : (noStopwords && Stopword.isStopword s) = false := by
      rcases h3 with h3 | h3
      · cases hc : Stopword.isStopword s
        · rw [Bool.and_false]
        · exact absurd ((Stopword.is_stopword_iff s).mp hc) h3
      · rw [h3, Bool.false_and]
    rw [hp, hs, Bool.or_false, if_neg (by simp)]
    exact stem_eq _

/-- `relational` is a word with all three hypotheses of the last part. -/
example : snowball "relational" true = .ok (str "relat") := by
  have hp : parsesF64 "relational".toList = false := by decide +kernel
  have h := (snowball_eq "relational" true).2.2
    (fun h => Bool.false_ne_true (hp.symm.trans ((parsesF64_iff _).mpr (Or.inl h))))
    (fun h => Bool.false_ne_true (hp.symm.trans ((parsesF64_iff _).mpr (Or.inr h))))
    (Or.inl (by decide +kernel))
  rw [h, show porter2 "relational".toList = "relat".toList by decide +kernel]
  rfl

example : Number "-12.5e+3".toList := by
  refine ⟨['-'], "12.5".toList, "e+3".toList, rfl, Or.inr (Or.inr rfl), Or.inr ⟨['1', '2'], ['5'], rfl, ?_, ?_, ?_⟩,
    Or.inr ⟨'e', ['+'], ['3'], rfl, Or.inl rfl, Or.inr (Or.inl rfl), ?_, by simp⟩⟩ <;> simp [Digits]

/-- **C112, disagreement.** The documentation says that numbers are stemmed to the empty string; the words
`infinity`, `inf` and `nan` (in any case: also the name `Nan`) are too, although their stems are not empty. -/
theorem infinity_stems_to_nothing :
    snowball "infinity" true = .ok [] ∧ snowball "inf" true = .ok [] ∧ snowball "Nan" false = .ok [] ∧
    ¬ Number "infinity".toList ∧ "infinity" ∉ Stopword.enStopwords ∧ porter2 "infinity".toList = "infin".toList := by
  have h1 : ∀ s b, Special s.toList → snowball s b = .ok [] := fun s b h => (snowball_eq s b).1 (Or.inr h)
  refine ⟨h1 _ _ ⟨[], "infinity".toList, rfl, Or.inl rfl, by decide +kernel⟩,
    h1 _ _ ⟨[], "inf".toList, rfl, Or.inl rfl, by decide +kernel⟩,
    h1 _ _ ⟨[], "Nan".toList, rfl, Or.inl rfl, by decide +kernel⟩, ?_, by decide +kernel, by decide +kernel⟩
  rintro ⟨g, m, x, h, hg, hm, -⟩
  have hgn : g = [] := by
    rcases hg with rfl | rfl | rfl
    · rfl
    · exact absurd (congrArg List.head? h) (by simp)
    · exact absurd (congrArg List.head? h) (by simp)
  obtain ⟨c, m', rfl⟩ := List.exists_cons_of_ne_nil (mantissa_ne hm)
  rw [hgn] at h
  have hc : c = 'i' := by
    have := congrArg List.head? h
    simpa using this.symm
  rcases mantissa_mem hm List.mem_cons_self with h | h
  · rw [hc] at h; exact absurd h (by decide)
  · rw [hc] at h; exact absurd h (by decide)

/-- **C112c.** A stem is never longer than its word, and a word of one or two characters is its own stem. -/
theorem stem_length (w : List Char) :
    ∃ t, stem (bytes w) = .ok (bytes t) ∧ t.length ≤ w.length ∧ (w.length < 3 → t = w) := by
  refine ⟨porter2 w, stem_eq w, len_porter2 w, fun h => ?_⟩
  unfold porter2
  cases hl : exceptions1.lookup w with
  | some t =>
    have := (by decide +kernel : ∀ p ∈ exceptions1, 3 ≤ p.1.length) _ (lookup_mem hl)
    simp only at this
    omega
  | none => simp [h]

example : stem (str "is") = .ok (str "is") := by
  obtain ⟨t, h1, -, h2⟩ := stem_length "is".toList
  rw [h2 (by decide)] at h1
  exact h1

/-- **C112d.** On a column: row by row, null exactly where the input is null. -/
theorem snowball_col (col : List (Option String)) (b : Bool) (i : Nat) :
    (snowballCol col b)[i]? = col[i]?.map fun o => o.map fun s => snowball s b := by
  unfold snowballCol
  rw [List.getElem?_map]

example : (snowballCol [some "12", none, some "is"] false) = [some (.ok []), none, some (.ok (str "is"))] := by
  decide +kernel

/-! Sample words from the published vocabulary, as a check of the specification. -/

example : ["consistency", "knackeries", "generously", "hopping", "hoping", "skies", "sayings", "boyish", "happy",
    "nationally", "electricity", "hopefulness", "adjustment", "controlling"].map (fun s => porter2 s.toList) =
    ["consist", "knackeri", "generous", "hop", "hope", "sky", "say", "boyish", "happi", "nation", "electr", "hope",
    "adjust", "control"].map (·.toList) := by decide +kernel

end Verif.Snowball
