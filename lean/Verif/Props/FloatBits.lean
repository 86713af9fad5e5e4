import Verif.Lemmas.FloatBits

/-!
# C148: the neighbours of a float
-/

namespace Verif.FloatBits
open Verif.Pl Spec

/-- The rows of a column and of its result: nulls stay, values are related. -/
def Spec.Rows {α β : Type} (R : α → β → Prop) (c : Col α) (r : Col β) : Prop :=
  List.Forall₂ (Option.Rel R) c r

theorem rows_map1 {α β : Type} (R : α → β → Prop) (f : α → β) (c : Col α) (h : ∀ a, some a ∈ c → R a (f a)) :
    Rows R c (map1 f c) := by
  unfold Rows map1
  induction c with
  | nil => exact List.Forall₂.nil
  | cons x t ih =>
    refine List.Forall₂.cons ?_ (ih fun a ha => h a (List.mem_cons_of_mem _ ha))
    cases x with
    | none => exact Option.Rel.none
    | some a => exact Option.Rel.some (h a List.mem_cons_self)

/-- **C148.**  `next_up` on a column of 64 bit floats: the least float greater than the value; `inf` and NaN stay. -/
theorem next_up_f64 (c : Col ℕ) (h : ∀ b, some b ∈ c → b < 2 ^ 64) :
    ∃ r, plNextUp (.float64 c) = .float64 r ∧
      Rows (fun b b' => (IsNum f64 b → num f64 b ≠ ⊤ → IsNext f64 b b') ∧ (¬ IsNum f64 b ∨ num f64 b = ⊤ → b' = b)) c r := by
  refine ⟨_, rfl, rows_map1 _ _ _ fun b hb => ⟨fun hn hi => ?_, fun hf => ?_⟩⟩
  · exact nextUp_isNext f64 f64_proper hn fun he => hi ((num_top_iff f64 f64_proper hn).2 he)
  · refine nextUp_fixed f64 ?_ (h b hb)
    by_cases hn : IsNum f64 b
    · exact Or.inr ((num_top_iff f64 f64_proper hn).1 (hf.resolve_left (not_not.2 hn)))
    · exact Or.inl hn

/-- **C148.**  The same for 32 bit floats. -/
theorem next_up_f32 (c : Col ℕ) (h : ∀ b, some b ∈ c → b < 2 ^ 32) :
    ∃ r, plNextUp (.float32 c) = .float32 r ∧
      Rows (fun b b' => (IsNum f32 b → num f32 b ≠ ⊤ → IsNext f32 b b') ∧ (¬ IsNum f32 b ∨ num f32 b = ⊤ → b' = b)) c r := by
  refine ⟨_, rfl, rows_map1 _ _ _ fun b hb => ⟨fun hn hi => ?_, fun hf => ?_⟩⟩
  · exact nextUp_isNext f32 f32_proper hn fun he => hi ((num_top_iff f32 f32_proper hn).2 he)
  · refine nextUp_fixed f32 ?_ (h b hb)
    by_cases hn : IsNum f32 b
    · exact Or.inr ((num_top_iff f32 f32_proper hn).1 (hf.resolve_left (not_not.2 hn)))
    · exact Or.inl hn

/-- **C148.**  `next_down` on a column of 64 bit floats: the greatest float smaller than the value; `-inf` and NaN stay. -/
theorem next_down_f64 (c : Col ℕ) (h : ∀ b, some b ∈ c → b < 2 ^ 64) :
    ∃ r, plNextDown (.float64 c) = .float64 r ∧
      Rows (fun b b' => (IsNum f64 b → num f64 b ≠ ⊥ → IsPrev f64 b b') ∧ (¬ IsNum f64 b ∨ num f64 b = ⊥ → b' = b)) c r := by
  refine ⟨_, rfl, rows_map1 _ _ _ fun b hb => ⟨fun hn hi => ?_, fun hf => ?_⟩⟩
  · exact nextDown_isPrev f64 f64_proper hn fun he => hi ((num_bot_iff f64 f64_proper hn).2 he)
  · refine nextDown_fixed f64 ?_ (h b hb)
    by_cases hn : IsNum f64 b
    · exact Or.inr ((num_bot_iff f64 f64_proper hn).1 (hf.resolve_left (not_not.2 hn)))
    · exact Or.inl hn

/-- **C148.**  The same for 32 bit floats. -/
theorem next_down_f32 (c : Col ℕ) (h : ∀ b, some b ∈ c → b < 2 ^ 32) :
    ∃ r, plNextDown (.float32 c) = .float32 r ∧
      Rows (fun b b' => (IsNum f32 b → num f32 b ≠ ⊥ → IsPrev f32 b b') ∧ (¬ IsNum f32 b ∨ num f32 b = ⊥ → b' = b)) c r := by
  refine ⟨_, rfl, rows_map1 _ _ _ fun b hb => ⟨fun hn hi => ?_, fun hf => ?_⟩⟩
  · exact nextDown_isPrev f32 f32_proper hn fun he => hi ((num_bot_iff f32 f32_proper hn).2 he)
  · refine nextDown_fixed f32 ?_ (h b hb)
    by_cases hn : IsNum f32 b
    · exact Or.inr ((num_bot_iff f32 f32_proper hn).1 (hf.resolve_left (not_not.2 hn)))
    · exact Or.inl hn

/-- **C148.**  `next_down` undoes `next_up` in number, away from the infinities. -/
theorem next_down_next_up (F : Fmt) (hF : Proper F) {b : ℕ} (h : IsNum F b) (hi : num F b ≠ ⊤) :
    num F (F.nextDown (F.nextUp b)) = num F b := by
  have h0 : 0 < F.inf := by unfold Proper at hF; omega
  have hne : b ≠ F.inf := fun he => hi ((num_top_iff F hF h).2 he)
  obtain ⟨h1, h2⟩ := nextUp_pos F hF h hne
  have hnb : F.nextUp b ≠ F.sign + F.inf := by
    intro hc
    have hbot := (num_bot_iff F hF h1).2 hc
    have := (nextUp_isNext F hF h hne).2.1
    rw [hbot] at this
    exact not_lt_bot this
  obtain ⟨_, h4⟩ := nextDown_pos F hF h1 hnb
  rw [num_pos F h0, num_pos F h0, h4, h2]
  congr 1
  ring

/-- **C148.**  On integers, which become 32 bit floats, the results lie strictly on the right side. -/
theorem next_int (i : ℤ) (hi : i.natAbs < 2 ^ 64) :
    (((i : ℝ) : EReal) < num f32 (f32.nextUp (ofInt i))) ∧ num f32 (f32.nextDown (ofInt i)) < ((i : ℝ) : EReal) := by
  have h0 : 0 < f32.inf := by have := f32_proper; unfold Proper at this; omega
  obtain ⟨hn, n1, n2, hp⟩ := ofInt_pos i hi
  have e1 := (nextUp_pos f32 f32_proper hn n1).2
  have e2 := (nextDown_pos f32 f32_proper hn n2).2
  rw [num_pos f32 h0, num_pos f32 h0, e1, e2]
  rcases hp with ⟨rfl, hp⟩ | ⟨hpos, hp⟩ | ⟨hneg, hp⟩
  · rw [hp]
    have hz : ((0 : ℤ) : ℝ) = 0 := by norm_num
    have ha : (((0 : ℝ)) : EReal) = at_ f32 0 := by
      have := (at_finite f32 (m := 0) h0).1
      rw [mag_zero] at this
      exact this.symm
    rw [hz, ha]
    exact ⟨at_lt f32 (by norm_num) (by omega) (by omega), at_lt f32 (by norm_num) (by omega) (by omega)⟩
  · rw [hp]
    obtain ⟨b1, b2, _, b4, _⟩ := roundMag_between i.natAbs (by omega)
    have hs := roundMag_small i.natAbs (by omega) hi
    have hc : ((i.natAbs : ℕ) : ℝ) = (i : ℝ) := by
      rw [Nat.cast_natAbs, abs_of_pos hpos]
    rw [hc] at b1 b2
    rw [show (roundMag i.natAbs : ℤ) + 1 = ((roundMag i.natAbs + 1 : ℕ) : ℤ) by push_cast; ring,
      show (roundMag i.natAbs : ℤ) - 1 = ((roundMag i.natAbs - 1 : ℕ) : ℤ) by omega,
      (at_finite f32 hs).1, (at_finite f32 (m := roundMag i.natAbs - 1) (by omega)).1]
    exact ⟨EReal.coe_lt_coe_iff.2 b2, EReal.coe_lt_coe_iff.2 b1⟩
  · rw [hp]
    obtain ⟨b1, b2, _, b4, _⟩ := roundMag_between i.natAbs (by omega)
    have hs := roundMag_small i.natAbs (by omega) hi
    have hc : ((i.natAbs : ℕ) : ℝ) = -(i : ℝ) := by
      rw [Nat.cast_natAbs, abs_of_neg hneg]
      push_cast
      rfl
    rw [hc] at b1 b2
    rw [show -(roundMag i.natAbs : ℤ) + 1 = -((roundMag i.natAbs - 1 : ℕ) : ℤ) by omega,
      show -(roundMag i.natAbs : ℤ) - 1 = -((roundMag i.natAbs + 1 : ℕ) : ℤ) by push_cast; ring,
      (at_finite f32 hs).2, (at_finite f32 (m := roundMag i.natAbs - 1) (by omega)).2]
    exact ⟨EReal.coe_lt_coe_iff.2 (by linarith), EReal.coe_lt_coe_iff.2 (by linarith)⟩

/-- **C148.**  Integers of at most `2 ^ 24` in absolute value are 32 bit floats, so there the results are their neighbours. -/
theorem next_int_exact (i : ℤ) (hi : i.natAbs ≤ 2 ^ 24) :
    num f32 (ofInt i) = ((i : ℝ) : EReal) ∧ IsNext f32 (ofInt i) (f32.nextUp (ofInt i)) ∧
      IsPrev f32 (ofInt i) (f32.nextDown (ofInt i)) := by
  have h0 : 0 < f32.inf := by have := f32_proper; unfold Proper at this; omega
  obtain ⟨hn, n1, n2, hp⟩ := ofInt_pos i (lt_of_le_of_lt hi (by norm_num))
  refine ⟨?_, nextUp_isNext f32 f32_proper hn n1, nextDown_isPrev f32 f32_proper hn n2⟩
  rw [num_pos f32 h0]
  rcases hp with ⟨rfl, hp⟩ | ⟨hpos, hp⟩ | ⟨hneg, hp⟩
  · have := (at_finite f32 (m := 0) h0).1
    rw [mag_zero] at this
    rw [hp]
    simpa using this
  · obtain ⟨_, _, b3, _, _⟩ := roundMag_between i.natAbs (by omega)
    have hs := roundMag_small i.natAbs (by omega) (lt_of_le_of_lt hi (by norm_num))
    rw [hp, (at_finite f32 (m := roundMag i.natAbs) (by omega)).1, b3 hi, Nat.cast_natAbs, abs_of_pos hpos]
  · obtain ⟨_, _, b3, _, _⟩ := roundMag_between i.natAbs (by omega)
    have hs := roundMag_small i.natAbs (by omega) (lt_of_le_of_lt hi (by norm_num))
    rw [hp, (at_finite f32 (m := roundMag i.natAbs) (by omega)).2, b3 hi, Nat.cast_natAbs, abs_of_neg hneg]
    push_cast
    simp

/-- **C148 (disagreement).**  Beyond that the result need not be the least 32 bit float greater than the integer: the next number
up from 16777219 is given as 16777222, but 16777220 lies between. -/
theorem next_up_int_skips :
    num f32 (f32.nextUp (ofInt 16777219)) = ((16777222 : ℝ) : EReal) ∧
      ∃ d, IsNum f32 d ∧ num f32 d = ((16777220 : ℝ) : EReal) := by
  have h1 : ofInt 16777219 = 151 * 2 ^ 23 + 2 := by decide +kernel
  have h2 : f32.nextUp (ofInt 16777219) = 151 * 2 ^ 23 + 3 := by decide +kernel
  have hv : ∀ k, k < 2 ^ 23 → num f32 (151 * 2 ^ 23 + k) = (((2 ^ 23 + k : ℕ) * 2 : ℝ) : EReal) := by
    intro k hk
    have hs : (2 : ℕ) ^ (f32.expo + f32.frac) = 2 ^ 31 := by unfold f32; norm_num
    have hq : (151 * 2 ^ 23 + k) / 2 ^ 31 % 2 = 0 := by omega
    have hr : (151 * 2 ^ 23 + k) % 2 ^ 31 = 151 * 2 ^ 23 + k := by omega
    unfold num
    rw [hs, if_pos hq, hr]
    unfold magE
    rw [if_pos (by unfold f32; simp only; omega)]
    unfold mag f32
    simp only
    rw [if_neg (by omega), show (151 * 2 ^ 23 + k) / 2 ^ 23 = 151 by omega,
      show (151 * 2 ^ 23 + k) % 2 ^ 23 = k by omega]
    norm_num
  refine ⟨?_, 151 * 2 ^ 23 + 2, ?_, ?_⟩
  · rw [h2, hv 3 (by norm_num)]
    norm_num
  · rw [isNum_iff]
    left
    unfold Fmt.inf f32
    norm_num
  · rw [hv 2 (by norm_num)]
    norm_num

/-- One as a 64 bit float: its neighbours are found, a null stays, NaN and `inf` stay. -/
example : plNextUp (.float64 [some 0x3FF0000000000000, none, some 0x7FF8000000000000, some 0x7FF0000000000000,
      some 0x8000000000000001]) =
    .float64 [some 0x3FF0000000000001, none, some 0x7FF8000000000000, some 0x7FF0000000000000, some 0x8000000000000000] := by
  decide +kernel

example : ∀ b, some b ∈ ([some 0x3FF0000000000000, none, some 0x7FF8000000000000] : Col ℕ) → b < 2 ^ 64 := by
  simp

example : IsNum f64 0x3FF0000000000000 ∧ num f64 0x3FF0000000000000 ≠ ⊤ := by
  have h : IsNum f64 0x3FF0000000000000 := by rw [isNum_iff]; left; unfold Fmt.inf f64; norm_num
  exact ⟨h, fun he => by
    have := (num_top_iff f64 f64_proper h).1 he
    revert this
    unfold Fmt.inf f64
    norm_num⟩

example : plNextDown (.int [some 1, none, some 0, some (-16777216)]) =
    .float32 [some 0x3F7FFFFF, none, some 0x80000001, some 0xCB800001] := by
  decide +kernel

end Verif.FloatBits
