import Verif.Model.EditDist
import Mathlib.Tactic.Linarith
import Mathlib.Tactic.FieldSimp
import Mathlib.Tactic.Positivity

/-!
# Edit distances: alignments
-/

namespace Verif.EditDist

variable {α : Type}

/-- An alignment of two words with its cost; `sw` says whether swaps of neighbors are allowed. -/
inductive Align (sw : Bool) : Nat → List α → List α → Prop
  | nil : Align sw 0 [] []
  | keep (x : α) {n : Nat} {xs ys : List α} (h : Align sw n xs ys) : Align sw n (x :: xs) (x :: ys)
  | sub (x y : α) {n : Nat} {xs ys : List α} (h : Align sw n xs ys) : Align sw (n + 1) (x :: xs) (y :: ys)
  | del (x : α) {n : Nat} {xs ys : List α} (h : Align sw n xs ys) : Align sw (n + 1) (x :: xs) ys
  | ins (y : α) {n : Nat} {xs ys : List α} (h : Align sw n xs ys) : Align sw (n + 1) xs (y :: ys)
  | swap (x y : α) {n : Nat} {xs ys : List α} (hs : sw = true) (h : Align sw n xs ys) :
      Align sw (n + 1) (x :: y :: xs) (y :: x :: ys)

variable {sw : Bool}

theorem Align.refl (xs : List α) : Align sw 0 xs xs := by
  induction xs with
  | nil => exact .nil
  | cons x xs ih => exact .keep x ih

theorem Align.insAll (ys : List α) : Align sw ys.length [] ys := by
  induction ys with
  | nil => exact .nil
  | cons y ys ih => exact .ins y ih

theorem Align.delAll (xs : List α) : Align sw xs.length xs [] := by
  induction xs with
  | nil => exact .nil
  | cons y ys ih => exact .del y ih

theorem Align.symm {n : Nat} {xs ys : List α} (h : Align sw n xs ys) : Align sw n ys xs := by
  induction h with
  | nil => exact .nil
  | keep x _ ih => exact .keep x ih
  | sub x y _ ih => exact .sub y x ih
  | del x _ ih => exact .ins x ih
  | ins y _ ih => exact .del y ih
  | swap x y hs _ ih => exact .swap y x hs ih

theorem Align.nil_left {n : Nat} {ys : List α} (h : Align sw n [] ys) : ys.length = n := by
  generalize hx : ([] : List α) = xs at h
  induction h with
  | nil => rfl
  | keep => simp at hx
  | sub => simp at hx
  | del => simp at hx
  | ins y _ ih => simp [ih hx]
  | swap => simp at hx

theorem Align.nil_right {n : Nat} {xs : List α} (h : Align sw n xs []) : xs.length = n := h.symm.nil_left

theorem Align.zero {n : Nat} {xs ys : List α} (h : Align sw n xs ys) (h0 : n = 0) : xs = ys := by
  induction h with
  | nil => rfl
  | keep x _ ih => rw [ih h0]
  | sub => omega
  | del => omega
  | ins => omega
  | swap => omega

theorem Align.len {n : Nat} {xs ys : List α} (h : Align sw n xs ys) :
    xs.length ≤ ys.length + n ∧ ys.length ≤ xs.length + n := by
  induction h with
  | nil => simp
  | keep x _ ih => simp only [List.length_cons]; omega
  | sub x y _ ih => simp only [List.length_cons]; omega
  | del x _ ih => simp only [List.length_cons]; omega
  | ins y _ ih => simp only [List.length_cons]; omega
  | swap x y _ _ ih => simp only [List.length_cons]; omega

/-- The number of kept positions is a common subsequence. -/
theorem Align.common {n : Nat} {xs ys : List α} (h : Align sw n xs ys) :
    ∃ zs : List α, List.Sublist zs xs ∧ List.Sublist zs ys ∧ xs.length ≤ zs.length + n + (if sw then n else 0) ∧
      ys.length ≤ zs.length + n + (if sw then n else 0) := by
  induction h with
  | nil => exact ⟨[], .slnil, .slnil, by simp, by simp⟩
  | keep x _ ih =>
    obtain ⟨zs, h1, h2, h3, h4⟩ := ih
    exact ⟨x :: zs, h1.cons_cons x, h2.cons_cons x, by simp only [List.length_cons]; omega, by
      simp only [List.length_cons]; omega⟩
  | sub x y _ ih =>
    obtain ⟨zs, h1, h2, h3, h4⟩ := ih
    exact ⟨zs, h1.cons _, h2.cons _, by simp only [List.length_cons]; split at h3 <;> simp_all <;> omega, by
      simp only [List.length_cons]; split at h4 <;> simp_all <;> omega⟩
  | del x _ ih =>
    obtain ⟨zs, h1, h2, h3, h4⟩ := ih
    exact ⟨zs, h1.cons _, h2, by simp only [List.length_cons]; split at h3 <;> simp_all <;> omega, by
      split at h4 <;> simp_all <;> omega⟩
  | ins y _ ih =>
    obtain ⟨zs, h1, h2, h3, h4⟩ := ih
    exact ⟨zs, h1, h2.cons _, by split at h3 <;> simp_all <;> omega, by
      simp only [List.length_cons]; split at h4 <;> simp_all <;> omega⟩
  | swap x y hs _ ih =>
    obtain ⟨zs, h1, h2, h3, h4⟩ := ih
    simp only [hs, if_true] at h3 h4 ⊢
    exact ⟨zs, (h1.cons _).cons _, (h2.cons _).cons _, by simp only [List.length_cons]; omega, by
      simp only [List.length_cons]; omega⟩

theorem Align.mono {n : Nat} {xs ys : List α} (h : Align false n xs ys) : Align sw n xs ys := by
  induction h with
  | nil => exact .nil
  | keep x _ ih => exact .keep x ih
  | sub x y _ ih => exact .sub x y ih
  | del x _ ih => exact .del x ih
  | ins y _ ih => exact .ins y ih
  | swap x y hs => simp at hs

/-- Without swaps: each swap becomes two substitutions. -/
theorem Align.noSwap {n : Nat} {xs ys : List α} (h : Align sw n xs ys) : ∃ m ≤ 2 * n, Align false m xs ys := by
  induction h with
  | nil => exact ⟨0, by omega, .nil⟩
  | keep x _ ih => obtain ⟨m, h1, h2⟩ := ih; exact ⟨m, h1, .keep x h2⟩
  | sub x y _ ih => obtain ⟨m, h1, h2⟩ := ih; exact ⟨m + 1, by omega, .sub x y h2⟩
  | del x _ ih => obtain ⟨m, h1, h2⟩ := ih; exact ⟨m + 1, by omega, .del x h2⟩
  | ins y _ ih => obtain ⟨m, h1, h2⟩ := ih; exact ⟨m + 1, by omega, .ins y h2⟩
  | swap x y _ _ ih => obtain ⟨m, h1, h2⟩ := ih; exact ⟨m + 1 + 1, by omega, .sub x y (.sub y x h2)⟩

/-- Alignments without swaps compose. -/
theorem Align.trans {m n : Nat} {xs ys zs : List α} (h1 : Align false m xs ys) (h2 : Align false n ys zs) :
    ∃ k ≤ m + n, Align false k xs zs := by
  induction hl : xs.length + ys.length + zs.length using Nat.strong_induction_on generalizing m n xs ys zs with
  | _ l ih =>
    subst hl
    cases h1 with
    | nil => exact ⟨n, by omega, h2⟩
    | del x h =>
      obtain ⟨k, hk, h3⟩ := ih _ (by simp only [List.length_cons]; omega) h h2 rfl
      exact ⟨k + 1, by omega, .del x h3⟩
    | swap x y hs h => simp at hs
    | keep x h =>
      cases h2 with
      | keep _ h' =>
        obtain ⟨k, hk, h3⟩ := ih _ (by simp only [List.length_cons]; omega) h h' rfl
        exact ⟨k, by omega, .keep x h3⟩
      | sub _ z h' =>
        obtain ⟨k, hk, h3⟩ := ih _ (by simp only [List.length_cons]; omega) h h' rfl
        exact ⟨k + 1, by omega, .sub x z h3⟩
      | del _ h' =>
        obtain ⟨k, hk, h3⟩ := ih _ (by simp only [List.length_cons]; omega) h h' rfl
        exact ⟨k + 1, by omega, .del x h3⟩
      | ins z h' =>
        obtain ⟨k, hk, h3⟩ := ih _ (by simp only [List.length_cons]; omega) (Align.keep x h) h' rfl
        exact ⟨k + 1, by omega, .ins z h3⟩
      | swap _ _ hs _ => simp at hs
    | sub x y h =>
      cases h2 with
      | keep _ h' =>
        obtain ⟨k, hk, h3⟩ := ih _ (by simp only [List.length_cons]; omega) h h' rfl
        exact ⟨k + 1, by omega, .sub x y h3⟩
      | sub _ z h' =>
        obtain ⟨k, hk, h3⟩ := ih _ (by simp only [List.length_cons]; omega) h h' rfl
        exact ⟨k + 1, by omega, .sub x z h3⟩
      | del _ h' =>
        obtain ⟨k, hk, h3⟩ := ih _ (by simp only [List.length_cons]; omega) h h' rfl
        exact ⟨k + 1, by omega, .del x h3⟩
      | ins z h' =>
        obtain ⟨k, hk, h3⟩ := ih _ (by simp only [List.length_cons]; omega) (Align.sub x y h) h' rfl
        exact ⟨k + 1, by omega, .ins z h3⟩
      | swap _ _ hs _ => simp at hs
    | ins y h =>
      cases h2 with
      | keep _ h' =>
        obtain ⟨k, hk, h3⟩ := ih _ (by simp only [List.length_cons]; omega) h h' rfl
        exact ⟨k + 1, by omega, .ins y h3⟩
      | sub _ z h' =>
        obtain ⟨k, hk, h3⟩ := ih _ (by simp only [List.length_cons]; omega) h h' rfl
        exact ⟨k + 1, by omega, .ins z h3⟩
      | del _ h' =>
        obtain ⟨k, hk, h3⟩ := ih _ (by simp only [List.length_cons]; omega) h h' rfl
        exact ⟨k, by omega, h3⟩
      | ins z h' =>
        obtain ⟨k, hk, h3⟩ := ih _ (by simp only [List.length_cons]; omega) (Align.ins y h) h' rfl
        exact ⟨k + 1, by omega, .ins z h3⟩
      | swap _ _ hs _ => simp at hs

variable [DecidableEq α]

theorem lev_nil_right (xs : List α) : lev xs [] = xs.length := by
  cases xs <;> simp [lev]

theorem osa_nil_right (xs : List α) : osa xs [] = xs.length := by
  cases xs <;> simp [osa]

theorem lev_cons_le (x : α) (xs ys : List α) : lev (x :: xs) ys ≤ lev xs ys + 1 := by
  induction hl : xs.length + ys.length using Nat.strong_induction_on generalizing x xs ys with
  | _ l ih =>
    subst hl
    cases ys with
    | nil => simp [lev_nil_right]
    | cons y ys =>
      rw [lev]
      split
      · -- lev xs ys ≤ lev xs (y :: ys) + 1
        cases xs with
        | nil => simp only [lev, List.length_cons]; omega
        | cons x' xs =>
          rename_i hxy
          have h := ih (xs.length + ys.length) (by simp only [List.length_cons]; omega) x' xs ys rfl
          rw [lev.eq_3]
          split
          · omega
          · have hA : lev (x' :: xs) ys ≤ (1 + min (lev xs ys) (min (lev xs (y :: ys)) (lev (x' :: xs) ys))) + 1 := by
              have h3 : lev xs ys ≤ lev xs (y :: ys) + 1 := by
                have := ih (xs.length + (y :: ys).length) (by simp only [List.length_cons]; omega) y xs (y :: ys) rfl
                rw [lev, if_pos rfl] at this
                exact this
              omega
            exact hA
      · omega

theorem lev_symm (xs ys : List α) : lev xs ys = lev ys xs := by
  induction hl : xs.length + ys.length using Nat.strong_induction_on generalizing xs ys with
  | _ l ih =>
    subst hl
    cases xs with
    | nil => rw [lev_nil_right, lev]
    | cons x xs =>
      cases ys with
      | nil => rw [lev_nil_right, lev]
      | cons y ys =>
        rw [lev, lev]
        rw [ih _ (by simp only [List.length_cons]; omega) xs ys rfl,
          ih _ (by simp only [List.length_cons]; omega) xs (y :: ys) rfl,
          ih _ (by simp only [List.length_cons]; omega) (x :: xs) ys rfl]
        by_cases h : x = y
        · simp [h]
        · rw [if_neg h, if_neg (Ne.symm h), min_comm (lev (y :: ys) xs)]

theorem lev_cons_le' (y : α) (xs ys : List α) : lev xs (y :: ys) ≤ lev xs ys + 1 := by
  rw [lev_symm xs (y :: ys), lev_symm xs ys]
  exact lev_cons_le y ys xs

theorem lev_align (xs ys : List α) : Align false (lev xs ys) xs ys := by
  induction hl : xs.length + ys.length using Nat.strong_induction_on generalizing xs ys with
  | _ l ih =>
    subst hl
    cases xs with
    | nil => rw [lev]; exact Align.insAll ys
    | cons x xs =>
      cases ys with
      | nil => rw [lev_nil_right]; exact Align.delAll _
      | cons y ys =>
        have h1 := ih _ (by simp only [List.length_cons]; omega) xs ys rfl
        have h2 := ih _ (by simp only [List.length_cons]; omega) xs (y :: ys) rfl
        have h3 := ih _ (by simp only [List.length_cons]; omega) (x :: xs) ys rfl
        rw [lev]
        split
        · rename_i h; subst h; exact .keep _ h1
        · rcases min_choice (lev xs ys) (min (lev xs (y :: ys)) (lev (x :: xs) ys)) with h | h
          · rw [h, Nat.add_comm]; exact .sub x y h1
          · rw [h]
            rcases min_choice (lev xs (y :: ys)) (lev (x :: xs) ys) with h | h
            · rw [h, Nat.add_comm]; exact .del x h2
            · rw [h, Nat.add_comm]; exact .ins y h3

theorem lev_le_align {n : Nat} {xs ys : List α} (h : Align false n xs ys) : lev xs ys ≤ n := by
  induction h with
  | nil => simp [lev]
  | keep x _ ih => rw [lev, if_pos rfl]; exact ih
  | sub x y _ ih =>
    rw [lev]; split <;> omega
  | del x _ ih => exact (lev_cons_le _ _ _).trans (by omega)
  | ins y _ ih => exact (lev_cons_le' _ _ _).trans (by omega)
  | swap x y hs => simp at hs

theorem osa_align (xs ys : List α) : Align true (osa xs ys) xs ys := by
  have key : ∀ (x y : α) (xs ys : List α) (a b c : Nat), Align true a xs ys → Align true b xs (y :: ys) →
      Align true c (x :: xs) ys →
      Align true (min ((if x = y then 0 else 1) + a) (1 + min b c)) (x :: xs) (y :: ys) := by
    intro x y xs ys a b c ha hb hc
    rcases min_choice ((if x = y then 0 else 1) + a) (1 + min b c) with h | h <;> rw [h]
    · split
      · rename_i e; subst e; rw [Nat.zero_add]; exact .keep _ ha
      · rw [Nat.add_comm]; exact .sub x y ha
    · rcases min_choice b c with h | h <;> rw [h, Nat.add_comm]
      · exact .del x hb
      · exact .ins y hc
  induction hl : xs.length + ys.length using Nat.strong_induction_on generalizing xs ys with
  | _ l ih =>
    subst hl
    match xs, ys with
    | [], ys => rw [osa]; exact Align.insAll ys
    | x :: xs, [] => rw [osa_nil_right]; exact Align.delAll _
    | [x], y :: ys =>
      rw [osa]
      exact key x y [] ys _ _ _ (ih _ (by simp only [List.length_cons]; omega) _ _ rfl)
        (ih _ (by simp only [List.length_cons]; omega) _ _ rfl)
        (ih _ (by simp only [List.length_cons]; omega) _ _ rfl)
    | x :: x' :: xs, [y] =>
      rw [osa]
      exact key x y (x' :: xs) [] _ _ _ (ih _ (by simp only [List.length_cons]; omega) _ _ rfl)
        (ih _ (by simp only [List.length_cons]; omega) _ _ rfl)
        (ih _ (by simp only [List.length_cons]; omega) _ _ rfl)
    | x :: x' :: xs, y :: y' :: ys =>
      have hm := key x y (x' :: xs) (y' :: ys) _ _ _ (ih _ (by simp only [List.length_cons]; omega) _ _ rfl)
        (ih _ (by simp only [List.length_cons]; omega) _ _ rfl)
        (ih _ (by simp only [List.length_cons]; omega) _ _ rfl)
      have hs := ih _ (by simp only [List.length_cons]; omega) xs ys rfl
      rw [osa.eq_5]
      split
      · rename_i e
        obtain ⟨e1, e2⟩ := e
        subst e1 e2
        rcases min_choice (min ((if x = x' then 0 else 1) + osa (x' :: xs) (x :: ys))
          (1 + min (osa (x' :: xs) (x' :: x :: ys)) (osa (x :: x' :: xs) (x :: ys)))) (1 + osa xs ys) with h | h <;>
          rw [h]
        · exact hm
        · rw [Nat.add_comm]; exact .swap x x' rfl hs
      · exact hm

/-- The first steps of the recurrence bound it. -/
theorem osa_cons_cons_le (x y : α) (xs ys : List α) :
    osa (x :: xs) (y :: ys) ≤ (if x = y then 0 else 1) + osa xs ys ∧
    osa (x :: xs) (y :: ys) ≤ 1 + osa xs (y :: ys) ∧ osa (x :: xs) (y :: ys) ≤ 1 + osa (x :: xs) ys := by
  match xs, ys with
  | [], ys => rw [osa.eq_3]; omega
  | x' :: xs, [] => rw [osa.eq_4]; omega
  | x' :: xs, y' :: ys =>
    rw [osa.eq_5]
    split <;> omega

theorem osa_le_align {n : Nat} {xs ys : List α} (h : Align true n xs ys) : osa xs ys ≤ n := by
  induction h with
  | nil => simp [osa]
  | @keep x n xs ys _ ih =>
    have := (osa_cons_cons_le x x xs ys).1
    rw [if_pos rfl] at this
    omega
  | @sub x y n xs ys _ ih =>
    have := (osa_cons_cons_le x y xs ys).1
    split at this <;> omega
  | @del x n xs ys h ih =>
    cases ys with
    | nil => rw [osa_nil_right] at ih ⊢; simp only [List.length_cons]; omega
    | cons y ys => have := (osa_cons_cons_le x y xs ys).2.1; omega
  | @ins y n xs ys h ih =>
    cases xs with
    | nil => rw [osa] at ih ⊢; simp only [List.length_cons]; omega
    | cons x xs => have := (osa_cons_cons_le x y xs ys).2.2; omega
  | @swap x y n xs ys _ _ ih =>
    rw [osa.eq_5, if_pos ⟨rfl, rfl⟩]
    omega

theorem lcsLen_sublist (xs ys : List α) :
    ∃ zs : List α, List.Sublist zs xs ∧ List.Sublist zs ys ∧ zs.length = lcsLen xs ys := by
  induction hl : xs.length + ys.length using Nat.strong_induction_on generalizing xs ys with
  | _ l ih =>
    subst hl
    cases xs with
    | nil => exact ⟨[], .slnil, List.nil_sublist _, by simp [lcsLen]⟩
    | cons x xs =>
      cases ys with
      | nil => exact ⟨[], List.nil_sublist _, .slnil, by simp [lcsLen]⟩
      | cons y ys =>
        rw [lcsLen]
        split
        · rename_i e
          subst e
          obtain ⟨zs, h1, h2, h3⟩ := ih _ (by simp only [List.length_cons]; omega) xs ys rfl
          exact ⟨x :: zs, h1.cons_cons x, h2.cons_cons x, by rw [List.length_cons, h3]⟩
        · rcases max_choice (lcsLen xs (y :: ys)) (lcsLen (x :: xs) ys) with h | h <;> rw [h]
          · obtain ⟨zs, h1, h2, h3⟩ := ih _ (by simp only [List.length_cons]; omega) xs (y :: ys) rfl
            exact ⟨zs, h1.cons x, h2, h3⟩
          · obtain ⟨zs, h1, h2, h3⟩ := ih _ (by simp only [List.length_cons]; omega) (x :: xs) ys rfl
            exact ⟨zs, h1, h2.cons y, h3⟩

theorem lcsLen_max (xs ys zs : List α) (h1 : List.Sublist zs xs) (h2 : List.Sublist zs ys) :
    zs.length ≤ lcsLen xs ys := by
  induction hl : xs.length + ys.length using Nat.strong_induction_on generalizing xs ys zs with
  | _ l ih =>
    subst hl
    cases xs with
    | nil => rw [List.sublist_nil.1 h1]; simp
    | cons x xs =>
      cases ys with
      | nil => rw [List.sublist_nil.1 h2]; simp
      | cons y ys =>
        rw [lcsLen]
        split
        · rename_i e
          subst e
          cases zs with
          | nil => simp
          | cons z zs =>
            have := ih _ (by simp only [List.length_cons]; omega) xs ys zs
              (by have := h1.tail; simpa using this) (by have := h2.tail; simpa using this) rfl
            simp only [List.length_cons]; omega
        · rename_i e
          cases h1 with
          | cons _ h1 =>
            have := ih _ (by simp only [List.length_cons]; omega) xs (y :: ys) zs h1 h2 rfl
            omega
          | cons_cons _ h1 =>
            cases h2 with
            | cons _ h2 =>
              have := ih _ (by simp only [List.length_cons]; omega) (x :: xs) ys _ (h1.cons_cons x) h2 rfl
              omega
            | cons_cons _ h2 => exact absurd rfl e

theorem lcsLen_symm (xs ys : List α) : lcsLen xs ys = lcsLen ys xs := by
  obtain ⟨z1, a1, b1, c1⟩ := lcsLen_sublist xs ys
  obtain ⟨z2, a2, b2, c2⟩ := lcsLen_sublist ys xs
  have h1 := lcsLen_max ys xs z1 b1 a1
  have h2 := lcsLen_max xs ys z2 b2 a2
  omega

end Verif.EditDist
