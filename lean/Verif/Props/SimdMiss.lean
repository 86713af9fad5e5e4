import Verif.Props.SimdTree
import Verif.Lemmas.SimdMiss

/-! # C162: the rows lost from 16 columns on -/

namespace Verif.SimdTree
open Verif Verif.KDT Verif.Ieee Verif.Ieee.Spec FloatOps Verif.ConfDbl
open Verif.FloatBits (f64)
open Verif.Doubles (rd)

/-! ## A lost row -/

noncomputable def big : Flt f64 := ofInt (2 ^ 28)
noncomputable def three : Flt f64 := ofInt 3
noncomputable def zeros : List (Flt f64) := List.replicate 16 0
noncomputable def far : List (Flt f64) := big :: List.replicate 15 three

theorem big_val : big.val = 2 ^ 28 := by
  have := ofInt_val (n := 2 ^ 28) (by norm_num)
  rw [big, this]; norm_num

theorem three_val : three.val = 3 := by
  have := ofInt_val (n := 3) (by norm_num)
  rw [three, this]; norm_num

/-- Adding 9 to a number just above `2 ^ 56` adds 16. -/
theorem up (j : ℕ) (hj : j < 16) : rd (((2 : ℝ) ^ 56 + 16 * j) + 9) = 2 ^ 56 + 16 * (j + 1 : ℕ) := by
  have hj' : (j : ℝ) < 16 := by exact_mod_cast hj
  have hj0 : (0 : ℝ) ≤ j := Nat.cast_nonneg _
  have h := rd_at (x := ((2 : ℝ) ^ 56 + 16 * j) + 9) 4 (2 ^ 52 + j + 1) (by norm_num; linarith) (by norm_num; linarith) (by norm_num)
    (by
      have e : (((2 : ℝ) ^ 56 + 16 * j) + 9) / 2 ^ (4 : ℤ) - ((2 ^ 52 + j + 1 : ℤ) : ℝ) = -7 / 16 := by push_cast; norm_num; ring
      rw [e]; norm_num [abs_of_neg])
  rw [h]; push_cast; norm_num; ring

theorem rd_small (n : ℕ) (h : n ≤ 2 ^ 53) : rd (n : ℝ) = n := Doubles.rd_nat h

theorem sq_three : ((three - 0) * (three - 0)).val = 9 := by
  show rd (rd (three.val - 0) * rd (three.val - 0)) = 9
  rw [three_val, sub_zero, show rd 3 = 3 by simpa using rd_small 3 (by norm_num)]
  have := rd_small 9 (by norm_num)
  norm_num at this ⊢
  exact this

theorem pow56 : rd ((2 : ℝ) ^ 56) = 2 ^ 56 := by
  have := rd_at (x := (2 : ℝ) ^ 56) 4 (2 ^ 52) (by norm_num) (by norm_num) (by norm_num) (by norm_num)
  rw [this]; norm_num

theorem pow28 : rd ((2 : ℝ) ^ 28) = 2 ^ 28 := by
  have := rd_small (2 ^ 28) (by norm_num)
  norm_num at this ⊢
  exact this

theorem sq_big : ((big - 0) * (big - 0)).val = 2 ^ 56 := by
  show rd (rd (big.val - 0) * rd (big.val - 0)) = 2 ^ 56
  rw [big_val, sub_zero, pow28, ← pow_add, pow56]

/-- Four lanes: between `2 ^ 56` and `2 ^ 56 + 160`. -/
theorem lanes_val : 2 ^ 56 ≤ (lanes far zeros).val ∧ (lanes far zeros).val ≤ 2 ^ 56 + 160 := by
  have e : lanes far zeros =
      (((((0 + (big - 0) * (big - 0)) + (three - 0) * (three - 0)) + (three - 0) * (three - 0)) + (three - 0) * (three - 0)) +
        ((((0 + (three - 0) * (three - 0)) + (three - 0) * (three - 0)) + (three - 0) * (three - 0)) + (three - 0) * (three - 0))) +
      (((((0 + (three - 0) * (three - 0)) + (three - 0) * (three - 0)) + (three - 0) * (three - 0)) + (three - 0) * (three - 0)) +
        ((((0 + (three - 0) * (three - 0)) + (three - 0) * (three - 0)) + (three - 0) * (three - 0)) + (three - 0) * (three - 0))) := by
    rfl
  rw [e]
  simp only [add_val, sq_three, sq_big, zero_val]
  show rd (rd (rd (rd (rd (rd (0 + 2 ^ 56) + 9) + 9) + 9) + rd (rd (rd (rd (0 + 9) + 9) + 9) + 9)) +
    rd (rd (rd (rd (rd (0 + 9) + 9) + 9) + 9) + rd (rd (rd (rd (0 + 9) + 9) + 9) + 9))) ∈ Set.Icc (2 ^ 56 : ℝ) (2 ^ 56 + 160)
  have u0 := up 0 (by norm_num)
  have u1 := up 1 (by norm_num)
  have u2 := up 2 (by norm_num)
  norm_num at u0 u1 u2
  have s9 := rd_small 9 (by norm_num)
  have s18 := rd_small 18 (by norm_num)
  have s27 := rd_small 27 (by norm_num)
  have s36 := rd_small 36 (by norm_num)
  have s72 := rd_small 72 (by norm_num)
  have p := pow56
  norm_num at p s9 s18 s27 s36 s72
  norm_num [p, s9, s18, s27, s36, s72, u0, u1, u2]
  have a : rd (72057594037928020 : ℝ) = 72057594037928016 := by
    have := rd_at (x := (72057594037928020 : ℝ)) 4 (2 ^ 52 + 5) (by norm_num) (by norm_num) (by norm_num) (by norm_num)
    rw [this]; norm_num
  have b : rd (72057594037928096 : ℝ) = 72057594037928096 := by
    have := rd_at (x := (72057594037928096 : ℝ)) 4 (2 ^ 52 + 10) (by norm_num) (by norm_num) (by norm_num) (by norm_num)
    rw [this]; norm_num
  have c : rd (72057594037928088 : ℝ) ≤ rd 72057594037928096 := Doubles.rd_mono (by norm_num)
  have d : rd (72057594037927936 : ℝ) ≤ rd 72057594037928088 := Doubles.rd_mono (by norm_num)
  rw [a]
  norm_num
  constructor <;> linarith

/-- The loop to the box of the row: `2 ^ 56 + 240`. -/
theorem box_val : (boxFold (K := Flt f64) accSq 0 far far zeros).val = 2 ^ 56 + 240 := by
  have hb : big > 0 := by
    show (0 : ℝ) < big.val
    rw [big_val]; norm_num
  have ht : three > 0 := by
    show (0 : ℝ) < three.val
    rw [three_val]; norm_num
  have sb : ((0 - big) * (0 - big)).val = 2 ^ 56 := by
    show rd (rd (0 - big.val) * rd (0 - big.val)) = 2 ^ 56
    rw [zero_sub, Doubles.rd_neg, neg_mul_neg, ← sq_big]
    show _ = rd (rd (big.val - 0) * rd (big.val - 0))
    rw [sub_zero]
  have st : ((0 - three) * (0 - three)).val = 9 := by
    show rd (rd (0 - three.val) * rd (0 - three.val)) = 9
    rw [zero_sub, Doubles.rd_neg, neg_mul_neg, ← sq_three]
    show _ = rd (rd (three.val - 0) * rd (three.val - 0))
    rw [sub_zero]
  have key : ∀ (n j : ℕ) (acc : Flt f64), n + j ≤ 15 → acc.val = 2 ^ 56 + 16 * j →
      (boxFold (K := Flt f64) accSq acc (List.replicate n three) (List.replicate n three) (List.replicate n 0)).val =
        2 ^ 56 + 16 * ((n + j : ℕ) : ℝ) := by
    intro n
    induction n with
    | zero => intro j acc _ h; simpa [boxFold] using h
    | succ n ih =>
      intro j acc hn h
      simp only [List.replicate_succ, boxFold]
      rw [if_neg (not_lt.2 ht.le), if_pos ht]
      rw [ih (j + 1) _ (by omega)]
      · congr 3; omega
      · show rd (acc.val + ((0 - three) * (0 - three)).val) = _
        rw [st, h, up j (by omega)]
  have : boxFold (K := Flt f64) accSq 0 far far zeros = boxFold (K := Flt f64) accSq (accSq 0 (0 - big)) (List.replicate 15 three)
      (List.replicate 15 three) (List.replicate 15 0) := by
    simp only [far, zeros]
    rw [List.replicate_succ (n := 15) (a := (0 : Flt f64))]
    simp only [boxFold]
    rw [if_neg (not_lt.2 hb.le), if_pos hb]
  rw [this, key 15 0 _ (by norm_num)]
  · norm_num
  · show rd (0 + ((0 - big) * (0 - big)).val) = _
    rw [sb, zero_add, pow56]; norm_num

theorem lanes_zero : lanes zeros zeros = 0 := by
  have h0 : ((0 - 0) * (0 - 0) : Flt f64) = 0 := by
    apply Rounding.Num.ext
    show rd (rd (0 - 0) * rd (0 - 0)) = 0
    rw [sub_zero, Doubles.rd_zero, mul_zero, Doubles.rd_zero]
  have e : lanes zeros zeros =
      (((((0 + (0 - 0) * (0 - 0)) + (0 - 0) * (0 - 0)) + (0 - 0) * (0 - 0)) + (0 - 0) * (0 - 0)) +
        ((((0 + (0 - 0) * (0 - 0)) + (0 - 0) * (0 - 0)) + (0 - 0) * (0 - 0)) + (0 - 0) * (0 - 0))) +
      (((((0 + (0 - 0) * (0 - 0)) + (0 - 0) * (0 - 0)) + (0 - 0) * (0 - 0)) + (0 - 0) * (0 - 0)) +
        ((((0 + (0 - 0) * (0 - 0)) + (0 - 0) * (0 - 0)) + (0 - 0) * (0 - 0)) + (0 - 0) * (0 - 0))) := by
    rfl
  rw [e]
  simp only [h0, LawfulFloat.add_zero']

section
variable {K : Type} [LinearOrder K] [Zero K] [Add K] [Sub K] [Mul K] [FloatOps K]

theorem box_row : ∀ (row : List K), (∀ a ∈ row, (minVal : K) ≤ a ∧ a ≤ maxVal) →
    (emptyBox row.length : Box K).update row = ⟨row, row⟩ := by
  intro row h
  have : ∀ l : List K, (∀ a ∈ l, (minVal : K) ≤ a ∧ a ≤ maxVal) →
      List.zipWith min (List.replicate l.length maxVal) l = l ∧ List.zipWith max (List.replicate l.length minVal) l = l := by
    intro l
    induction l with
    | nil => intro _; simp
    | cons a l ih =>
      intro h
      have ha := h a (by simp)
      have := ih fun b hb => h b (by simp [hb])
      simp [List.replicate_succ, this.1, this.2, ha.1, ha.2]
  simp only [emptyBox, Box.update, this row h]

omit [Zero K] [Add K] [Sub K] [Mul K] [FloatOps K] in
theorem box_same (row : List K) : (⟨row, row⟩ : Box K).update row = ⟨row, row⟩ := by
  simp [Box.update]

end

theorem max_large : (2 : ℝ) ^ 28 ≤ (maxVal : Flt f64).val := by
  show (2 : ℝ) ^ 28 ≤ rd ((ieee f64).big)
  rw [← pow28]
  apply Doubles.rd_mono
  have ht : top f64 = 1024 := by simp [top, f64]
  show (2 : ℝ) ^ 28 ≤ 2 ^ top f64 - 2 ^ (top f64 - f64.frac - 1)
  rw [ht]
  have h1 : (2 : ℝ) ^ (1024 - (f64.frac : ℤ) - 1) ≤ 2 ^ (1023 : ℤ) := zpow_le_zpow_right₀ (by norm_num) (by simp [f64])
  have h2 : (2 : ℝ) ^ (1024 : ℤ) = 2 * 2 ^ (1023 : ℤ) := by rw [← zpow_one_add₀ two_ne_zero]; norm_num
  have h3 : (2 : ℝ) ^ 28 ≤ 2 ^ (1023 : ℤ) := by
    rw [← zpow_natCast]
    exact zpow_le_zpow_right₀ (by norm_num) (by norm_num)
  rw [h2]
  generalize (2 : ℝ) ^ (1023 : ℤ) = a at *
  generalize (2 : ℝ) ^ (1024 - (f64.frac : ℤ) - 1) = b at *
  exact h3.trans (by linarith)

theorem min_zero : (minVal : Flt f64) ≤ 0 := LawfulFloat.minVal_le

/-- **C162c.** A row in the ball can be lost: with four lanes, in a tree of 16 columns with metric `sql2`, a search whose radius is the computed
distance of a row finds the other 100 rows and not that row. -/
theorem within_simd_misses (us : USort) (cosine hav : List (Dbl lanes) → List (Dbl lanes) → Dbl lanes) :
    ∃ (X : Mat (Dbl lanes)) (row q : List (Dbl lanes)) (r : Dbl lanes) (s : PyKDT (Dbl lanes)) (res : List (NB (Dbl lanes) ℕ)),
      X.ncols = 16 ∧ X.Rect ∧ X.rows.length = 101 ∧ X.rows[100]? = some row ∧ q.length = 16 ∧
      KDT.Dist.dist .sql2simd row q = r ∧ PyKDT.new us cosine hav X false "sql2" = .ok s ∧
      within us s.cfg s.tree q r false = some (some res) ∧ res.length = 100 ∧ (∀ x ∈ res, x.item < 100) ∧
      (KDT.Spec.ball .sql2simd q r (KDT.Spec.numbered X.rows)).length = 101 := by
  have hbp : (0 : Dbl lanes) < big := by
    show (0 : ℝ) < big.val
    rw [big_val]; norm_num
  obtain ⟨hr1, hr2⟩ := lanes_val
  have hz16 : (zeros : List (Dbl lanes)).length = 16 := by simp [zeros]
  have hf16 : (far : List (Dbl lanes)).length = 16 := by simp [far]
  have hmax := max_large
  have hmin : (minVal : Flt f64).val ≤ 0 := min_zero
  have hmm : ∀ a ∈ (far : List (Dbl lanes)), (minVal : Dbl lanes) ≤ a ∧ a ≤ maxVal := by
    intro a ha
    have hv : a = big ∨ a = three := by
      rcases List.mem_cons.1 ha with h | h
      · exact .inl h
      · exact .inr (List.eq_of_mem_replicate h)
    rcases hv with rfl | rfl
    · exact ⟨show (minVal : Flt f64).val ≤ big.val by rw [big_val]; linarith [show (0 : ℝ) ≤ 2 ^ 28 by norm_num],
        show big.val ≤ (maxVal : Flt f64).val by rw [big_val]; exact hmax⟩
    · exact ⟨show (minVal : Flt f64).val ≤ three.val by rw [three_val]; linarith,
        show three.val ≤ (maxVal : Flt f64).val by rw [three_val]; norm_num at hmax; linarith⟩
  have hmz : ∀ a ∈ (zeros : List (Dbl lanes)), (minVal : Dbl lanes) ≤ a ∧ a ≤ maxVal := by
    intro a ha
    have hv : a = 0 := List.eq_of_mem_replicate ha
    subst hv
    exact ⟨hmin, show (0 : ℝ) ≤ (maxVal : Flt f64).val by norm_num at hmax; linarith⟩
  have hmidv : ((0 + half (big - 0) : Flt f64)).val = 2 ^ 27 := by
    show rd (0 + rd (rd (big.val - 0) / 2)) = 2 ^ 27
    rw [big_val, sub_zero, pow28, zero_add]
    have h27 := rd_small (2 ^ 27) (by norm_num)
    norm_num at h27 ⊢
    rw [h27, h27]
  have heps : (eps : Flt f64).val ≤ 1 := by
    show rd ((2 : ℝ) ^ (-(f64.frac : ℤ))) ≤ 1
    apply Doubles.rd_le_one
    exact zpow_le_one_of_nonpos₀ (by norm_num) (by simp)
  have hB1 : (emptyBox 16 : Box (Dbl lanes)).update zeros = ⟨zeros, zeros⟩ := by
    rw [← hz16]; exact box_row _ hmz
  have hB2 : (emptyBox 16 : Box (Dbl lanes)).update far = ⟨far, far⟩ := by
    rw [← hf16]; exact box_row _ hmm
  have g1 : (0 + half (big - 0) : Flt f64) = (((⟨zeros, zeros⟩ : Box (Dbl lanes)).update far).lo.getD 0 0 +
      half (((⟨zeros, zeros⟩ : Box (Dbl lanes)).update far).hi.getD 0 0 - ((⟨zeros, zeros⟩ : Box (Dbl lanes)).update far).lo.getD 0 0) :
        Dbl lanes) := by
    show _ = (min (0 : Dbl lanes) big + half (max (0 : Dbl lanes) big - min (0 : Dbl lanes) big) : Dbl lanes)
    rw [min_eq_left hbp.le, max_eq_right hbp.le]
    rfl
  have g2 : (zeros : List (Dbl lanes)).getD 0 0 < ((0 + half (big - 0) : Flt f64) : Dbl lanes) := by
    show (0 : ℝ) < (0 + half (big - 0) : Flt f64).val
    rw [hmidv]; norm_num
  have g3 : ((0 + half (big - 0) : Flt f64) : Dbl lanes) ≤ (far : List (Dbl lanes)).getD 0 0 := by
    show ((0 + half (big - 0) : Flt f64)).val ≤ big.val
    rw [hmidv, big_val]; norm_num
  have g4 : (0 + eps : Dbl lanes) < lanes far zeros := by
    show rd (0 + (eps : Flt f64).val) < (lanes far zeros).val
    rw [zero_add]
    have := Doubles.rd_le_one heps
    norm_num at hr1
    linarith
  have g5 : (minVal : Dbl lanes) ≤ lanes far zeros := by
    show (minVal : Flt f64).val ≤ (lanes far zeros).val
    norm_num at hr1; linarith
  have g6 : (simdSq (zeros : List (Dbl lanes)) zeros : Dbl lanes) ≤ lanes far zeros := by
    show (lanes zeros zeros).val ≤ (lanes far zeros).val
    rw [lanes_zero, zero_val]; norm_num at hr1; linarith
  have g7 : (lanes far zeros : Dbl lanes) < boxDist (K := Dbl lanes) .sql2simd ((emptyBox 16 : Box (Dbl lanes)).update far) zeros := by
    rw [hB2]
    show (lanes far zeros).val < (boxFold (K := Flt f64) accSq 0 far far zeros).val
    rw [box_val]; linarith
  obtain ⟨s, res, h1, h2, h3⟩ := miss us cosine hav zeros far ⟨zeros, zeros⟩ _ hz16 hB1 (box_same _) g1 g2 g3 _ g4 g5 g6 g7
  exact ⟨_, far, zeros, lanes far zeros, s, res, rfl, miss_rect hz16 hf16, miss_length _ _, miss_last _ _, hz16, rfl, h1, h2,
    miss_facts h3 g6 le_rfl⟩

end Verif.SimdTree
