import Verif.Lemmas.SimdTree

/-! # A tree of 100 equal rows and one more (for C162) -/

set_option linter.unusedSectionVars false

namespace Verif.SimdTree
open Verif Verif.KDT FloatOps

variable {K : Type} [LinearOrder K] [Zero K] [Add K] [Sub K] [Mul K] [FloatOps K] {A : Type}

theorem addAll_leaf (us : USort) (cfg : Cfg K) : ∀ (ps : List (Leaf K A)) (b : Box K) (data : List (Leaf K A)),
    data.length + ps.length ≤ cfg.capacity →
    (Tree.leaf b data).addAll us cfg ps = .leaf (ps.foldl (fun b p => b.update p.row) b) (data ++ ps) := by
  intro ps
  induction ps with
  | nil => intro b data _; simp [Tree.addAll]
  | cons p ps ih =>
    intro b data h
    simp only [List.length_cons] at h
    have : (Tree.leaf b data).add us cfg p 0 = .leaf (b.update p.row) (data ++ [p]) := by
      simp only [Tree.add]
      rw [if_neg (by simp; omega)]
    have e := ih (b.update p.row) (data ++ [p]) (by simp; omega)
    unfold Tree.addAll at e ⊢
    rw [List.foldl_cons, this, e]
    simp

theorem split_one (us : USort) (f : Leaf K A → K) (mid : K) (zs : List (Leaf K A)) (p : Leaf K A)
    (hz : ∀ a ∈ zs, f a < mid) (hp : mid ≤ f p) :
    ∃ l, l.Perm zs ∧ us.run (fun p q => !(decide (mid ≤ f p)) || decide (mid ≤ f q)) (zs ++ [p]) = l ++ [p] := by
  have hperm := us.perm (fun p q => !(decide (mid ≤ f p)) || decide (mid ≤ f q)) (zs ++ [p])
  have hsort := us.sorted (fun p q => !(decide (mid ≤ f p)) || decide (mid ≤ f q))
    (by
      intro a b c
      by_cases h1 : mid ≤ f a <;> by_cases h2 : mid ≤ f b <;> by_cases h3 : mid ≤ f c <;> simp [h1, h2, h3])
    (by
      intro a b
      by_cases h1 : mid ≤ f a <;> by_cases h2 : mid ≤ f b <;> simp [h1, h2]) (zs ++ [p])
  generalize us.run (fun p q => !(decide (mid ≤ f p)) || decide (mid ≤ f q)) (zs ++ [p]) = s at *
  obtain ⟨a, c, rfl⟩ := List.append_of_mem (hperm.mem_iff.2 (List.mem_append_right zs (List.mem_singleton_self p)))
  have hac : (a ++ c).Perm zs := by
    have h1 : (p :: (a ++ c)).Perm (a ++ p :: c) := List.perm_middle.symm
    have h2 : (zs ++ [p]).Perm (p :: zs) := List.perm_append_singleton p zs
    exact ((h1.trans hperm).trans h2).cons_inv
  have hc : c = [] := by
    rw [List.eq_nil_iff_forall_not_mem]
    intro y hy
    have hlt := hz y (hac.mem_iff.1 (List.mem_append_right a hy))
    have := (List.pairwise_cons.1 (List.pairwise_append.1 hsort).2.1).1 y hy
    simp [hp, not_le.2 hlt] at this
  subst hc
  exact ⟨a, by simpa using hac, rfl⟩

theorem takeWhile_one {α : Type} (f : α → Bool) (l : List α) (p : α) (hl : ∀ a ∈ l, f a = true) (hp : f p = false) :
    (l ++ [p]).takeWhile f = l := by
  rw [List.takeWhile_append_of_pos hl]
  simp [hp]

theorem number_replicate_row (z : List K) : ∀ (n s : ℕ), ∀ p ∈ number s (List.replicate n z), p.row = z := by
  intro n s p hp
  exact List.eq_of_mem_replicate (number_row s p hp)

theorem fold_same (z : List K) (b : Box K) (hb : b.update z = b) : ∀ (l : List (Leaf K A)), (∀ p ∈ l, p.row = z) →
    l.foldl (fun b p => b.update p.row) b = b := by
  intro l
  induction l with
  | nil => intro _; rfl
  | cons p l ih =>
    intro h
    rw [List.foldl_cons, h p (by simp), hb]
    exact ih fun q hq => h q (by simp [hq])

/-- The tree of 100 rows `z` and one row `x`, split at the midpoint of the first axis, searched around `z`: if the box of `x` looks
farther than the radius, only the rows `z` are found. -/
theorem miss (us : USort) (cosine hav : List K → List K → K) (z x : List K) (B : Box K) (mid : K)
    (hzl : z.length = 16)
    (hB1 : (emptyBox 16 : Box K).update z = B) (hB2 : B.update z = B)
    (hmid : mid = (B.update x).lo.getD 0 0 + half ((B.update x).hi.getD 0 0 - (B.update x).lo.getD 0 0))
    (hz : z.getD 0 0 < mid) (hx : mid ≤ x.getD 0 0) (r : K) (hr : 0 + eps < r) (hmin : minVal ≤ r)
    (hzz : simdSq z z ≤ r) (hbox : r < boxDist Dist.sql2simd ((emptyBox 16 : Box K).update x) z) :
    ∃ s res, PyKDT.new us cosine hav ⟨16, List.replicate 100 z ++ [x]⟩ false "sql2" = .ok s ∧
      within us s.cfg s.tree z r false = some (some res) ∧
      res.Perm (Spec.all Dist.sql2simd z (number 0 (List.replicate 100 z))) := by
  obtain ⟨l, hl, hs⟩ := split_one us (fun p : Leaf K ℕ => p.valueAt 0) mid (number 0 (List.replicate 100 z)) ⟨100, x⟩
    (fun a ha => by
      show a.row.getD 0 0 < mid
      rw [number_replicate_row z 100 0 a ha]; exact hz) hx
  have hlz : ∀ a ∈ l, a.row = z := fun a ha => number_replicate_row z 100 0 a (hl.mem_iff.1 ha)
  have hlen : l.length = 100 := by rw [hl.length_eq, number_length]; simp
  let cfg : Cfg K := ⟨16, 100, .sql2simd, .midpoint⟩
  let t : Tree K ℕ := .node 0 mid (B.update x) (.leaf (findBounds 16 l) l) (.leaf (findBounds 16 [⟨100, x⟩]) [⟨100, x⟩])
  have hfold : (number 0 (List.replicate 100 z)).foldl (fun b p => b.update p.row) (emptyBox 16 : Box K) = B := by
    rw [List.replicate_succ]
    simp only [number, List.foldl_cons, hB1]
    exact fold_same z B hB2 _ (number_replicate_row z 99 1)
  have hnum : number 0 (List.replicate 100 z ++ [x]) = number 0 (List.replicate 100 z) ++ [⟨100, x⟩] := by
    rw [number_append]; simp [number]
  have htree : (newEmpty 16 : Tree K ℕ).addAll us cfg (number 0 (List.replicate 100 z ++ [x])) = t := by
    rw [hnum]
    have e := addAll_leaf us cfg (number 0 (List.replicate 100 z)) (emptyBox 16) []
      (by rw [number_length]; simp [cfg])
    unfold Tree.addAll at e ⊢
    rw [List.foldl_append, newEmpty, e, hfold]
    simp only [List.nil_append, List.foldl_cons, List.foldl_nil, Tree.add]
    rw [if_pos (by rw [List.length_append, number_length]; simp [cfg])]
    have hsplit : splitData us cfg (B.update x) (0 % cfg.dim) (number 0 (List.replicate 100 z) ++ [⟨100, x⟩]) =
        (mid, l, [⟨100, x⟩]) := by
      have h0 : 0 % cfg.dim = 0 := rfl
      rw [h0]
      simp only [splitData, cfg]
      rw [← hmid, hs]
      have htw : (l ++ [(⟨100, x⟩ : Leaf K ℕ)]).takeWhile (fun p => decide (p.valueAt 0 < mid)) = l := by
        apply takeWhile_one
        · intro a ha
          have : a.valueAt 0 < mid := by
            show a.row.getD 0 0 < mid
            rw [hlz a ha]; exact hz
          simpa using this
        · have : ¬ (⟨100, x⟩ : Leaf K ℕ).valueAt 0 < mid := not_lt.2 hx
          simpa using this
      unfold partitionPoint
      rw [htw]
      simp
    rw [hsplit]
    have : l.isEmpty = false := by
      cases l with
      | nil => simp at hlen
      | cons a l => rfl
    simp only [this]
    rfl
  refine ⟨⟨cfg, t⟩, updateNbWithin .sql2simd z r [] l, ?_, ?_, ?_⟩
  · have hd : Dist.ofString cosine hav "sql2" 16 = .ok .sql2simd := by simp [Dist.ofString]
    have hne : (⟨16, List.replicate 100 z ++ [x]⟩ : Mat K).isEmpty = false := by simp [Mat.isEmpty]
    simp only [PyKDT.new, hd, hne]
    have : number 0 (List.replicate 100 z ++ [x]) = ⟨0, z⟩ :: number 1 (List.replicate 99 z ++ [x]) := by
      rw [List.replicate_succ]; rfl
    have hfl : fromLeaves us (.sql2simd : Dist K) (SplitMethod.ofBool false) (number 0 (List.replicate 100 z ++ [x])) =
        some (cfg, t) := by
      rw [← htree]
      rw [this]
      simp only [fromLeaves, hzl]
      rfl
    rw [hfl]
    rfl
  · unfold within
    rw [if_neg (not_le.2 hr)]
    have hsz : t.size = 3 := rfl
    rw [hsz]
    simp only [withinLoop]
    rw [if_neg (not_lt.2 hmin)]
    have hde : descend cfg.d z (fun x => decide (x ≤ r)) t [] = ([], l) := by
      simp only [descend, t]
      rw [if_pos hz]
      rw [if_neg (by
        have : ¬ boxDist cfg.d ((emptyBox 16 : Box K).update x) z ≤ r := not_le.2 hbox
        exact fun h => this (of_decide_eq_true h))]
    rw [hde]
    simp [withinLoop, cfg]
  · rw [updateNbWithin_eq, List.nil_append]
    have : Spec.ball Dist.sql2simd z r l = Spec.all Dist.sql2simd z l := by
      unfold Spec.ball
      rw [List.filter_eq_self]
      intro a ha
      obtain ⟨p, hp, rfl⟩ := List.mem_map.1 ha
      simp only [hlz p hp, decide_eq_true_eq]
      exact hzz
    rw [this]
    exact all_perm _ _ hl

theorem miss_rect {z x : List K} (hz : z.length = 16) (hx : x.length = 16) : (⟨16, List.replicate 100 z ++ [x]⟩ : Mat K).Rect := by
  intro row hrow
  rcases List.mem_append.1 hrow with h | h
  · rw [List.eq_of_mem_replicate h]; exact hz
  · rw [List.mem_singleton.1 h]; exact hx

theorem miss_length (z x : List K) : (⟨16, List.replicate 100 z ++ [x]⟩ : Mat K).rows.length = 101 := by
  show (List.replicate 100 z ++ [x]).length = 101
  rw [List.length_append, List.length_replicate]; rfl

theorem miss_last (z x : List K) : (⟨16, List.replicate 100 z ++ [x]⟩ : Mat K).rows[100]? = some x := by
  show (List.replicate 100 z ++ [x])[100]? = some x
  rw [List.getElem?_append_right (by rw [List.length_replicate]), List.length_replicate]; rfl

theorem miss_facts {z x : List K} {r : K} {res : List (NB K ℕ)}
    (h3 : res.Perm (Spec.all Dist.sql2simd z (number 0 (List.replicate 100 z)))) (hz : simdSq z z ≤ r) (hx : simdSq x z ≤ r) :
    res.length = 100 ∧ (∀ y ∈ res, y.item < 100) ∧
      (Spec.ball Dist.sql2simd z r (Spec.numbered (⟨16, List.replicate 100 z ++ [x]⟩ : Mat K).rows)).length = 101 := by
  refine ⟨?_, ?_, ?_⟩
  · rw [h3.length_eq]
    show (List.map _ _).length = 100
    rw [List.length_map, number_length, List.length_replicate]
  · intro y hy
    obtain ⟨p, hp, rfl⟩ := List.mem_map.1 (h3.mem_iff.1 hy)
    rw [number_numbered] at hp
    obtain ⟨w, hw, rfl⟩ := List.mem_map.1 hp
    have := List.snd_lt_of_mem_zipIdx hw
    rwa [List.length_replicate] at this
  · have hall : ∀ p ∈ Spec.all Dist.sql2simd z (Spec.numbered (List.replicate 100 z ++ [x])), p.dist ≤ r := by
      intro p hp
      obtain ⟨l, hl, rfl⟩ := List.mem_map.1 hp
      rw [← number_numbered] at hl
      rcases List.mem_append.1 (number_row 0 l hl) with h | h
      · show simdSq l.row z ≤ r
        rw [List.eq_of_mem_replicate h]; exact hz
      · show simdSq l.row z ≤ r
        rw [List.mem_singleton.1 h]; exact hx
    unfold Spec.ball
    rw [List.filter_eq_self.2 (fun p hp => by simpa using hall p hp)]
    show (List.map _ (List.map _ _)).length = 101
    rw [List.length_map, List.length_map, List.length_zipIdx]
    exact miss_length z x

end Verif.SimdTree
