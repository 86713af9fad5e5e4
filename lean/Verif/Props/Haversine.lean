import Verif.Model.Haversine
import Verif.Model.KDTree
import Mathlib.Geometry.Euclidean.Angle.Unoriented.TriangleInequality
import Mathlib.Analysis.InnerProductSpace.PiL2
import Mathlib.Tactic.Linarith
import Mathlib.Tactic.FieldSimp
import Mathlib.Tactic.NormNum
import Mathlib.Tactic.Positivity
import Mathlib.Tactic.Ring

/-!
# Haversine: a metric on the sphere, but not one a box can bound
-/

namespace Verif.Haversine
open Verif.Pl

namespace Spec

/-- The point of the unit sphere with the given latitude and longitude in degrees. -/
noncomputable def onSphere (lat lon : ℝ) : EuclideanSpace ℝ (Fin 3) :=
  !₂[Real.cos (lat * Real.pi / 180) * Real.cos (lon * Real.pi / 180),
     Real.cos (lat * Real.pi / 180) * Real.sin (lon * Real.pi / 180),
     Real.sin (lat * Real.pi / 180)]

end Spec
open Spec

theorem norm_onSphere (lat lon : ℝ) : ‖onSphere lat lon‖ = 1 := by
  have h : ‖onSphere lat lon‖ ^ 2 = 1 := by
    rw [EuclideanSpace.norm_sq_eq]
    simp only [onSphere, Fin.sum_univ_three, Real.norm_eq_abs, sq_abs]
    simp
    have h1 := Real.sin_sq_add_cos_sq (lat * Real.pi / 180)
    have h2 := Real.sin_sq_add_cos_sq (lon * Real.pi / 180)
    nlinarith
  have h0 := norm_nonneg (onSphere lat lon)
  nlinarith

theorem inner_onSphere (lat1 lon1 lat2 lon2 : ℝ) :
    inner ℝ (onSphere lat1 lon1) (onSphere lat2 lon2) = 1 - 2 * havA lat1 lon1 lat2 lon2 := by
  have half : ∀ t : ℝ, Real.sin (t / 2) * Real.sin (t / 2) = (1 - Real.cos t) / 2 := by
    intro t
    have := Real.cos_sq (t / 2)
    have h2 := Real.sin_sq_add_cos_sq (t / 2)
    rw [show 2 * (t / 2) = t by ring] at this
    nlinarith
  simp only [onSphere, havA, toRad, half]
  have e1 : (lat2 - lat1) * Real.pi / 180 = lat2 * Real.pi / 180 - lat1 * Real.pi / 180 := by ring
  have e2 : (lon2 - lon1) * Real.pi / 180 = lon2 * Real.pi / 180 - lon1 * Real.pi / 180 := by ring
  rw [e1, e2, Real.cos_sub, Real.cos_sub]
  simp [PiLp.inner_apply, Fin.sum_univ_three]
  ring

theorem havA_mem (lat1 lon1 lat2 lon2 : ℝ) : 0 ≤ havA lat1 lon1 lat2 lon2 ∧ havA lat1 lon1 lat2 lon2 ≤ 1 := by
  have h := abs_real_inner_le_norm (onSphere lat1 lon1) (onSphere lat2 lon2)
  rw [norm_onSphere, norm_onSphere, inner_onSphere, mul_one, abs_le] at h
  constructor <;> linarith [h.1, h.2]

theorem arg_eq (a : ℝ) (h0 : 0 ≤ a) (h1 : a ≤ 1) : Complex.arg ⟨√(1 - a), √a⟩ = Real.arcsin √a := by
  have hn : ‖(⟨√(1 - a), √a⟩ : ℂ)‖ = 1 := by
    have : ‖(⟨√(1 - a), √a⟩ : ℂ)‖ ^ 2 = 1 := by
      rw [Complex.sq_norm, Complex.normSq_mk, Real.mul_self_sqrt (by linarith), Real.mul_self_sqrt h0]
      ring
    have h := norm_nonneg (⟨√(1 - a), √a⟩ : ℂ)
    nlinarith
  rw [Complex.arg_of_re_nonneg (Real.sqrt_nonneg _), hn, div_one]

theorem two_arcsin (a : ℝ) (h0 : 0 ≤ a) (h1 : a ≤ 1) : 2 * Real.arcsin √a = Real.arccos (1 - 2 * a) := by
  have hs : √a ≤ 1 := by rw [Real.sqrt_le_left (by norm_num)]; simpa using h1
  have h2 : 0 ≤ Real.arcsin √a := Real.arcsin_nonneg.2 (Real.sqrt_nonneg a)
  have h3 : Real.arcsin √a ≤ Real.pi / 2 := Real.arcsin_le_pi_div_two _
  have hc : Real.cos (2 * Real.arcsin √a) = 1 - 2 * a := by
    rw [Real.cos_two_mul, Real.cos_sq', Real.sin_arcsin (by linarith [Real.sqrt_nonneg a]) hs, Real.sq_sqrt h0]
    ring
  rw [← hc, Real.arccos_cos (by linarith) (by linarith)]

/-- **C70.** The value is the great-circle distance: the earth radius times the angle between the two points
seen from the centre, for all latitudes and longitudes. -/
theorem hav_eq_angle (lat1 lon1 lat2 lon2 : ℝ) :
    havElem lat1 lon1 lat2 lon2 =
      6371 * InnerProductGeometry.angle (onSphere lat1 lon1) (onSphere lat2 lon2) := by
  obtain ⟨h0, h1⟩ := havA_mem lat1 lon1 lat2 lon2
  unfold havElem InnerProductGeometry.angle
  dsimp only
  rw [arg_eq _ h0 h1, two_arcsin _ h0 h1, inner_onSphere, norm_onSphere, norm_onSphere]
  norm_num

/-- **C70.** Symmetric. -/
theorem hav_symm (lat1 lon1 lat2 lon2 : ℝ) : havElem lat1 lon1 lat2 lon2 = havElem lat2 lon2 lat1 lon1 := by
  rw [hav_eq_angle, hav_eq_angle, InnerProductGeometry.angle_comm]

/-- **C70.** Between zero and half the circumference. -/
theorem hav_range (lat1 lon1 lat2 lon2 : ℝ) :
    0 ≤ havElem lat1 lon1 lat2 lon2 ∧ havElem lat1 lon1 lat2 lon2 ≤ 6371 * Real.pi := by
  rw [hav_eq_angle]
  have h1 := InnerProductGeometry.angle_nonneg (onSphere lat1 lon1) (onSphere lat2 lon2)
  have h2 := InnerProductGeometry.angle_le_pi (onSphere lat1 lon1) (onSphere lat2 lon2)
  constructor <;> linarith

/-- **C70.** Zero exactly for the same point of the sphere. -/
theorem hav_zero_iff (lat1 lon1 lat2 lon2 : ℝ) :
    havElem lat1 lon1 lat2 lon2 = 0 ↔ onSphere lat1 lon1 = onSphere lat2 lon2 := by
  rw [hav_eq_angle]
  have hne : ∀ lat lon, onSphere lat lon ≠ 0 := by
    intro lat lon h
    have := norm_onSphere lat lon
    rw [h, norm_zero] at this
    exact zero_ne_one this
  constructor
  · intro h
    have h : InnerProductGeometry.angle (onSphere lat1 lon1) (onSphere lat2 lon2) = 0 := by linarith
    obtain ⟨_, r, hr, e⟩ := InnerProductGeometry.angle_eq_zero_iff.1 h
    have hn := norm_onSphere lat2 lon2
    rw [e, norm_smul, norm_onSphere, mul_one, Real.norm_eq_abs, abs_of_pos hr] at hn
    rw [e, hn, one_smul]
  · intro h
    rw [h, InnerProductGeometry.angle_self (hne _ _), mul_zero]

/-- **C70.** Triangle inequality. -/
theorem hav_triangle (lat1 lon1 lat2 lon2 lat3 lon3 : ℝ) :
    havElem lat1 lon1 lat3 lon3 ≤ havElem lat1 lon1 lat2 lon2 + havElem lat2 lon2 lat3 lon3 := by
  rw [hav_eq_angle, hav_eq_angle, hav_eq_angle]
  have := InnerProductGeometry.angle_le_angle_add_angle (onSphere lat1 lon1) (onSphere lat2 lon2) (onSphere lat3 lon3)
  linarith

/-- Full turns of longitude do not change the point. -/
theorem onSphere_turn (lat lon : ℝ) : onSphere lat (lon + 360) = onSphere lat lon := by
  have : (lon + 360) * Real.pi / 180 = lon * Real.pi / 180 + 2 * Real.pi := by ring
  unfold onSphere
  rw [this, Real.cos_add_two_pi, Real.sin_add_two_pi]

/-- **C70.** Adding a full turn to a longitude changes nothing. -/
theorem hav_turn (lat1 lon1 lat2 lon2 : ℝ) :
    havElem lat1 (lon1 + 360) lat2 lon2 = havElem lat1 lon1 lat2 lon2 := by
  rw [hav_eq_angle, hav_eq_angle, onSphere_turn]

example : havElem 10 (-170 + 360) 20 30 = havElem 10 (-170) 20 30 := hav_turn _ _ _ _

/-! ## The expression -/

theorem rows4_get : ∀ (a b c d : Col ℝ) (i : ℕ), a.length = b.length → b.length = c.length → c.length = d.length →
    (rows4 a b c d).length = a.length ∧
    (rows4 a b c d)[i]? = a[i]?.map fun x => row x (b.getD i none) (c.getD i none) (d.getD i none)
  | [], [], [], [], i, _, _, _ => by simp [rows4]
  | a :: as, b :: bs, c :: cs, d :: ds, i, h1, h2, h3 => by
    have h1' : as.length = bs.length := by simpa using h1
    have h2' : bs.length = cs.length := by simpa using h2
    have h3' : cs.length = ds.length := by simpa using h3
    cases i with
    | zero => exact ⟨by simp [rows4, (rows4_get as bs cs ds 0 h1' h2' h3').1], by simp [rows4]⟩
    | succ i =>
      have := rows4_get as bs cs ds i h1' h2' h3'
      exact ⟨by simp [rows4, this.1], by simpa [rows4] using this.2⟩

/-- **C70.** Row by row with columns of equal length (more than one row): row `i` is the distance of the two
points of row `i`, null if one of the four coordinates is null. -/
theorem haversine_rows (xLat xLon yLat yLon : Col ℝ) (h1 : xLat.length = xLon.length)
    (h2 : xLon.length = yLat.length) (h3 : yLat.length = yLon.length) (hn : yLat.length ≠ 1) :
    ∃ out, naive xLat xLon yLat yLon = .ok out ∧ out.length = xLat.length ∧
      ∀ i < xLat.length, out[i]? = some (row (xLat.getD i none) (xLon.getD i none) (yLat.getD i none) (yLon.getD i none)) := by
  refine ⟨rows4 xLat xLon yLat yLon, ?_, (rows4_get _ _ _ _ 0 h1 h2 h3).1, fun i hi => ?_⟩
  · unfold naive
    split
    · exact absurd rfl hn
    · rw [if_pos ⟨h1, h2, h3⟩]
  · rw [(rows4_get _ _ _ _ i h1 h2 h3).2, List.getElem?_eq_getElem hi]
    simp [List.getD, List.getElem?_eq_getElem hi]

example : (naive [some 1, none] [some 2, some 3] [some 4, some 5] [some 6, some 7]) =
    .ok [some (havElem 1 2 4 6), none] := by
  simp [naive, rows4, row]

/-- **C70.** A single `y` is compared with every row. -/
theorem haversine_broadcast (xLat xLon : Col ℝ) (c d : ℝ) (h : xLat.length = xLon.length) :
    ∃ out, naive xLat xLon [some c] [some d] = .ok out ∧ out.length = xLat.length ∧
      ∀ i < xLat.length, out[i]? = some (row (xLat.getD i none) (xLon.getD i none) (some c) (some d)) := by
  refine ⟨_, rfl, by simp [h], fun i hi => ?_⟩
  rw [List.getElem?_zipWith, List.getElem?_eq_getElem hi, List.getElem?_eq_getElem (h ▸ hi)]
  simp [List.getD, List.getElem?_eq_getElem hi, List.getElem?_eq_getElem (h ▸ hi)]

example : ([some 1, none] : Col ℝ).length = ([some 2, some 3] : Col ℝ).length := rfl

/-- **C70 (disagreement).** A single null `y` panics instead of giving nulls, even when the frame itself has
one row; and only `y` may be a scalar, although the error message speaks of "one of them". -/
theorem haversine_scalar_null (xLat xLon : Col ℝ) (c : Option ℝ) :
    naive xLat xLon [none] [c] = .panic ∧ naive xLat xLon [c] [none] = .panic ∧
    naive [some 1] [some 2] [some 3, some 4] [some 5, some 6] = .err := by
  refine ⟨rfl, ?_, ?_⟩
  · cases c <;> rfl
  · simp [naive]

/-! ## Tree search with this metric -/

/-- Two points of the equator whose longitudes differ by a quarter turn. -/
theorem quarter (lon1 lon2 : ℝ) (h : Real.sin (toRad (lon2 - lon1) / 2) ^ 2 = 1 / 2) :
    havElem 0 lon1 0 lon2 = 6371 * (Real.pi / 2) := by
  rw [hav_eq_angle]
  congr 1
  rw [← InnerProductGeometry.inner_eq_zero_iff_angle_eq_pi_div_two, inner_onSphere]
  have e2 : toRad (0 - 0) / 2 = 0 := by unfold toRad; ring
  have e3 : toRad 0 = 0 := by unfold toRad; ring
  simp only [havA, e2, e3, Real.sin_zero, Real.cos_zero]
  linarith

theorem sin_quarter : Real.sin (Real.pi / 4) ^ 2 = 1 / 2 := by
  rw [Real.sin_pi_div_four, div_pow, Real.sq_sqrt (by norm_num)]; norm_num

/-- **C07 (disagreement).** Box pruning is unsound for `haversine`: a box that contains a row denoting the very
point of the query is judged to be a quarter of the circumference away, because the box is clamped on the
flat coordinates and the date line is not identified. -/
theorem haversine_box_unsound [FloatOps ℝ] :
    let b : KDT.Box ℝ := ⟨[0, -180], [0, 90]⟩
    let q : List ℝ := [0, 180]
    let r : List ℝ := [0, -180]
    List.Forall₂ (· ≤ ·) b.lo r ∧ List.Forall₂ (· ≤ ·) r b.hi ∧
    (KDT.Dist.any havSlice).dist r q = 0 ∧
    KDT.boxDist (KDT.Dist.any havSlice) b q = 6371 * (Real.pi / 2) := by
  refine ⟨by simp, by norm_num, ?_, ?_⟩
  · change havElem 0 (-180) 0 180 = 0
    rw [hav_zero_iff, ← onSphere_turn]
    norm_num
  · have hc : KDT.clampPt ([0, -180] : List ℝ) [0, 90] [0, 180] = [0, 90] := by
      norm_num [KDT.clampPt]
    change havSlice [0, 180] (KDT.clampPt ([0, -180] : List ℝ) [0, 90] [0, 180]) = _
    rw [hc]
    change havElem 0 180 0 90 = _
    apply quarter
    have e1 : toRad (90 - 180) / 2 = -(Real.pi / 4) := by unfold toRad; ring
    rw [e1, Real.sin_neg, neg_sq, sin_quarter]

/-- **C07 (disagreement).** The search of a two-leaf tree misses it: a radius of one kilometre around the
query finds nothing, although the left leaf holds the point of the query itself. -/
theorem haversine_within_misses [FloatOps ℝ] :
    let t : KDT.Tree ℝ ℕ := .node 1 0 ⟨[0, -180], [0, 170]⟩
      (.leaf ⟨[0, -180], [0, -90]⟩ [⟨0, [0, -180]⟩, ⟨1, [0, -90]⟩]) (.leaf ⟨[0, 90], [0, 90]⟩ [⟨2, [0, 90]⟩])
    KDT.withinLoop (KDT.Dist.any havSlice) [0, 180] 1 t.size [(0, t)] [] = some [] ∧
    (KDT.Dist.any havSlice).dist [0, -180] [0, 180] = 0 := by
  have hbox : KDT.boxDist (KDT.Dist.any havSlice) ⟨[0, -180], [0, -90]⟩ ([0, 180] : List ℝ) =
      6371 * (Real.pi / 2) := by
    have hc : KDT.clampPt ([0, -180] : List ℝ) [0, -90] [0, 180] = [0, -90] := by
      norm_num [KDT.clampPt]
    change havSlice [0, 180] (KDT.clampPt ([0, -180] : List ℝ) [0, -90] [0, 180]) = _
    rw [hc]
    change havElem 0 180 0 (-90) = _
    apply quarter
    have e1 : toRad (-90 - 180) / 2 = Real.pi / 4 - Real.pi := by unfold toRad; ring
    rw [e1, Real.sin_sub_pi, neg_sq, sin_quarter]
  have hrow : (KDT.Dist.any havSlice).dist ([0, 90] : List ℝ) [0, 180] = 6371 * (Real.pi / 2) := by
    change havElem 0 90 0 180 = _
    apply quarter
    have e1 : toRad (180 - 90) / 2 = Real.pi / 4 := by unfold toRad; ring
    rw [e1, sin_quarter]
  have hbig : ¬ (6371 * (Real.pi / 2) ≤ (1 : ℝ)) := by
    have := Real.two_le_pi
    linarith
  have h0 : ¬ ((180 : ℝ) < 0) := by norm_num
  have h1 : ¬ ((0 : ℝ) > 1) := by norm_num
  refine ⟨?_, ?_⟩
  · simp only [KDT.Tree.size, KDT.withinLoop, KDT.descend, KDT.Tree.box, KDT.updateNbWithin, List.foldl_cons,
      List.foldl_nil, hbox, hrow, hbig, h1, List.getD_cons_succ, List.getD_cons_zero, h0, if_false, decide_false,
      Bool.false_eq_true]
  · change havElem 0 (-180) 0 180 = 0
    rw [hav_zero_iff, ← onSphere_turn]
    norm_num

end Verif.Haversine
