import Verif.Props.Segment
import Verif.Spec.DoubleSqrt
/- The exact distances from lines, rays and segments, in coordinates. -/
namespace Planar
open Spec

theorem isDist_unique {S : Vec2 ℝ → Prop} {p : Vec2 ℝ} {d d' : ℝ} {f : Vec2 ℝ → Vec2 ℝ → ℝ} (h : IsDist S p d f)
    (h' : IsDist S p d' f) : d = d' := by
  obtain ⟨⟨q, hq, e⟩, hm⟩ := h
  obtain ⟨⟨q', hq', e'⟩, hm'⟩ := h'
  exact le_antisymm (e' ▸ hm q' hq') (e ▸ hm' q hq)

theorem isDist_congr {S S' : Vec2 ℝ → Prop} {p : Vec2 ℝ} {d : ℝ} {f : Vec2 ℝ → Vec2 ℝ → ℝ} (hS : ∀ q, S q ↔ S' q)
    (h : IsDist S p d f) : IsDist S' p d f := by
  obtain ⟨⟨q, hq, e⟩, hm⟩ := h
  exact ⟨⟨q, (hS q).mp hq, e⟩, fun q hq => hm q ((hS q).mpr hq)⟩

theorem gap_eq : gap = Vec2.distanceTo := by
  funext p q
  rfl

theorem gap_triangle (p q r : Vec2 ℝ) : gap p r ≤ gap p q + gap q r := by
  have hm : ∀ x y : ℝ, √(x * x + y * y) * √(x * x + y * y) = x * x + y * y := fun x y =>
    Real.mul_self_sqrt (add_nonneg (mul_self_nonneg x) (mul_self_nonneg y))
  simp only [gap, vlen]
  apply Real.sqrt_le_iff.mpr
  have a0 := Real.sqrt_nonneg ((p.x - q.x) * (p.x - q.x) + (p.y - q.y) * (p.y - q.y))
  have b0 := Real.sqrt_nonneg ((q.x - r.x) * (q.x - r.x) + (q.y - r.y) * (q.y - r.y))
  refine ⟨by positivity, ?_⟩
  have h1 := hm (p.x - q.x) (p.y - q.y)
  have h2 := hm (q.x - r.x) (q.y - r.y)
  have cs : (p.x - q.x) * (q.x - r.x) + (p.y - q.y) * (q.y - r.y) ≤
      √((p.x - q.x) * (p.x - q.x) + (p.y - q.y) * (p.y - q.y)) * √((q.x - r.x) * (q.x - r.x) + (q.y - r.y) * (q.y - r.y)) := by
    rw [← Real.sqrt_mul (add_nonneg (mul_self_nonneg _) (mul_self_nonneg _))]
    apply Real.le_sqrt_of_sq_le
    nlinarith [sq_nonneg ((p.x - q.x) * (q.y - r.y) - (p.y - q.y) * (q.x - r.x))]
  nlinarith

section
variable {a v p : Vec2 ℝ} (hv : 0 < vlen v)
include hv

theorem norm_unit : v.x / vlen v * (v.x / vlen v) + v.y / vlen v * (v.y / vlen v) = 1 := by
  have hm := Real.mul_self_sqrt (add_nonneg (mul_self_nonneg v.x) (mul_self_nonneg v.y))
  have : vlen v * vlen v = v.x * v.x + v.y * v.y := hm
  field_simp
  nlinarith

/-- The distance from the line through `a` with direction `v`. -/
theorem dist_line {d : ℝ} (h : IsDist (OnLine a v) p d gap) : d = |signedDist a v p| := by
  let l : Line ℝ := ⟨⟨⟨v.x / vlen v, v.y / vlen v⟩, ⟨v.y / vlen v, -(v.x / vlen v)⟩⟩, a.dot ⟨v.y / vlen v, -(v.x / vlen v)⟩⟩
  have hf : l.toLin.Frame := Lin.frame_mk (norm_unit hv)
  have h2 := (C35_distance l hf p).1
  have hpt : ∀ q, l.Pt q ↔ OnLine a v q := by
    intro q
    rw [Line.pt_iff hf]
    have hm : vlen v * vlen v = v.x * v.x + v.y * v.y :=
      Real.mul_self_sqrt (add_nonneg (mul_self_nonneg v.x) (mul_self_nonneg v.y))
    simp only [l, Vec2.dot]
    constructor
    · intro e
      have e' : q.x * v.y - q.y * v.x = a.x * v.y - a.y * v.x := by
        field_simp at e; linarith
      refine ⟨((q.x - a.x) * v.x + (q.y - a.y) * v.y) / (vlen v * vlen v), ?_, ?_⟩
      · rw [hm]; rw [hm.symm]; field_simp
        rw [show vlen v ^ 2 = v.x * v.x + v.y * v.y by rw [← hm]; ring]
        linear_combination v.y * e'
      · field_simp
        rw [show vlen v ^ 2 = v.x * v.x + v.y * v.y by rw [← hm]; ring]
        linear_combination -v.x * e'
    · rintro ⟨t, hx, hy⟩
      rw [hx, hy]; field_simp; ring
  have := isDist_unique h (gap_eq ▸ isDist_congr hpt h2)
  rw [this]
  congr 1
  simp only [l, Line.distanceTo, Vec2.copy_eq, Vec2.dot, signedDist]
  field_simp
  ring

/-- The distance from the ray. -/
theorem dist_ray {d : ℝ} (h : IsDist (OnRay a v) p d gap) :
    (0 ≤ (p.x - a.x) * (v.x / vlen v) + (p.y - a.y) * (v.y / vlen v) →
      d = |(p.x - a.x) * (v.y / vlen v) - (p.y - a.y) * (v.x / vlen v)|) ∧
    ((p.x - a.x) * (v.x / vlen v) + (p.y - a.y) * (v.y / vlen v) < 0 →
      d = √((p.x - a.x) * (p.x - a.x) + (p.y - a.y) * (p.y - a.y))) := by
  let l : Ray ℝ := ⟨⟨⟨v.x / vlen v, v.y / vlen v⟩, ⟨v.y / vlen v, -(v.x / vlen v)⟩⟩, a⟩
  have hf : l.toLin.Frame := Lin.frame_mk (norm_unit hv)
  have h2 := C38_distance l hf p
  have hpt : ∀ q, l.Pt q ↔ OnRay a v q := by
    intro q
    constructor
    · rintro ⟨t, ht, hx, hy⟩
      refine ⟨t / vlen v, by positivity, ?_, ?_⟩
      · rw [hx]; simp only [l]; field_simp
      · rw [hy]; simp only [l]; field_simp
    · rintro ⟨t, ht, hx, hy⟩
      refine ⟨t * vlen v, by positivity, ?_, ?_⟩
      · rw [hx]; simp only [l]; field_simp
      · rw [hy]; simp only [l]; field_simp
  have hd := isDist_unique h (gap_eq ▸ isDist_congr hpt h2)
  have hdef : l.distanceTo p = if 0 ≤ (p.x - a.x) * (v.x / vlen v) + (p.y - a.y) * (v.y / vlen v)
      then |(p.x - a.x) * (v.y / vlen v) - (p.y - a.y) * (v.x / vlen v)|
      else √((p.x - a.x) * (p.x - a.x) + (p.y - a.y) * (p.y - a.y)) := by
    have e1 : l.direction.dot (p.copy - l.anchor) = (p.x - a.x) * (v.x / vlen v) + (p.y - a.y) * (v.y / vlen v) := by
      simp only [l, Vec2.copy_eq, Vec2.dot]
      show v.x / vlen v * (p.x - a.x) + v.y / vlen v * (p.y - a.y) = _
      ring
    have e2 : (p.copy - l.anchor).dot l.normal = (p.x - a.x) * (v.y / vlen v) - (p.y - a.y) * (v.x / vlen v) := by
      simp only [l, Vec2.copy_eq, Vec2.dot]
      show (p.x - a.x) * (v.y / vlen v) + (p.y - a.y) * (-(v.x / vlen v)) = _
      ring
    have e3 : (p.copy - l.anchor).length = √((p.x - a.x) * (p.x - a.x) + (p.y - a.y) * (p.y - a.y)) := by
      simp only [l, Vec2.copy_eq]; rfl
    simp only [Ray.distanceTo, e1, e2, e3, ge_iff_le, pyabs_eq_abs]
  rw [hd, hdef]
  exact ⟨fun hc => if_pos hc, fun hc => if_neg (not_le.mpr hc)⟩

/-- The distance from the segment. -/
theorem dist_seg {d : ℝ} (h : IsDist (OnSeg a ⟨a.x + v.x, a.y + v.y⟩) p d gap) :
    ((p.x - a.x) * (v.x / vlen v) + (p.y - a.y) * (v.y / vlen v) < 0 →
      d = √((p.x - a.x) * (p.x - a.x) + (p.y - a.y) * (p.y - a.y))) ∧
    (0 ≤ (p.x - a.x) * (v.x / vlen v) + (p.y - a.y) * (v.y / vlen v) →
      vlen v < (p.x - a.x) * (v.x / vlen v) + (p.y - a.y) * (v.y / vlen v) →
      d = √((p.x - (a.x + vlen v * (v.x / vlen v))) * (p.x - (a.x + vlen v * (v.x / vlen v))) +
        (p.y - (a.y + vlen v * (v.y / vlen v))) * (p.y - (a.y + vlen v * (v.y / vlen v))))) ∧
    (0 ≤ (p.x - a.x) * (v.x / vlen v) + (p.y - a.y) * (v.y / vlen v) →
      (p.x - a.x) * (v.x / vlen v) + (p.y - a.y) * (v.y / vlen v) ≤ vlen v →
      d = |(p.x - a.x) * (v.y / vlen v) - (p.y - a.y) * (v.x / vlen v)|) := by
  let l : LineSegment ℝ :=
    ⟨⟨⟨v.x / vlen v, v.y / vlen v⟩, ⟨v.y / vlen v, -(v.x / vlen v)⟩⟩, a, vlen v⟩
  have hf : l.toLin.Frame := Lin.frame_mk (norm_unit hv)
  have h2 := C39_distance_partial l hf hv.le p
  have he : l.end' = ⟨a.x + vlen v * (v.x / vlen v), a.y + vlen v * (v.y / vlen v)⟩ := by
    simp only [l, LineSegment.end', Vec2.smul]
    show (⟨a.x + v.x / vlen v * vlen v, a.y + v.y / vlen v * vlen v⟩ : Vec2 ℝ) = _
    rw [mul_comm (v.x / vlen v), mul_comm (v.y / vlen v)]
  have hpt : ∀ q, l.Pt q ↔ OnSeg a ⟨a.x + v.x, a.y + v.y⟩ q := by
    intro q
    have e : l.end' = ⟨a.x + v.x, a.y + v.y⟩ := by
      rw [he]; congr 1 <;> field_simp
    rw [LineSegment.Pt, e]
  have hd := isDist_unique h (gap_eq ▸ isDist_congr hpt h2)
  have hdef : l.distanceTo p = if (p.x - a.x) * (v.x / vlen v) + (p.y - a.y) * (v.y / vlen v) < 0
      then √((p.x - a.x) * (p.x - a.x) + (p.y - a.y) * (p.y - a.y))
      else if vlen v < (p.x - a.x) * (v.x / vlen v) + (p.y - a.y) * (v.y / vlen v)
      then √((p.x - (a.x + vlen v * (v.x / vlen v))) * (p.x - (a.x + vlen v * (v.x / vlen v))) +
        (p.y - (a.y + vlen v * (v.y / vlen v))) * (p.y - (a.y + vlen v * (v.y / vlen v))))
      else |(p.x - a.x) * (v.y / vlen v) - (p.y - a.y) * (v.x / vlen v)| := by
    have e1 : l.direction.dot (p.copy - l.anchor) = (p.x - a.x) * (v.x / vlen v) + (p.y - a.y) * (v.y / vlen v) := by
      simp only [l, Vec2.copy_eq, Vec2.dot]
      show v.x / vlen v * (p.x - a.x) + v.y / vlen v * (p.y - a.y) = _
      ring
    have e2 : (p.copy - l.anchor).dot l.normal = (p.x - a.x) * (v.y / vlen v) - (p.y - a.y) * (v.x / vlen v) := by
      simp only [l, Vec2.copy_eq, Vec2.dot]
      show (p.x - a.x) * (v.y / vlen v) + (p.y - a.y) * (-(v.x / vlen v)) = _
      ring
    have e3 : (p.copy - l.anchor).length = √((p.x - a.x) * (p.x - a.x) + (p.y - a.y) * (p.y - a.y)) := by
      simp only [l, Vec2.copy_eq]; rfl
    have e4 : (p.copy - l.end').length =
        √((p.x - (a.x + vlen v * (v.x / vlen v))) * (p.x - (a.x + vlen v * (v.x / vlen v))) +
        (p.y - (a.y + vlen v * (v.y / vlen v))) * (p.y - (a.y + vlen v * (v.y / vlen v)))) := by
      rw [he, Vec2.copy_eq]; rfl
    simp only [LineSegment.distanceTo, e1, e2, e3, e4, gt_iff_lt, pyabs_eq_abs]
    rfl
  rw [hd, hdef]
  refine ⟨fun hc => if_pos hc, fun hc hc' => ?_, fun hc hc' => ?_⟩
  · rw [if_neg (not_lt.mpr hc), if_pos hc']
  · rw [if_neg (not_lt.mpr hc), if_neg (not_lt.mpr hc')]
end

end Planar
