import Verif.Props.FloatGrid
import Verif.Props.Box
/-
C69: floating point containment and the bounding box. The same model on numbers whose operations round.
-/
set_option linter.unusedSectionVars false
namespace Planar
open Spec Polygon

section Rounded
variable {K : Type} [LinearOrder K] [Add K] [Sub K] [Mul K] [Div K] [Neg K] [Zero K] [One K] [RoundedArith K]

/-- One for the points at or above the height. -/
private def up (p v : Vec2 K) : Int := if v.y ≥ p.y then 1 else 0

private theorem loop_telescope {p : Vec2 K} : ∀ (vs : List (Vec2 K)) (v0 : Vec2 K) (w : Int),
    (∀ a ∈ v0 :: vs, ∀ b ∈ vs, windStep p a b = up p b - up p a) →
    windLoop p vs v0 w = w + up p ((v0 :: vs).getLast (by simp)) - up p v0
  | [], v0, w, _ => by simp [windLoop]
  | v1 :: rest, v0, w, h => by
    rw [windLoop, loop_telescope rest v1 _ fun a ha b hb => h a (List.mem_cons_of_mem _ ha) b (List.mem_cons_of_mem _ hb),
      h v0 (by simp) v1 (by simp), List.getLast_cons (List.cons_ne_nil _ _)]
    omega

/-- A path all of whose crossings are counted has winding number zero. -/
private theorem wind_zero {p : Vec2 K} {vs : List (Vec2 K)} (h : ∀ a ∈ vs, ∀ b ∈ vs, windStep p a b = up p b - up p a) :
    pnpWinding vs p = false := by
  cases vs with
  | nil => rfl
  | cons v vs =>
    unfold pnpWinding
    rw [nth_neg_one (v :: vs) (by simp), loop_telescope]
    · simp
    · intro a ha b hb
      refine h a ?_ b hb
      rcases List.mem_cons.mp ha with rfl | ha
      · exact List.getLast_mem _
      · exact ha

private theorem wind_above {p : Vec2 K} {vs : List (Vec2 K)} (h : ∀ v ∈ vs, v.y < p.y) : pnpWinding vs p = false := by
  apply wind_zero
  intro a ha b hb
  have h1 : ¬ a.y ≥ p.y := not_le.mpr (h a ha)
  have h2 : ¬ b.y ≥ p.y := not_le.mpr (h b hb)
  simp [windStep, up, h1, h2]

private theorem wind_below {p : Vec2 K} {vs : List (Vec2 K)} (h : ∀ v ∈ vs, p.y ≤ v.y) : pnpWinding vs p = false := by
  apply wind_zero
  intro a ha b hb
  have h1 : a.y ≥ p.y := h a ha
  have h2 : b.y ≥ p.y := h b hb
  simp [windStep, up, h1, h2]

theorem f_sub_le_sub {a b c : K} (h : a ≤ b) : a - c ≤ b - c := by
  rw [f_sub_def, f_sub_def, f_add_comm a, f_add_comm b]; exact f_add_le _ _ _ h

private theorem wind_right {p : Vec2 K} {vs : List (Vec2 K)} (h : ∀ v ∈ vs, v.x ≤ p.x) : pnpWinding vs p = false := by
  apply wind_zero
  intro a ha b hb
  have hc : 0 ≤ p.x - a.x := f_sub_nonneg (h a ha)
  have hac : b.x - a.x ≤ p.x - a.x := f_sub_le_sub (h b hb)
  by_cases h1 : a.y ≥ p.y <;> by_cases h2 : b.y ≥ p.y
  · simp [windStep, up, h1, h2]
  · -- down
    have hp : p.y - a.y ≤ 0 := f_sub_nonpos h1
    have hb' : b.y - a.y ≤ p.y - a.y := f_sub_le_sub (not_le.mp h2).le
    have key : (b.x - a.x) * (p.y - a.y) - (p.x - a.x) * (b.y - a.y) ≥ 0 := by
      apply f_sub_nonneg
      refine (f_mul_le _ _ _ hc hb').trans ?_
      have := f_mul_le (-(p.y - a.y)) _ _ (f_neg_nonneg hp) hac
      rw [← f_neg_mul, ← f_neg_mul] at this
      have := f_neg_le _ _ this
      rw [f_neg_neg, f_neg_neg, f_mul_comm, f_mul_comm (p.y - a.y)] at this
      exact this
    simp [windStep, up, h1, h2, key]
  · -- up
    have hp : 0 ≤ p.y - a.y := f_sub_nonneg (not_le.mp h1).le
    have hb' : p.y - a.y ≤ b.y - a.y := f_sub_le_sub h2
    have key : (b.x - a.x) * (p.y - a.y) - (p.x - a.x) * (b.y - a.y) ≤ 0 := by
      apply f_sub_nonpos
      refine le_trans ?_ (f_mul_le _ _ _ hc hb')
      rw [f_mul_comm, f_mul_comm (p.x - a.x)]
      exact f_mul_le _ _ _ hp hac
    simp [windStep, up, h1, h2, key]
  · simp [windStep, up, h1, h2]

/-- **C69** in floating point arithmetic, whatever the rounding errors are: a polygon with at least four vertices and
nothing cached contains no point above, below or to the right of its bounding box; with at least five vertices it
contains no point outside of the bounding box at all. (Partial: a quadrilateral can contain points to the left of its
bounding box, `C69_violated`.) -/
theorem C69_inside_box_partial (eps : K) (vs : List (Vec2 K)) (h4 : 4 ≤ vs.length) (p : PyPoint K)
    (h : ((Polygon.fromPoints vs).containsPoint eps p).1 = .ok true) :
    ∃ b, (Polygon.fromPoints vs).boundingBox.1 = .ok b ∧
      p.toVec.x < b.max.x ∧ b.min.y < p.toVec.y ∧ p.toVec.y ≤ b.max.y ∧
      (5 ≤ vs.length → b.containsPoint p.toVec = true) := by
  have hne : vs ≠ [] := by rintro rfl; simp at h4
  obtain ⟨b, hb, ht, -⟩ := (C21_bounding_box vs).2 hne
  have hbb : (Polygon.fromPoints vs).boundingBox.1 = .ok b := by
    simp [Polygon.fromPoints, boundingBox, cleared, hb]
  have henc := ht.1
  have h3 : ¬ vs.length = 3 := by omega
  have hcl : Polygon.fromPoints vs = cleared vs none := rfl
  have hw : pnpWinding vs p.toVec = true ∧ (5 ≤ vs.length → b.containsPoint p.toVec = true) := by
    unfold containsPoint at h
    simp only [hcl, show (cleared vs none).verts = vs from rfl, h3, if_false,
      show (cleared vs none).centroid = none from rfl, show (cleared vs none).yPolylines = none from rfl] at h
    by_cases h5 : vs.length = 4
    · simp only [h5, if_true, Except.ok.injEq] at h
      exact ⟨h, fun h6 => absurd h6 (by omega)⟩
    · have hbb2 : (cleared vs none).boundingBox = (.ok b, (cleared vs none).boundingBox.2) := Prod.ext hbb rfl
      rw [hbb2] at h
      simp only [h5, if_false] at h
      have hv2 : (cleared vs none).boundingBox.2.verts = vs := by simp [boundingBox, cleared, hb]
      split at h
      · rename_i hc
        simp only [hv2, Except.ok.injEq] at h
        exact ⟨h, fun _ => hc⟩
      · cases h
  refine ⟨b, hbb, ?_, ?_, ?_, hw.2⟩
  · by_contra hc
    rw [wind_right fun v hv => (henc v hv).2.1.trans (not_lt.mp hc)] at hw
    exact absurd hw.1 (by simp)
  · by_contra hc
    rw [wind_below fun v hv => (not_lt.mp hc).trans (henc v hv).2.2.1] at hw
    exact absurd hw.1 (by simp)
  · by_contra hc
    rw [wind_above fun v hv => (henc v hv).2.2.2.trans_lt (not_le.mp hc)] at hw
    exact absurd hw.1 (by simp)

end Rounded

private def ans (r : Py Bool) : Option Bool := match r with | .ok b => some b | .error _ => none

private theorem ans_back (r : Py Bool) (b : Bool) (h : ans r = some b) : r = .ok b := by
  cases r with
  | ok c => simp only [ans, Option.some.injEq] at h; rw [h]
  | error e => simp [ans] at h

/-- The quadrilateral of the counterexample: a thin dart, far to the right except for one corner. -/
def dart : List (Vec2 Double) := [dvec (2 ^ 60) 0, dvec 1 1, dvec (2 ^ 60) 2, dvec (2 ^ 61) 1]

/-- The property fails for quadrilaterals on the left side, in double precision: the point (0, 1) is left of all the
vertices and yet contained, because 1 - 2^60 and 0 - 2^60 are rounded to the same number. -/
theorem C69_violated : (∀ v ∈ dart, (dvec 0 1).x < v.x) ∧
    ((Polygon.fromPoints dart).containsPoint (dbl (1 / 100000)) (.vec (dvec 0 1))).1 = .ok true ∧
    ((Polygon.fromPoints (dart.map Vec2.exact)).containsPoint (1 / 100000) (.vec (dvec 0 1).exact)).1 = .ok false :=
  ⟨by decide +kernel, ans_back _ _ (by decide +kernel), ans_back _ _ (by decide +kernel)⟩

/-- A pentagon in double precision that contains a point, so that the hypothesis of `C69_inside_box_partial` can be met. -/
example : ((Polygon.fromPoints [dvec 0 0, dvec (1 / 3) 0, dvec (1 / 3) (1 / 7), dvec (1 / 10) (1 / 5), dvec 0 (1 / 7)]).containsPoint
    (dbl (1 / 100000)) (.vec (dvec (1 / 10) (1 / 10)))).1 = .ok true := ans_back _ _ (by decide +kernel)

end Planar
