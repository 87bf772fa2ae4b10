import Verif.Lemmas.TriDouble
import Verif.Props.FloatClear
import Verif.Props.ConvexContains
/-
C77 for triangles, whose containment test is another one (barycentric coordinates).
-/
set_option linter.unusedSectionVars false
namespace Planar
open Spec Polygon

/-- A triangle of the size `S` (in each direction) that is not too thin, and a point at most `R` away (in each direction)
from the corners and not too near to the lines through the edges. `side a b c` is twice the area of the triangle and
`side a b p` the distance of `p` from the line through `a` and `b` times that edge's length. All numbers are exact. -/
def ClearTriangle (S R : ℚ) (a b c p : Vec2 ℚ) : Prop :=
  (∀ v ∈ [a, b, c], ∀ w ∈ [a, b, c], |v.x - w.x| ≤ S ∧ |v.y - w.y| ≤ S) ∧
  (∀ v ∈ [a, b, c], |p.x - v.x| ≤ R ∧ |p.y - v.y| ≤ R) ∧
  S ^ 4 ≤ 2 ^ 39 * side a b c ^ 2 ∧
  ∀ e ∈ edges [a, b, c], S ^ 3 * R ≤ 2 ^ 43 * |side e.1 e.2 p * side a b c|

theorem edges3 {K : Type} (a b c : Vec2 K) (e : Vec2 K × Vec2 K) :
    e ∈ edges [a, b, c] ↔ e = (c, a) ∨ e = (a, b) ∨ e = (b, c) := by
  simp [edges]

/-- All that `ClearTriangle` says is symmetric in the corners. -/
theorem ClearTriangle.all {S R : ℚ} {a b c p : Vec2 ℚ} (h : ClearTriangle S R a b c p) {x y z : Vec2 ℚ}
    (hp : [x, y, z].Perm [a, b, c]) :
    (∀ v ∈ [x, y, z], ∀ w ∈ [x, y, z], |v.x - w.x| ≤ S ∧ |v.y - w.y| ≤ S) ∧
    (∀ v ∈ [x, y, z], |p.x - v.x| ≤ R ∧ |p.y - v.y| ≤ R) ∧
    S * S * (S * S) ≤ 2 ^ 39 * (side x y z * side x y z) ∧
    S * S * (S * R) ≤ 2 ^ 43 * |side x y p * side x y z| ∧
    S * S * (S * R) ≤ 2 ^ 43 * |side y z p * side x y z| ∧
    S * S * (S * R) ≤ 2 ^ 43 * |side z x p * side x y z| := by
  obtain ⟨h1, h2, h3, h4⟩ := h
  have e1 := h4 (c, a) ((edges3 _ _ _ _).mpr (.inl rfl))
  have e2 := h4 (a, b) ((edges3 _ _ _ _).mpr (.inr (.inl rfl)))
  have e3 := h4 (b, c) ((edges3 _ _ _ _).mpr (.inr (.inr rfl)))
  refine ⟨fun v hv w hw => h1 v (hp.mem_iff.mp hv) w (hp.mem_iff.mp hw), fun v hv => h2 v (hp.mem_iff.mp hv), ?_⟩
  have eS : S * S * (S * S) = S ^ 4 := by ring
  have eR : S * S * (S * R) = S ^ 3 * R := by ring
  have sw : ∀ u v w : Vec2 ℚ, side v u w = -side u v w := fun u v w => by simp only [side]; ring
  have rot : ∀ u v w : Vec2 ℚ, side v w u = side u v w := fun u v w => by simp only [side]; ring
  rw [eS, eR]
  simp only [abs_mul] at e1 e2 e3 ⊢
  have sq : ∀ t : ℚ, t * t = t ^ 2 := fun t => (pow_two t).symm
  have r1 : side b c a = side a b c := rot a b c
  have r2 : side c a b = side a b c := (rot c a b).symm
  have r3 : side b a c = -side a b c := sw a b c
  have r4 : side a c b = -side a b c := by rw [sw, r2]
  have r5 : side c b a = -side a b c := by rw [sw, r1]
  have q1 : side b a p = -side a b p := sw a b p
  have q2 : side c b p = -side b c p := sw b c p
  have q3 : side a c p = -side c a p := sw c a p
  rcases perm3 hp with ⟨rfl, rfl, rfl⟩ | ⟨rfl, rfl, rfl⟩ | ⟨rfl, rfl, rfl⟩ | ⟨rfl, rfl, rfl⟩ | ⟨rfl, rfl, rfl⟩ | ⟨rfl, rfl, rfl⟩ <;>
    simp only [r1, r2, r3, r4, r5, q1, q2, q3, abs_neg, neg_mul_neg, sq, neg_sq] <;> exact ⟨h3, by assumption, by assumption, by assumption⟩

theorem len_perm {E : ℚ} {a b c x y z : Vec2 ℚ} (he : ∀ e ∈ edges [a, b, c], E ≤ (e.2 - e.1).length2)
    (hp : [x, y, z].Perm [a, b, c]) : E ≤ (x - y).length2 ∧ E ≤ (z - y).length2 := by
  have lsym : ∀ u v : Vec2 ℚ, (u - v).length2 = (v - u).length2 := by
    intro u v; simp only [Vec2.length2, Vec2.sub_x, Vec2.sub_y]; ring
  have e1 := he (c, a) ((edges3 _ _ _ _).mpr (.inl rfl))
  have e2 := he (a, b) ((edges3 _ _ _ _).mpr (.inr (.inl rfl)))
  have e3 := he (b, c) ((edges3 _ _ _ _).mpr (.inr (.inr rfl)))
  have e1' := e1; have e2' := e2; have e3' := e3
  rw [lsym] at e1' e2' e3'
  rcases perm3 hp with ⟨rfl, rfl, rfl⟩ | ⟨rfl, rfl, rfl⟩ | ⟨rfl, rfl, rfl⟩ | ⟨rfl, rfl, rfl⟩ | ⟨rfl, rfl, rfl⟩ | ⟨rfl, rfl, rfl⟩ <;>
    exact ⟨by assumption, by assumption⟩

theorem sorted3 {vs : List (Vec2 Double)} (h3 : vs.length = 3) : ∃ lo mid hi, pySorted yxLt vs = [lo, mid, hi] := by
  have : (pySorted yxLt vs).length = 3 := by rw [(pySorted_perm _ vs).length_eq, h3]
  rcases hz : pySorted yxLt vs with _ | ⟨a, _ | ⟨b, _ | ⟨c, _ | ⟨d, l⟩⟩⟩⟩ <;> rw [hz] at this <;> simp at this
  exact ⟨a, b, c, rfl⟩

theorem tri_fresh (eps : Double) {vs : List (Vec2 Double)} {a b c p : Vec2 Double} (hvs : vs = [a, b, c]) {S R : ℚ}
    (hS : 1 / 2 ^ 200 ≤ S) (hSR : S ≤ R) (hR : R ≤ 2 ^ 200) (hc : ClearTriangle S R a.exact b.exact c.exact p.exact)
    (he : ∀ e ∈ edges [a.exact, b.exact, c.exact], 2 * (eps * eps).val ≤ (e.2 - e.1).length2) :
    ((Polygon.fromPoints vs).containsPoint eps (.vec p)).1 = .ok (winding (vs.map Vec2.exact) p.exact != 0) := by
  have h3 : vs.length = 3 := by rw [hvs]; rfl
  obtain ⟨lo, mid, hi, hsort⟩ := sorted3 h3
  have hperm := pySorted_perm yxLt vs
  rw [hsort] at hperm
  have hpm : [lo.exact, mid.exact, hi.exact].Perm (vs.map Vec2.exact) := hperm.map Vec2.exact
  rw [hvs] at hpm
  have hpm' : [lo.exact, mid.exact, hi.exact].Perm [a.exact, b.exact, c.exact] := hpm
  obtain ⟨g1, g2, g3, g4, g5, g6⟩ := hc.all hpm'
  have len' := len_perm he hpm'
  clear hpm hpm' hc he hvs
  have m1 : lo.exact ∈ [lo.exact, mid.exact, hi.exact] := .head _
  have m2 : mid.exact ∈ [lo.exact, mid.exact, hi.exact] := .tail _ (.head _)
  have m3 : hi.exact ∈ [lo.exact, mid.exact, hi.exact] := .tail _ (.tail _ (.head _))
  exact tri_double eps h3 hsort hS hSR hR (g1 _ m1 _ m2).1 (g1 _ m1 _ m2).2 (g1 _ m3 _ m2).1 (g1 _ m3 _ m2).2
    (g2 _ m2).1 (g2 _ m2).2 g3 g4 g5 g6 len'.1 len'.2

/-- **C77** (triangles) In double precision, after any history of reads, queries, vertex assignments and in-place
transforms: a triangle, not too thin, contains a point that is clear of the edges exactly when the winding number of the
edges around the point, computed exactly, is not zero. (The corners are supposed to be more than `1.5 * EPSILON` apart.) -/
theorem C77_triangle (eps : Double) (vs : List (Vec2 Double)) (s : Polygon Double) (h : Polygon.new vs = .ok s)
    (ops : List (PolyOp Double)) (a b c p : Vec2 Double) (hv : (s.after eps ops).verts = [a, b, c])
    (S R : ℚ) (hS : 1 / 2 ^ 200 ≤ S) (hSR : S ≤ R) (hR : R ≤ 2 ^ 200)
    (hc : ClearTriangle S R a.exact b.exact c.exact p.exact)
    (he : ∀ e ∈ edges [a.exact, b.exact, c.exact], 2 * (eps * eps).val ≤ (e.2 - e.1).length2) :
    ((s.after eps ops).containsPoint eps (.vec p)).1 = .ok (winding [a.exact, b.exact, c.exact] p.exact != 0) := by
  have hs : s = Polygon.fromPoints vs := by
    have h3 := (new_verts h).2
    have := C44_fresh_new eps vs h3
    rw [this] at h
    injection h with h
    exact h.symm
  have hi : Inv eps s := by rw [hs]; exact inv_fromPoints eps vs
  obtain ⟨hi', -, -⟩ := inv_after hi ops
  generalize s.after eps ops = t at hi' hv
  have h3 : t.verts.length = 3 := by rw [hv]; rfl
  have e1 : t.containsPoint eps (.vec p) = t.pnpTriangle eps (.vec p) := by unfold containsPoint; simp [h3]
  have e2 : (fromPoints t.verts).containsPoint eps (.vec p) = (fromPoints t.verts).pnpTriangle eps (.vec p) := by
    unfold containsPoint; simp [fromPoints, cleared, h3]
  rw [e1, (inv_pnpTriangle hi' h3 (.vec p)).2.2, ← e2]
  have := tri_fresh eps hv hS hSR hR hc he
  rw [this, hv]
  rfl

theorem cross_sq_le {S x y z w : ℚ} (hz : |z| ≤ S) (hw : |w| ≤ S) : (x * w - y * z) ^ 2 ≤ (x * x + y * y) * (2 * S ^ 2) := by
  have h1 : (x * w - y * z) ^ 2 + (x * z + y * w) ^ 2 = (x * x + y * y) * (z * z + w * w) := by ring
  have hz2 : z * z ≤ S * S := by
    have := mul_self_le_mul_self (abs_nonneg z) hz; rwa [abs_mul_abs_self] at this
  have hw2 : w * w ≤ S * S := by
    have := mul_self_le_mul_self (abs_nonneg w) hw; rwa [abs_mul_abs_self] at this
  have h2 : (x * x + y * y) * (z * z + w * w) ≤ (x * x + y * y) * (2 * S ^ 2) :=
    mul_le_mul_of_nonneg_left (by linarith [pow_two S]) (add_nonneg (mul_self_nonneg x) (mul_self_nonneg y))
  linarith [sq_nonneg (x * z + y * w)]

/-- **C77** (triangles, for users) With a triangle that fills at least a quarter of a square of the size `S` around it, and
all corners within `R` of the point in each direction: a distance of `R / 2 ^ 40` (about `1e-12 R`) from the lines through
the edges is enough. (The squared distance of `p` from that line is `side ^ 2 / length ^ 2`.) -/
theorem C77_triangle_margin (eps : Double) (vs : List (Vec2 Double)) (s : Polygon Double) (h : Polygon.new vs = .ok s)
    (ops : List (PolyOp Double)) (a b c p : Vec2 Double) (hv : (s.after eps ops).verts = [a, b, c])
    (S R : ℚ) (hS : 1 / 2 ^ 200 ≤ S) (hSR : S ≤ R) (hR : R ≤ 2 ^ 200)
    (hbox : ∀ v ∈ [a.exact, b.exact, c.exact], ∀ w ∈ [a.exact, b.exact, c.exact], |v.x - w.x| ≤ S ∧ |v.y - w.y| ≤ S)
    (hnear : ∀ v ∈ [a.exact, b.exact, c.exact], |p.exact.x - v.x| ≤ R ∧ |p.exact.y - v.y| ≤ R)
    (hfat : S ^ 2 / 2 ≤ |side a.exact b.exact c.exact|)
    (hfar : ∀ e ∈ edges [a.exact, b.exact, c.exact], (R / 2 ^ 40) ^ 2 * (e.2 - e.1).length2 ≤ side e.1 e.2 p.exact ^ 2)
    (he : ∀ e ∈ edges [a.exact, b.exact, c.exact], 2 * (eps * eps).val ≤ (e.2 - e.1).length2) :
    ((s.after eps ops).containsPoint eps (.vec p)).1 = .ok (winding [a.exact, b.exact, c.exact] p.exact != 0) := by
  refine C77_triangle eps vs s h ops a b c p hv S R hS hSR hR ⟨hbox, hnear, ?_, ?_⟩ he
  · have S0 : 0 < S := lt_of_lt_of_le (by positivity) hS
    have h1 : (S ^ 2 / 2) ^ 2 ≤ |side a.exact b.exact c.exact| ^ 2 := pow_le_pow_left₀ (by positivity) hfat 2
    rw [sq_abs] at h1
    generalize side a.exact b.exact c.exact = D at h1
    have e : (S ^ 2 / 2) ^ 2 = S ^ 4 / 4 := by ring
    rw [e] at h1
    linarith [pow_nonneg S0.le 4]
  · intro e hm
    have S0 : 0 < S := lt_of_lt_of_le (by positivity) hS
    have R0 : 0 < R := S0.trans_le hSR
    have h1 : (S ^ 2 / 2) ^ 2 ≤ |side a.exact b.exact c.exact| ^ 2 := pow_le_pow_left₀ (by positivity) hfat 2
    rw [sq_abs] at h1
    have key : side a.exact b.exact c.exact ^ 2 ≤ (e.2 - e.1).length2 * (2 * S ^ 2) := by
      have a1 := hbox c.exact (by simp) b.exact (by simp)
      have a2 := hbox b.exact (by simp) a.exact (by simp)
      have a3 := hbox a.exact (by simp) c.exact (by simp)
      rcases (edges3 _ _ _ _).mp hm with rfl | rfl | rfl
      · have := cross_sq_le (x := a.exact.x - c.exact.x) (y := a.exact.y - c.exact.y) a2.1 a2.2
        refine le_trans (le_of_eq ?_) this
        simp only [side]; ring
      · have := cross_sq_le (x := b.exact.x - a.exact.x) (y := b.exact.y - a.exact.y) a3.1 a3.2
        refine le_trans (le_of_eq ?_) this
        simp only [side]; ring
      · have := cross_sq_le (x := c.exact.x - b.exact.x) (y := c.exact.y - b.exact.y) a2.1 a2.2
        refine le_trans (le_of_eq ?_) this
        simp only [side]; ring
    have hf := hfar e hm
    have hL : 0 ≤ (e.2 - e.1).length2 := add_nonneg (mul_self_nonneg _) (mul_self_nonneg _)
    generalize side a.exact b.exact c.exact = D at h1 key
    generalize (e.2 - e.1).length2 = L at hf key hL
    generalize side e.1 e.2 p.exact = d at hf
    clear hS hR he hfar hbox hnear
    have l1 : S ^ 2 / 8 ≤ L := by
      have : S ^ 2 * (S ^ 2 / 8) ≤ S ^ 2 * L := by
        have e : (S ^ 2 / 2) ^ 2 = 2 * (S ^ 2 * (S ^ 2 / 8)) := by ring
        rw [e] at h1
        linarith
      exact le_of_mul_le_mul_left this (by positivity)
    have l2 : (R / 2 ^ 40) ^ 2 * (S ^ 2 / 8) ≤ d ^ 2 :=
      (mul_le_mul_of_nonneg_left l1 (by positivity)).trans hf
    have l3 : (R / 2 ^ 40) ^ 2 * (S ^ 2 / 8) * (S ^ 2 / 2) ^ 2 ≤ d ^ 2 * D ^ 2 :=
      mul_le_mul l2 h1 (by positivity) (sq_nonneg _)
    have l4 : (S ^ 3 * R) ^ 2 ≤ (2 ^ 43 * |d * D|) ^ 2 := by
      have e1 : (2 ^ 43 * |d * D|) ^ 2 = 2 ^ 86 * (d ^ 2 * D ^ 2) := by rw [mul_pow, sq_abs]; ring
      have e2 : (S ^ 3 * R) ^ 2 = 2 ^ 85 * ((R / 2 ^ 40) ^ 2 * (S ^ 2 / 8) * (S ^ 2 / 2) ^ 2) := by ring
      rw [e1, e2]
      have p0 : 0 ≤ d ^ 2 * D ^ 2 := by positivity
      linarith
    exact le_of_sq_le_sq l4 (by positivity)

/-! ### The hypotheses are met -/

/-- A slanted triangle with rounded corners, and points inside and outside, some `1e-11` from an edge. -/
example : ∀ p ∈ [dvec (3 / 2) (6 / 5), dvec 3 3, dvec (8 / 5) (5 / 9 + 1 / 10 ^ 11), dvec (8 / 5) (5 / 9 - 1 / 10 ^ 11)],
    ClearTriangle 4 4 (dvec (1 / 10) (1 / 3)).exact (dvec (31 / 10) (7 / 9)).exact (dvec (3 / 2) (29 / 9)).exact p.exact ∧
    ∀ e ∈ edges [(dvec (1 / 10) (1 / 3)).exact, (dvec (31 / 10) (7 / 9)).exact, (dvec (3 / 2) (29 / 9)).exact],
      2 * (dbl (1 / 10 ^ 5) * dbl (1 / 10 ^ 5)).val ≤ (e.2 - e.1).length2 := by
  unfold ClearTriangle; decide +kernel

/-- It also fills more than a quarter of the square, and the first point is far from the edges. -/
example : (4 : ℚ) ^ 2 / 2 ≤ |side (dvec (1 / 10) (1 / 3)).exact (dvec (31 / 10) (7 / 9)).exact (dvec (3 / 2) (29 / 9)).exact| ∧
    ∀ e ∈ edges [(dvec (1 / 10) (1 / 3)).exact, (dvec (31 / 10) (7 / 9)).exact, (dvec (3 / 2) (29 / 9)).exact],
      ((4 : ℚ) / 2 ^ 40) ^ 2 * (e.2 - e.1).length2 ≤ side e.1 e.2 (dvec (3 / 2) (6 / 5)).exact ^ 2 := by
  decide +kernel

end Planar
