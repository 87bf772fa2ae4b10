import Verif.Props.ConvexExact
import Verif.Props.RadialExact
/- C53 for squares: regular polygons with four vertices and stars with two peaks and equal radii. -/
set_option linter.unusedSectionVars false
namespace Planar
open Spec Polygon

section
variable {K : Type} [Field K] [LinearOrder K] [IsStrictOrderedRing K]

theorem firstAt_four {f : Vec2 K → K} {v0 v1 v2 v3 : Vec2 K} {i : Nat} (h : FirstAt f [v0, v1, v2, v3] i) :
    (i = 0 ∧ f v0 ≤ f v1 ∧ f v0 ≤ f v2 ∧ f v0 ≤ f v3) ∨ (i = 1 ∧ f v1 < f v0 ∧ f v1 ≤ f v2 ∧ f v1 ≤ f v3) ∨
    (i = 2 ∧ f v2 < f v0 ∧ f v2 < f v1 ∧ f v2 ≤ f v3) ∨ (i = 3 ∧ f v3 < f v0 ∧ f v3 < f v1 ∧ f v3 < f v2) := by
  obtain ⟨v, hv, h1, h2⟩ := h
  have hi : i < 4 := (List.getElem?_eq_some_iff.mp hv).1
  have hi : i = 0 ∨ i = 1 ∨ i = 2 ∨ i = 3 := by omega
  rcases hi with rfl | rfl | rfl | rfl
  · simp at hv; subst hv
    exact Or.inl ⟨rfl, h1 _ (by simp), h1 _ (by simp), h1 _ (by simp)⟩
  · simp at hv; subst hv
    exact Or.inr (Or.inl ⟨rfl, h2 0 _ (by decide) rfl, h1 _ (by simp), h1 _ (by simp)⟩)
  · simp at hv; subst hv
    exact Or.inr (Or.inr (Or.inl ⟨rfl, h2 0 _ (by decide) rfl, h2 1 _ (by decide) rfl, h1 _ (by simp)⟩))
  · simp at hv; subst hv
    exact Or.inr (Or.inr (Or.inr ⟨rfl, h2 0 _ (by decide) rfl, h2 1 _ (by decide) rfl, h2 2 _ (by decide) rfl⟩))

/-- The square about `c` with first vertex `c + (p, q)`, anticlockwise. -/
def squareAt (c : Vec2 K) (p q : K) : List (Vec2 K) :=
  [⟨c.x + p, c.y + q⟩, ⟨c.x - q, c.y + p⟩, ⟨c.x - p, c.y - q⟩, ⟨c.x + q, c.y - p⟩]

theorem square_anticlockwise (c : Vec2 K) (p q : K) : Anticlockwise (squareAt c p q) := by
  have h := mul_self_nonneg p
  have h' := mul_self_nonneg q
  intro e he v hv
  simp [squareAt, edges, edgesFrom] at he hv
  rcases he with rfl | rfl | rfl | rfl <;> rcases hv with rfl | rfl | rfl | rfl <;> simp only [side] <;> nlinarith

theorem square_not_flat (c : Vec2 K) {p q : K} (h : ¬ (p = 0 ∧ q = 0)) : ¬ Flat (squareAt c p q) := by
  intro hf
  have := hf ⟨c.x + p, c.y + q⟩ (by simp [squareAt]) ⟨c.x - q, c.y + p⟩ (by simp [squareAt]) ⟨c.x - p, c.y - q⟩ (by simp [squareAt])
  simp only [side] at this
  have h1 := mul_self_nonneg p
  have h2 := mul_self_nonneg q
  have e1 : p * p = 0 := by nlinarith
  have e2 : q * q = 0 := by nlinarith
  exact h ⟨mul_self_eq_zero.mp e1, mul_self_eq_zero.mp e2⟩

theorem square_swapped (c : Vec2 K) {p q : K} (h : ¬ (p = 0 ∧ q = 0)) : Swapped (squareAt c p q) ↔ p = q ∧ p < 0 := by
  have hno : ¬ Clockwise (squareAt c p q) := fun hc => square_not_flat c h (flat_of_both (square_anticlockwise c p q) hc)
  constructor
  · rintro ⟨lo, hi, le, ri, h1, h2, h3, h4, hor⟩
    have key : (le = lo ∧ lo < hi) ∨ (le = hi ∧ ri = lo ∧ hi < lo) := by
      rcases hor with ⟨e, h | h⟩ | ⟨e, e', h | h⟩
      · exact Or.inl ⟨e, h.1⟩
      · exact absurd h.2 hno
      · exact absurd h.2 hno
      · exact Or.inr ⟨e, e', h.1⟩
    have g1 := firstAt_four h1
    have g2 := firstAt_four h2
    have g3 := firstAt_four h3
    have g4 := firstAt_four h4
    simp only at g1 g2 g3 g4
    have fin : p ≤ q → q ≤ p → p ≤ 0 → p = q ∧ p < 0 := by
      intro k1 k2 k3
      have e := le_antisymm k1 k2
      refine ⟨e, lt_of_le_of_ne k3 fun h0 => h ⟨h0, by rw [← e, h0]⟩⟩
    rcases key with ⟨rfl, hlt⟩ | ⟨rfl, rfl, hlt⟩
    · rcases g1 with ⟨rfl, a1, a2, a3⟩ | ⟨rfl, a1, a2, a3⟩ | ⟨rfl, a1, a2, a3⟩ | ⟨rfl, a1, a2, a3⟩ <;>
      rcases g3 with ⟨k, b1, b2, b3⟩ | ⟨k, b1, b2, b3⟩ | ⟨k, b1, b2, b3⟩ | ⟨k, b1, b2, b3⟩ <;>
      first | (exfalso; omega) | (exfalso; linarith) | exact fin (by linarith) (by linarith) (by linarith)
    · rcases g1 with ⟨rfl, a1, a2, a3⟩ | ⟨rfl, a1, a2, a3⟩ | ⟨rfl, a1, a2, a3⟩ | ⟨rfl, a1, a2, a3⟩ <;>
      rcases g4 with ⟨k, b1, b2, b3⟩ | ⟨k, b1, b2, b3⟩ | ⟨k, b1, b2, b3⟩ | ⟨k, b1, b2, b3⟩ <;>
      first | (exfalso; omega) | (exfalso; linarith) | skip
      all_goals
        rcases g2 with ⟨k', c1, c2, c3⟩ | ⟨k', c1, c2, c3⟩ | ⟨k', c1, c2, c3⟩ | ⟨k', c1, c2, c3⟩ <;>
        first | (exfalso; omega) | (exfalso; linarith) | skip
      all_goals
        rcases g3 with ⟨k'', d1, d2, d3⟩ | ⟨k'', d1, d2, d3⟩ | ⟨k'', d1, d2, d3⟩ | ⟨k'', d1, d2, d3⟩ <;>
        first | (exfalso; omega) | (exfalso; linarith)
  · rintro ⟨rfl, hp⟩
    have := (rectangle_swapped (x0 := c.x + p) (x1 := c.x - p) (y0 := c.y + p) (y1 := c.y - p) (by linarith) (by linarith)).1
    exact this

theorem square_exact (c : Vec2 K) {p q : K} (hc : Convex (squareAt c p q)) :
    (¬ (p = q ∧ p < 0) → ∀ x, pnpYMonotone (splitYPolylines (squareAt c p q)) x = .ok (winding (squareAt c p q) x != 0)) ∧
    (p = q ∧ p < 0 → (∀ x, pnpYMonotone (splitYPolylines (squareAt c p q)) x = .ok false) ∧
      ∃ x, winding (squareAt c p q) x ≠ 0) := by
  by_cases h0 : p = 0 ∧ q = 0
  · obtain ⟨rfl, rfl⟩ := h0
    constructor
    · intro _ x
      obtain ⟨b, hb, -, hb2⟩ := ymono_winding (by simp [squareAt]) hc x
      rw [hb, hb2 (Or.inl _)]
      intro a ha b hb d hd
      simp [squareAt] at ha hb hd
      simp [ha, hb, hd, side]
    · rintro ⟨-, h⟩; exact absurd h (lt_irrefl _)
  · have hf := square_not_flat c h0
    obtain ⟨e1, e2⟩ := ymono_exact (by simp [squareAt]) hc hf
    rw [square_swapped c h0] at e1 e2
    exact ⟨e1, fun h => ⟨e2 h, inside_exists hc.1 hf⟩⟩

end

theorem regularVerts_four (r : ℝ) (c : Vec2 ℝ) (a : ℝ) :
    regularVerts (360 / ((4 : ℕ) : ℝ)) r c 4 a = squareAt c (r * cosDeg a) (r * sinDeg a) := by
  have hR := regular_radial 4 (by decide) r c a
  have hl := regularVerts_length (360 / ((4 : ℕ) : ℝ)) r c 4 a
  have e : (360 : ℝ) / ((4 : ℕ) : ℝ) = 90 := by norm_num
  apply List.ext_getElem
  · rw [hl]; rfl
  · intro i h1 h2
    rw [hR.at_ i h1, e]
    rw [hl] at h1
    have k1 : cosDeg (a + 90) = - sinDeg a ∧ sinDeg (a + 90) = cosDeg a := by
      rw [cosDeg_add, sinDeg_add, cosDeg_90, sinDeg_90]; constructor <;> ring
    have k2 : cosDeg (a + 2 * 90) = - cosDeg a ∧ sinDeg (a + 2 * 90) = - sinDeg a := by
      rw [show a + 2 * 90 = a + 90 + 90 by ring, cosDeg_add (a + 90), sinDeg_add (a + 90), cosDeg_90, sinDeg_90, k1.1, k1.2]; constructor <;> ring
    have k3 : cosDeg (a + 3 * 90) = sinDeg a ∧ sinDeg (a + 3 * 90) = - cosDeg a := by
      rw [show a + 3 * 90 = a + 2 * 90 + 90 by ring, cosDeg_add (a + 2 * 90), sinDeg_add (a + 2 * 90), cosDeg_90, sinDeg_90, k2.1, k2.2]; constructor <;> ring
    have hi : i = 0 ∨ i = 1 ∨ i = 2 ∨ i = 3 := by omega
    rcases hi with rfl | rfl | rfl | rfl
    · simp [squareAt, circ]
    · simp only [squareAt, circ, List.getElem_cons_succ, List.getElem_cons_zero, Nat.cast_one, one_mul, k1.1, k1.2]
      apply Vec2.ext <;> simp <;> ring
    · simp only [squareAt, circ, List.getElem_cons_succ, List.getElem_cons_zero, Nat.cast_ofNat, k2.1, k2.2]
      apply Vec2.ext <;> simp <;> ring
    · simp only [squareAt, circ, List.getElem_cons_succ, List.getElem_cons_zero, Nat.cast_ofNat, k3.1, k3.2]
      apply Vec2.ext <;> simp <;> ring

theorem starVerts_two (r : ℝ) (c : Vec2 ℝ) (a : ℝ) :
    starVerts (180 / ((2 : ℕ) : ℝ)) r r c 2 a = regularVerts (360 / ((4 : ℕ) : ℝ)) r c 4 a := by
  have e1 : (360 : ℝ) / ((4 : ℕ) : ℝ) = 90 := by norm_num
  have e2 : (180 : ℝ) / ((2 : ℕ) : ℝ) = 90 := by norm_num
  rw [e1, e2]
  simp only [starVerts, regularVerts]

theorem square_first {c : Vec2 ℝ} {p q : ℝ} : (∃ d : ℝ, 0 < d ∧ (squareAt c p q)[0]? = some ⟨c.x - d, c.y - d⟩) ↔ p = q ∧ p < 0 := by
  simp only [squareAt, List.getElem?_cons_zero, Option.some.injEq, Vec2.mk.injEq]
  constructor
  · rintro ⟨d, hd, h1, h2⟩
    constructor <;> linarith
  · rintro ⟨rfl, h⟩
    exact ⟨-p, by linarith, by ring, by ring⟩

theorem square_contains {s : Polygon ℝ} {c : Vec2 ℝ} {p q : ℝ} (hsv : s.verts = squareAt c p q) (hc : Convex (squareAt c p q))
    (hyp : s.yPolylines = some (splitYPolylines s.verts)) {c' : Vec2 ℝ} (hcen : s.centroid = some (some c')) (eps : ℝ) :
    ((¬ ∃ d : ℝ, 0 < d ∧ s.verts[0]? = some ⟨c.x - d, c.y - d⟩) →
      ∀ pt, (s.containsPoint eps pt).1 = .ok (winding s.verts pt.toVec != 0)) ∧
    ((∃ d : ℝ, 0 < d ∧ s.verts[0]? = some ⟨c.x - d, c.y - d⟩) →
      (∀ pt, (s.containsPoint eps pt).1 = .ok false) ∧ ∃ x, winding s.verts x ≠ 0) := by
  have h4 : s.verts.length = 4 := by rw [hsv]; rfl
  have hpt : ∀ pt, (s.containsPoint eps pt).1 = pnpYMonotone (splitYPolylines s.verts) pt.toVec := fun pt =>
    (contains_between (by rw [h4]) hcen pt (fun hx => by omega) (fun hx => by omega)).1 _ hyp
  obtain ⟨e1, e2⟩ := square_exact c hc
  rw [← square_first (c := c)] at e1 e2
  rw [← hsv] at e1 e2
  exact ⟨fun h pt => by rw [hpt, e1 h], fun h => ⟨fun pt => by rw [hpt, (e2 h).1], (e2 h).2⟩⟩

theorem regular_four (r : ℝ) (c : Vec2 ℝ) (a : ℝ) (s : Polygon ℝ) (h : Polygon.regular 4 r c a = .ok s) :
    s.verts = squareAt c (r * cosDeg a) (r * sinDeg a) ∧ Convex (squareAt c (r * cosDeg a) (r * sinDeg a)) ∧
    s.yPolylines = some (splitYPolylines s.verts) ∧ s.centroid = some (some c) := by
  obtain ⟨s', q, hs, hq, he, hv⟩ := regular_eq 4 (by omega) r c a
  rw [show ((4 : ℕ) : ℤ) = 4 from rfl, h] at hs
  injection hs with hs
  subst hs
  have hsv : s.verts = regularVerts (360 / ((4 : ℕ) : ℝ)) r c 4 a := by rw [he]; exact hv
  have hR := regular_radial 4 (by omega) r c a
  have hl := regularVerts_length (360 / ((4 : ℕ) : ℝ)) r c 4 a
  have hyp : s.yPolylines = some (splitYPolylines s.verts) := by
    rw [new_eq _ _ _ (by rw [hl]; omega)] at hq
    injection hq with hq
    rw [hsv, he]
    simp only [← hq]
    rw [if_pos ⟨by rw [hl]; omega, trivial⟩]
  have hconv := (hR.convexAll (r := r) (fun _ _ => rfl) (by norm_num) (by norm_num) (by rw [hl]; decide)).1
  rw [regularVerts_four] at hsv hconv
  exact ⟨hsv, hconv, hyp, by rw [he]⟩

/-- **C53** squares, `Polygon.regular(4, r, c, a)`: `contains_point` answers by the winding rule at every point, unless the
first vertex is straight to the lower left of the centre. (Partial: `C53_square_violated`.) -/
theorem C53_square_partial (r : ℝ) (c : Vec2 ℝ) (a : ℝ) (s : Polygon ℝ) (h : Polygon.regular 4 r c a = .ok s) (eps : ℝ)
    (hd : ¬ ∃ d : ℝ, 0 < d ∧ s.verts[0]? = some ⟨c.x - d, c.y - d⟩) (pt : PyPoint ℝ) :
    (s.containsPoint eps pt).1 = .ok (winding s.verts pt.toVec != 0) := by
  obtain ⟨h1, h2, h3, h4⟩ := regular_four r c a s h
  exact (square_contains h1 h2 h3 h4 eps).1 hd pt

/-- **C53** in that case the square contains no point at all, although there are points inside. -/
theorem C53_square_violated (r : ℝ) (c : Vec2 ℝ) (a : ℝ) (s : Polygon ℝ) (h : Polygon.regular 4 r c a = .ok s) (eps : ℝ)
    (hd : ∃ d : ℝ, 0 < d ∧ s.verts[0]? = some ⟨c.x - d, c.y - d⟩) :
    (∀ pt, (s.containsPoint eps pt).1 = .ok false) ∧ ∃ x, winding s.verts x ≠ 0 := by
  obtain ⟨h1, h2, h3, h4⟩ := regular_four r c a s h
  exact (square_contains h1 h2 h3 h4 eps).2 hd

/-- **C53** the same for stars with two peaks and equal radii, which are squares. -/
theorem C53_star_square_partial (r : ℝ) (c : Vec2 ℝ) (a : ℝ) (s : Polygon ℝ) (h : Polygon.star 2 r r c a = .ok s) (eps : ℝ) :
    ((¬ ∃ d : ℝ, 0 < d ∧ s.verts[0]? = some ⟨c.x - d, c.y - d⟩) →
      ∀ pt, (s.containsPoint eps pt).1 = .ok (winding s.verts pt.toVec != 0)) ∧
    ((∃ d : ℝ, 0 < d ∧ s.verts[0]? = some ⟨c.x - d, c.y - d⟩) →
      (∀ pt, (s.containsPoint eps pt).1 = .ok false) ∧ ∃ x, winding s.verts x ≠ 0) := by
  obtain ⟨s', hs, hsv, hcen, -, -, -, hyp, -, -⟩ := star_eq 2 (by omega) r r c a
  rw [show ((2 : ℕ) : ℤ) = 2 from rfl, h] at hs
  injection hs with hs
  subst hs
  rw [if_pos Iff.rfl] at hcen
  rw [if_pos rfl] at hyp
  have hR := regular_radial 4 (by omega) r c a
  have hl := regularVerts_length (360 / ((4 : ℕ) : ℝ)) r c 4 a
  have hconv := (hR.convexAll (r := r) (fun _ _ => rfl) (by norm_num) (by norm_num) (by rw [hl]; decide)).1
  rw [starVerts_two, regularVerts_four] at hsv
  rw [regularVerts_four] at hconv
  exact square_contains hsv hconv hyp hcen eps

/-- Both cases occur: at 0 degrees the first vertex is to the right of the centre, at 225 degrees to the lower left. -/
example : (∃ s, Polygon.regular 4 1 (⟨0, 0⟩ : Vec2 ℝ) 0 = .ok s ∧ ¬ ∃ d : ℝ, 0 < d ∧ s.verts[0]? = some ⟨0 - d, 0 - d⟩) ∧
    ∃ s, Polygon.regular 4 1 (⟨0, 0⟩ : Vec2 ℝ) 225 = .ok s ∧ ∃ d : ℝ, 0 < d ∧ s.verts[0]? = some ⟨0 - d, 0 - d⟩ := by
  constructor
  · obtain ⟨s, -, hs, -⟩ := regular_eq 4 (by omega) 1 ⟨0, 0⟩ 0
    refine ⟨s, hs, ?_⟩
    obtain ⟨h1, -⟩ := regular_four _ _ _ _ hs
    rw [h1]
    intro h
    have := (square_first (c := (⟨0, 0⟩ : Vec2 ℝ))).mp h
    rw [cosDeg_0, sinDeg_0] at this
    norm_num at this
  · obtain ⟨s, -, hs, -⟩ := regular_eq 4 (by omega) 1 ⟨0, 0⟩ 225
    refine ⟨s, hs, ?_⟩
    obtain ⟨h1, -⟩ := regular_four _ _ _ _ hs
    rw [h1]
    refine (square_first (c := (⟨0, 0⟩ : Vec2 ℝ))).mpr ?_
    have c45 : cosDeg 45 = sinDeg 45 := by
      unfold cosDeg sinDeg
      rw [show (45 : ℝ) * (Real.pi / 180) = Real.pi / 4 by ring, Real.cos_pi_div_four, Real.sin_pi_div_four]
    have p45 : 0 < cosDeg 45 := cosDeg_pos (by norm_num) (by norm_num)
    rw [show (225 : ℝ) = 45 + 180 by norm_num, cosDeg_add, sinDeg_add, cosDeg_180, sinDeg_180]
    constructor <;> linarith

end Planar
