import Verif.Props.Radial
import Verif.Lemmas.WindConst
import Mathlib.Tactic.IntervalCases
/- Property C53: the centre-distance shortcuts of regular polygons and stars. -/
set_option linter.unusedSectionVars false
namespace Planar
open Spec
open Polygon

variable {c : Vec2 ℝ} {ρ : ℕ → ℝ} {a s : ℝ} {L : List (Vec2 ℝ)}

/-- The edges of a radial polygon. -/
theorem IsRadial.edge (h : IsRadial c ρ a s L) {e : Vec2 ℝ × Vec2 ℝ} (he : e ∈ edges L) :
    ∃ i < L.length, ∃ θ, e = (circ c (ρ ((i + (L.length - 1)) % L.length)) θ, circ c (ρ i) (θ + s)) := by
  rw [← range_map_edges] at he
  obtain ⟨i, hi, rfl⟩ := List.mem_map.mp he
  rw [List.mem_range] at hi
  have hL : 0 < L.length := by omega
  refine ⟨i, hi, a + ((i + (L.length - 1) : ℕ) : ℝ) * s, ?_⟩
  have e1 : nth L (i : ℤ) = L[i] := nth_ofNat L i hi
  have e2 : nth L ((i : ℤ) - 1) = L[(i + (L.length - 1)) % L.length]'(Nat.mod_lt _ hL) := by
    rcases i with _ | i
    · have : (0 + (L.length - 1)) % L.length = L.length - 1 := by rw [Nat.zero_add, Nat.mod_eq_of_lt (by omega)]
      simp only [this]
      exact nth_neg L 1 le_rfl hL
    · have : (i + 1 + (L.length - 1)) % L.length = i := by
        rw [show i + 1 + (L.length - 1) = i + L.length by omega, Nat.add_mod_right, Nat.mod_eq_of_lt (by omega)]
      simp only [this]
      exact nth_pred L i hi
  rw [e1, e2, h.mod _ hL, h.at_ i hi]
  have h360 := h.full
  have e3 : circ c (ρ i) (a + i * s) = circ c (ρ i) (a + ((i + (L.length - 1) : ℕ) : ℝ) * s + s) := by
    rw [← circ_turns c (ρ i) (a + i * s) 1]
    congr 1
    rw [Nat.cast_add, Nat.cast_sub (by omega)]
    push_cast
    linear_combination - h360
  rw [e3]

/-- Squared distance. -/
def d2 (p q : Vec2 ℝ) : ℝ := (p.x - q.x) * (p.x - q.x) + (p.y - q.y) * (p.y - q.y)

theorem d2_dist (p q : Vec2 ℝ) : p.distanceTo q * p.distanceTo q = d2 p q := by
  rw [distanceTo_eq_length, length_mul_self]; rfl

theorem dist_nonneg' (p q : Vec2 ℝ) : 0 ≤ p.distanceTo q := by rw [distanceTo_eq_length]; exact length_nonneg _

theorem dist_lt {p q : Vec2 ℝ} {k : ℝ} (h : p.distanceTo q < k) : d2 p q < k * k := by
  rw [← d2_dist]
  have := dist_nonneg' p q
  nlinarith

theorem lt_dist {p q : Vec2 ℝ} {k : ℝ} (hk : 0 ≤ k) (h : k < p.distanceTo q) : k * k < d2 p q := by
  rw [← d2_dist]
  nlinarith

theorem length2_sub (p q : Vec2 ℝ) : (q - p).length2 = d2 p q := by
  simp only [Vec2.length2, d2, Vec2.sub_x, Vec2.sub_y]; ring

theorem d2_circ (c : Vec2 ℝ) (r θ : ℝ) : d2 (circ c r θ) c = r * r := by
  rw [← d2_dist, circ_dist, abs_mul_abs_self]

/-- The squared distance of a point of an edge. -/
theorem d2_edge (c : Vec2 ℝ) (r1 r2 θ s t : ℝ) (x : Vec2 ℝ)
    (hx : x.x = (circ c r1 θ).x + t * ((circ c r2 (θ + s)).x - (circ c r1 θ).x))
    (hy : x.y = (circ c r1 θ).y + t * ((circ c r2 (θ + s)).y - (circ c r1 θ).y)) :
    d2 x c = (1 - t) * (1 - t) * (r1 * r1) + t * t * (r2 * r2) + 2 * (t * (1 - t)) * (r1 * r2) * cosDeg s := by
  have hu := cosDeg_sq_add θ
  have hs := cosDeg_sq_add s
  unfold d2
  rw [hx, hy]
  simp only [circ, cosDeg_add, sinDeg_add]
  generalize cosDeg θ = C at *
  generalize sinDeg θ = S at *
  generalize cosDeg s = c' at *
  generalize sinDeg s = s' at *
  linear_combination ((1 - t) * (1 - t) * (r1 * r1) + 2 * (t * (1 - t)) * (r1 * r2) * c' + t * t * (r2 * r2) * (c' * c' + s' * s')) * hu +
    (t * t * (r2 * r2)) * hs

/-- Outside the circle through the outermost vertices the winding number is 0. -/
theorem IsRadial.outer (h : IsRadial c ρ a s L) {R2 : ℝ} (hR : ∀ i < L.length, ρ i * ρ i ≤ R2) {p : Vec2 ℝ} (hp : R2 < d2 p c) :
    winding L p = 0 := by
  by_contra hw
  have := inHull_disk (inHull_of_winding hw) (c := c) (r2 := R2) fun v hv => by
    obtain ⟨i, hi, rfl⟩ := List.getElem_of_mem hv
    rw [h.at_ i hi]
    exact (d2_circ c _ _).trans_le (hR i hi)
  exact absurd hp (not_lt.mpr this)

/-- Inside a circle that does not meet the boundary the winding number is not 0, when all vertices have radii of one sign. -/
theorem IsRadial.inner (h : IsRadial c ρ a s L) (hne : L ≠ []) (hs : 0 < sinDeg s)
    (hpos : ∀ i < L.length, 0 < ρ ((i + (L.length - 1)) % L.length) * ρ i) {R2 : ℝ}
    (hR : ∀ e ∈ edges L, ∀ x, OnEdge e x → R2 ≤ d2 x c) {p : Vec2 ℝ} (hp : d2 p c < R2) : winding L p ≠ 0 := by
  have hc : winding L c ≠ 0 := by
    apply winding_of_left hne
    intro e he
    obtain ⟨i, hi, θ, rfl⟩ := h.edge he
    have e : ∀ u v w : Vec2 ℝ, side u v w = side w u v := by intro u v w; unfold side; ring
    rw [e, circ_side]
    exact mul_pos (hpos i hi) hs
  rw [← winding_const (p := c) (q := p)] 
  · exact hc
  · intro e he x hx hx'
    have := hR e he x hx'
    obtain ⟨t, h0, h1, hx, hy⟩ := hx
    have : d2 x c = t * t * d2 p c := by
      unfold d2; rw [hx, hy]; simp only; ring
    have h2 : 0 ≤ d2 p c := by rw [← d2_dist]; exact mul_self_nonneg _
    have : t * t ≤ 1 := by nlinarith
    nlinarith

theorem cosDeg_half (θ : ℝ) : cosDeg (θ / 2) * cosDeg (θ / 2) = (1 + cosDeg θ) / 2 := by
  have h1 := cosDeg_add (θ / 2) (θ / 2)
  have h2 := cosDeg_sq_add (θ / 2)
  rw [add_halves] at h1
  linarith

/-- All points of an edge between two vertices at distance `|r|` are at least as far from the centre as its midpoint. -/
theorem edge_mid_le {r θ s : ℝ} {x : Vec2 ℝ} (hx : OnEdge (circ c r θ, circ c r (θ + s)) x) (h : 0 ≤ 1 - cosDeg s) :
    r * r * ((1 + cosDeg s) / 2) ≤ d2 x c := by
  obtain ⟨t, h0, h1, hx, hy⟩ := hx
  rw [d2_edge c r r θ s t x hx hy]
  have : 0 ≤ (r * r) * (1 - cosDeg s) * ((2 * t - 1) * (2 * t - 1)) := by
    have := mul_self_nonneg (2 * t - 1)
    have := mul_self_nonneg r
    positivity
  nlinarith

/-- All points of an edge between two vertices of the same sign are at least as far from the centre as the nearer one,
when it is near enough. -/
theorem edge_min_le {r1 r2 θ s m : ℝ} {x : Vec2 ℝ} (hx : OnEdge (circ c r1 θ, circ c r2 (θ + s)) x)
    (h1 : m * m ≤ r1 * r1) (h2 : m * m ≤ r2 * r2) (h : m * m ≤ r1 * r2 * cosDeg s) : m * m ≤ d2 x c := by
  obtain ⟨t, h0, ht, hx, hy⟩ := hx
  rw [d2_edge c r1 r2 θ s t x hx hy]
  have e1 := mul_le_mul_of_nonneg_left h1 (mul_self_nonneg (1 - t))
  have e2 := mul_le_mul_of_nonneg_left h2 (mul_self_nonneg t)
  have e3 := mul_le_mul_of_nonneg_left h (mul_nonneg h0 (sub_nonneg.mpr ht))
  nlinarith

theorem cosDeg_le_one (s : ℝ) : cosDeg s ≤ 1 := Real.cos_le_one _

theorem midRadius_sq (h : IsRadial c ρ a s L) (h2 : 2 ≤ L.length) {r : ℝ} (h0 : ρ 0 = r) (h1 : ρ 1 = r) :
    midRadius L c * midRadius L c = r * r * ((1 + cosDeg s) / 2) := by
  unfold midRadius
  rw [length_mul_self]
  have e0 : nth L 0 = circ c r a := by
    rw [nth_zero L (by omega), h.at_ 0 (by omega), h0]; simp
  have e1 : nth L 1 = circ c r (a + s) := by
    have := nth_ofNat L 1 (by omega)
    rw [Nat.cast_one] at this
    rw [this, h.at_ 1 (by omega), h1]; simp
  rw [e0, e1]
  have := d2_edge c r r a s (1 / 2) ⟨((circ c r a).x + (circ c r (a + s)).x) / 2, ((circ c r a).y + (circ c r (a + s)).y) / 2⟩
    (by simp only; ring) (by simp only; ring)
  have e : ((circ c r a + circ c r (a + s)).smul (1 / (1 + 1)) - c).length2 =
      d2 ⟨((circ c r a).x + (circ c r (a + s)).x) / 2, ((circ c r a).y + (circ c r (a + s)).y) / 2⟩ c := by
    simp only [Vec2.length2, d2, Vec2.sub_x, Vec2.sub_y, Vec2.smul_x, Vec2.smul_y, Vec2.add_x, Vec2.add_y]
    ring
  rw [e, this]; ring

/-- What `contains_point` does with a known centroid. -/
theorem contains_radial {eps : ℝ} {s : Polygon ℝ} (h : 4 < s.verts.length) {c : Vec2 ℝ} (hc : s.centroid = some (some c)) (pt : PyPoint ℝ) :
    (∀ r, s.minR2 = some r → d2 pt.toVec c < r → (s.containsPoint eps pt).1 = .ok true) ∧
    (∀ r, s.maxR2 = some r → r < d2 pt.toVec c → (∀ r, s.minR2 = some r → r ≤ d2 pt.toVec c) → (s.containsPoint eps pt).1 = .ok false) := by
  unfold Polygon.containsPoint
  simp only [show ¬ s.verts.length = 3 by omega, if_false, hc, h, if_true, length2_sub]
  constructor
  · intro r hr hd
    simp [hr, hd]
  · intro r hr hd hm
    rcases hmin : s.minR2 with _ | r'
    · simp [hr, hd]
    · have := not_lt.mpr (hm r' hmin)
      simp [hr, hd, this]

/-- What `contains_point` does with nothing known. -/
theorem contains_general {eps : ℝ} {s : Polygon ℝ} (h : 4 ≤ s.verts.length) (hc : s.centroid = none) (hy : s.yPolylines = none)
    (hb : s.bbox = none) (pt : PyPoint ℝ) : (s.containsPoint eps pt).1 = .ok (winding s.verts pt.toVec != 0) := by
  rw [← C48_winding eps s.verts h pt]
  unfold Polygon.containsPoint
  simp only [Polygon.fromPoints, Polygon.cleared, Polygon.boundingBox, show ¬ s.verts.length = 3 by omega, if_false, hc, hy, hb]
  by_cases h4 : s.verts.length = 4
  · simp only [h4, if_true]
  · simp only [h4, if_false]
    rcases Box.fromPoints s.verts with e | b
    · rfl
    · simp only; split <;> rfl

/-- **C53** for `Polygon.regular(n, r, c, a)` with more than four vertices: a point nearer to the centre than the edges
(at distance `|r| cos(180°/n)`) is reported inside, a point farther than the vertices outside; and the winding number of
the boundary says the same. -/
theorem C53_regular (n : ℕ) (hn : 5 ≤ n) (r : ℝ) (c : Vec2 ℝ) (a : ℝ) (s : Polygon ℝ) (h : Polygon.regular (n : ℤ) r c a = .ok s)
    (eps : ℝ) (pt : PyPoint ℝ) :
    (pt.toVec.distanceTo c < |r| * cosDeg (180 / n) → (s.containsPoint eps pt).1 = .ok true ∧ winding s.verts pt.toVec ≠ 0) ∧
    (|r| < pt.toVec.distanceTo c → (s.containsPoint eps pt).1 = .ok false ∧ winding s.verts pt.toVec = 0) := by
  obtain ⟨s', q, hs, hq, he, hv⟩ := regular_eq n (by omega) r c a
  rw [h] at hs
  injection hs with hs
  subst hs
  have hsv : s.verts = regularVerts (360 / (n : ℝ)) r c n a := by rw [he]; exact hv
  have hR := regular_radial n (by omega) r c a
  have hl : (regularVerts (360 / (n : ℝ)) r c n a).length = n := regularVerts_length _ _ _ _ _
  have hn' : (5 : ℝ) ≤ n := by exact_mod_cast hn
  have hcen : s.centroid = some (some c) := by rw [he]
  have hmax : s.maxR2 = some (r * r) := by rw [he]
  have hhalf : cosDeg (180 / n) * cosDeg (180 / n) = (1 + cosDeg (360 / n)) / 2 := by
    have := cosDeg_half (360 / n)
    rwa [show (360 : ℝ) / n / 2 = 180 / n by ring] at this
  have hmid := midRadius_sq hR (by omega) rfl rfl
  have hmin : s.minR2 = some (r * r * ((1 + cosDeg (360 / n)) / 2)) := by rw [he]; simp only; rw [hv, hmid]
  obtain ⟨k1, k2⟩ := contains_radial (eps := eps) (s := s) (by rw [hsv, hl]; omega) hcen pt
  have hsin : 0 < sinDeg (360 / n) := sinDeg_pos (by positivity) (by rw [div_lt_iff₀ (by linarith)]; linarith)
  constructor
  · intro hd
    have hd2 : d2 pt.toVec c < r * r * ((1 + cosDeg (360 / n)) / 2) := by
      have := dist_lt hd
      rwa [mul_mul_mul_comm, abs_mul_abs_self, hhalf] at this
    refine ⟨k1 _ hmin hd2, ?_⟩
    have hr : 0 < r * r := by
      have : r ≠ 0 := by
        rintro rfl
        rw [abs_zero, zero_mul] at hd
        exact absurd hd (not_lt.mpr (dist_nonneg' _ _))
      exact mul_self_pos.mpr this
    rw [hsv]
    refine hR.inner (by rw [ne_eq, ← List.length_eq_zero_iff, hl]; omega) hsin (fun _ _ => hr) ?_ hd2
    intro e he x hx
    obtain ⟨i, hi, θ, rfl⟩ := hR.edge he
    exact edge_mid_le hx (by linarith [cosDeg_le_one (360 / n)])
  · intro hd
    have hd2 := lt_dist (abs_nonneg r) hd
    rw [abs_mul_abs_self] at hd2
    constructor
    · apply k2 _ hmax hd2
      intro r' hr'
      rw [hmin] at hr'
      injection hr' with hr'
      rw [← hr']
      have := cosDeg_le_one (360 / n)
      nlinarith [mul_self_nonneg r]
    · rw [hsv]; exact hR.outer (fun _ _ => le_rfl) hd2

theorem star_edge_radii {n : ℕ} (hn : 2 ≤ n) (r1 r2 : ℝ) (i : ℕ) :
    ((if (i + (2 * n - 1)) % (2 * n) % 2 = 0 then r1 else r2) = r1 ∧ (if i % 2 = 0 then r1 else r2) = r2) ∨
    ((if (i + (2 * n - 1)) % (2 * n) % 2 = 0 then r1 else r2) = r2 ∧ (if i % 2 = 0 then r1 else r2) = r1) := by
  rcases Nat.mod_two_eq_zero_or_one i with h | h
  · right
    have : (i + (2 * n - 1)) % (2 * n) % 2 = 1 := by
      rw [Nat.mod_mod_of_dvd _ (Dvd.intro _ rfl)]; omega
    rw [if_neg (by omega), if_pos h]; simp
  · left
    have : (i + (2 * n - 1)) % (2 * n) % 2 = 0 := by
      rw [Nat.mod_mod_of_dvd _ (Dvd.intro _ rfl)]; omega
    rw [if_pos this, if_neg (by omega)]; simp

/-- **C53** for stars: a point farther from the centre than all the vertices is reported outside, and its winding number
is 0. -/
theorem C53_star_outer (n : ℕ) (hn : 3 ≤ n) (r1 r2 : ℝ) (c : Vec2 ℝ) (a : ℝ) (s : Polygon ℝ) (h : Polygon.star (n : ℤ) r1 r2 c a = .ok s)
    (eps : ℝ) (pt : PyPoint ℝ) (hd : max |r1| |r2| < pt.toVec.distanceTo c) :
    (s.containsPoint eps pt).1 = .ok false ∧ winding s.verts pt.toVec = 0 := by
  obtain ⟨s', hs, hsv, hcen, hmax, -, -, hyp, hbb, hmin⟩ := star_eq n (by omega) r1 r2 c a
  rw [h] at hs
  injection hs with hs
  subst hs
  have hR := star_radial n (by omega) r1 r2 c a
  have hl := starVerts_length (180 / (n : ℝ)) r1 r2 c n a
  have hd2 := lt_dist (le_max_of_le_left (abs_nonneg r1)) hd
  have hsq : ∀ r : ℝ, |r| ≤ max |r1| |r2| → r * r ≤ max |r1| |r2| * max |r1| |r2| := by
    intro r hr
    rw [← abs_mul_abs_self r]
    exact mul_self_le_mul_self (abs_nonneg r) hr
  have hw : winding s.verts pt.toVec = 0 := by
    rw [hsv]
    refine hR.outer (fun i _ => ?_) hd2
    split
    · exact hsq r1 (le_max_left _ _)
    · exact hsq r2 (le_max_right _ _)
  refine ⟨?_, hw⟩
  by_cases hsg : (0 < r1 ↔ 0 < r2)
  · rw [if_pos hsg] at hcen
    obtain ⟨-, k2⟩ := contains_radial (eps := eps) (s := s) (by rw [hsv, hl]; omega) hcen pt
    refine k2 _ hmax hd2 ?_
    intro r' hr'
    refine le_trans ?_ hd2.le
    rw [hmin] at hr'
    by_cases h2 : 0 ≤ r1 ↔ 0 ≤ r2
    · rw [if_pos h2] at hr'
      by_cases h3 : r1 = r2
      · rw [if_pos h3] at hr'
        injection hr' with hr'
        rw [← hr', hsv, midRadius_sq hR (by omega) (r := r1) rfl (by simp [h3])]
        have := cosDeg_le_one (180 / n)
        have := hsq r1 (le_max_left _ _)
        nlinarith [mul_self_nonneg r1]
      · rw [if_neg h3] at hr'
        injection hr' with hr'
        rw [← hr']
        exact mul_self_le_mul_self (le_min (abs_nonneg _) (abs_nonneg _)) min_le_max
    · rw [if_neg h2] at hr'; cases hr'
  · rw [if_neg hsg] at hcen
    have h3 : r1 ≠ r2 := by rintro rfl; exact hsg Iff.rfl
    rw [if_neg h3] at hyp
    have hne : s.verts ≠ [] := by rw [ne_eq, ← List.length_eq_zero_iff, hsv, hl]; omega
    rw [contains_general (by rw [hsv, hl]; omega) hcen hyp hbb, hw]; rfl


/-- **C53** stars with radii of opposite signs have no shortcut: `contains_point` answers by the winding rule. -/
theorem C53_star_mixed (n : ℕ) (hn : 2 ≤ n) (r1 r2 : ℝ) (c : Vec2 ℝ) (a : ℝ) (s : Polygon ℝ) (h : Polygon.star (n : ℤ) r1 r2 c a = .ok s)
    (hr : r1 * r2 < 0) (eps : ℝ) (pt : PyPoint ℝ) : (s.containsPoint eps pt).1 = .ok (winding s.verts pt.toVec != 0) := by
  obtain ⟨s', hs, hsv, hcen, hmax, -, -, hyp, hbb, hmin⟩ := star_eq n (by omega) r1 r2 c a
  rw [h] at hs
  injection hs with hs
  subst hs
  have hl := starVerts_length (180 / (n : ℝ)) r1 r2 c n a
  have hsg : ¬ (0 < r1 ↔ 0 < r2) := by
    intro hiff
    rcases mul_neg_iff.mp hr with ⟨h1, h2⟩ | ⟨h1, h2⟩
    · exact absurd (hiff.mp h1) (not_lt.mpr h2.le)
    · exact absurd (hiff.mpr h2) (not_lt.mpr h1.le)
  rw [if_neg hsg] at hcen
  have h3 : r1 ≠ r2 := by rintro rfl; exact hsg Iff.rfl
  rw [if_neg h3] at hyp
  exact contains_general (by rw [hsv, hl]; omega) hcen hyp hbb pt

/-- **C53** for stars with equal radii: a point nearer to the centre than the edges is reported inside, and its winding
number is not 0. -/
theorem C53_star_equal (n : ℕ) (hn : 3 ≤ n) (r : ℝ) (c : Vec2 ℝ) (a : ℝ) (s : Polygon ℝ) (h : Polygon.star (n : ℤ) r r c a = .ok s)
    (eps : ℝ) (pt : PyPoint ℝ) (hd : pt.toVec.distanceTo c < |r| * cosDeg (90 / n)) :
    (s.containsPoint eps pt).1 = .ok true ∧ winding s.verts pt.toVec ≠ 0 := by
  obtain ⟨s', hs, hsv, hcen, hmax, -, -, hyp, hbb, hmin⟩ := star_eq n (by omega) r r c a
  rw [h] at hs
  injection hs with hs
  subst hs
  have hR := star_radial n (by omega) r r c a
  have hl := starVerts_length (180 / (n : ℝ)) r r c n a
  have hn' : (3 : ℝ) ≤ n := by exact_mod_cast hn
  rw [if_pos Iff.rfl] at hcen
  rw [if_pos Iff.rfl, if_pos rfl, hsv, midRadius_sq hR (by omega) (r := r) (by simp) (by simp)] at hmin
  have hhalf : cosDeg (90 / n) * cosDeg (90 / n) = (1 + cosDeg (180 / n)) / 2 := by
    have := cosDeg_half (180 / n)
    rwa [show (180 : ℝ) / n / 2 = 90 / n by ring] at this
  have hsin : 0 < sinDeg (180 / n) := sinDeg_pos (by positivity) (by rw [div_lt_iff₀ (by linarith)]; linarith)
  have hd2 : d2 pt.toVec c < r * r * ((1 + cosDeg (180 / n)) / 2) := by
    have := dist_lt hd
    rwa [mul_mul_mul_comm, abs_mul_abs_self, hhalf] at this
  obtain ⟨k1, -⟩ := contains_radial (eps := eps) (s := s) (by rw [hsv, hl]; omega) hcen pt
  refine ⟨k1 _ hmin hd2, ?_⟩
  have hr : 0 < r * r := by
    have : r ≠ 0 := by
      rintro rfl
      rw [abs_zero, zero_mul] at hd
      exact absurd hd (not_lt.mpr (dist_nonneg' _ _))
    exact mul_self_pos.mpr this
  rw [hsv]
  refine hR.inner (by rw [ne_eq, ← List.length_eq_zero_iff, hl]; omega) hsin (fun _ _ => by simpa using hr) ?_ hd2
  intro e he x hx
  obtain ⟨i, hi, θ, rfl⟩ := hR.edge he
  simp only [ite_self] at hx
  exact edge_mid_le hx (by linarith [cosDeg_le_one (180 / n)])

/-- **C53** for stars with different radii of the same sign: a point nearer to the centre than all the vertices is
reported inside, and its winding number is not 0. (Partial: the smaller radius is at most `cos(180°/n)` times the larger
one; otherwise the edges come nearer to the centre than the inner vertices, `C53_star_violated`.) -/
theorem C53_star_inner_partial (n : ℕ) (hn : 3 ≤ n) (r1 r2 : ℝ) (c : Vec2 ℝ) (a : ℝ) (s : Polygon ℝ)
    (h : Polygon.star (n : ℤ) r1 r2 c a = .ok s) (hr : 0 < r1 * r2) (hne : r1 ≠ r2)
    (hsharp : min |r1| |r2| ≤ max |r1| |r2| * cosDeg (180 / n)) (eps : ℝ) (pt : PyPoint ℝ)
    (hd : pt.toVec.distanceTo c < min |r1| |r2|) :
    (s.containsPoint eps pt).1 = .ok true ∧ winding s.verts pt.toVec ≠ 0 := by
  obtain ⟨s', hs, hsv, hcen, hmax, -, -, hyp, hbb, hmin⟩ := star_eq n (by omega) r1 r2 c a
  rw [h] at hs
  injection hs with hs
  subst hs
  have hR := star_radial n (by omega) r1 r2 c a
  have hl := starVerts_length (180 / (n : ℝ)) r1 r2 c n a
  have hn' : (3 : ℝ) ≤ n := by exact_mod_cast hn
  have hsg : (0 < r1 ↔ 0 < r2) ∧ (0 ≤ r1 ↔ 0 ≤ r2) := by
    rcases mul_pos_iff.mp hr with ⟨h1, h2⟩ | ⟨h1, h2⟩
    · exact ⟨⟨fun _ => h2, fun _ => h1⟩, ⟨fun _ => h2.le, fun _ => h1.le⟩⟩
    · exact ⟨⟨fun h => absurd h (not_lt.mpr h1.le), fun h => absurd h (not_lt.mpr h2.le)⟩,
        ⟨fun h => absurd h (not_le.mpr h1), fun h => absurd h (not_le.mpr h2)⟩⟩
  rw [if_pos hsg.1] at hcen
  rw [if_pos hsg.2, if_neg hne] at hmin
  have hsin : 0 < sinDeg (180 / n) := sinDeg_pos (by positivity) (by rw [div_lt_iff₀ (by linarith)]; linarith)
  have hd2 := dist_lt hd
  obtain ⟨k1, -⟩ := contains_radial (eps := eps) (s := s) (by rw [hsv, hl]; omega) hcen pt
  refine ⟨k1 _ hmin hd2, ?_⟩
  have hm0 : 0 ≤ min |r1| |r2| := le_min (abs_nonneg _) (abs_nonneg _)
  have hsq : ∀ r : ℝ, min |r1| |r2| ≤ |r| → min |r1| |r2| * min |r1| |r2| ≤ r * r := by
    intro r hr
    rw [← abs_mul_abs_self r]
    exact mul_self_le_mul_self hm0 hr
  have hprod : min |r1| |r2| * max |r1| |r2| = r1 * r2 := by
    rw [min_mul_max, ← abs_mul, abs_of_pos hr]
  have hpc : min |r1| |r2| * min |r1| |r2| ≤ r1 * r2 * cosDeg (180 / n) := by
    have := mul_le_mul_of_nonneg_left hsharp hm0
    rwa [← mul_assoc, hprod] at this
  rw [hsv]
  refine hR.inner (by rw [ne_eq, ← List.length_eq_zero_iff, hl]; omega) hsin ?_ ?_ hd2
  · intro i hi
    rw [hl]
    rcases star_edge_radii (n := n) (by omega) r1 r2 i with ⟨e1, e2⟩ | ⟨e1, e2⟩ <;> rw [e1, e2]
    · exact hr
    · rw [mul_comm]; exact hr
  · intro e he x hx
    obtain ⟨i, hi, θ, rfl⟩ := hR.edge he
    rw [hl] at hx
    rcases star_edge_radii (n := n) (by omega) r1 r2 i with ⟨e1, e2⟩ | ⟨e1, e2⟩ <;> rw [e1, e2] at hx
    · exact edge_min_le hx (hsq r1 (min_le_left _ _)) (hsq r2 (min_le_right _ _)) hpc
    · exact edge_min_le hx (hsq r2 (min_le_right _ _)) (hsq r1 (min_le_left _ _)) (by rw [mul_comm r2 r1]; exact hpc)

theorem cosDeg_60 : cosDeg 60 = 1 / 2 := by
  unfold cosDeg
  rw [show (60 : ℝ) * (Real.pi / 180) = Real.pi / 3 by ring, Real.cos_pi_div_three]

theorem sinDeg_60 : sinDeg 60 = √3 / 2 := by
  unfold sinDeg
  rw [show (60 : ℝ) * (Real.pi / 180) = Real.pi / 3 by ring, Real.sin_pi_div_three]

/-- **C53** is false for blunt stars: the point (7, 5) is outside the star with three peaks and radii 10 and 9 about the
origin, and is reported inside. -/
theorem C53_star_violated (eps : ℝ) : ∃ s, Polygon.star 3 10 9 (⟨0, 0⟩ : Vec2 ℝ) 0 = .ok s ∧
    (s.containsPoint eps (.vec ⟨7, 5⟩)).1 = .ok true ∧ winding s.verts ⟨7, 5⟩ = 0 := by
  obtain ⟨s, hs, hsv, hcen, hmax, -, -, hyp, hbb, hmin⟩ := star_eq 3 (by omega) 10 9 (⟨0, 0⟩ : Vec2 ℝ) 0
  have hR := star_radial 3 (by omega) 10 9 (⟨0, 0⟩ : Vec2 ℝ) 0
  have hl := starVerts_length (180 / ((3 : ℕ) : ℝ)) 10 9 (⟨0, 0⟩ : Vec2 ℝ) 3 0
  refine ⟨s, hs, ?_, ?_⟩
  · rw [if_pos (by norm_num)] at hcen
    obtain ⟨k1, -⟩ := contains_radial (eps := eps) (s := s) (by rw [hsv, hl]; omega) hcen (.vec ⟨7, 5⟩)
    rw [if_pos (by norm_num), if_neg (by norm_num)] at hmin
    refine k1 _ hmin ?_
    rw [min_eq_right (by norm_num)]
    norm_num [d2, PyPoint.toVec]
  · by_contra hw
    have h3 : (√3 : ℝ) * √3 = 3 := Real.mul_self_sqrt (by norm_num)
    have h3p : (0 : ℝ) < √3 := Real.sqrt_pos.mpr (by norm_num)
    have c120 : cosDeg 120 = -(1 / 2) := by
      rw [show (120 : ℝ) = 60 + 60 by norm_num, cosDeg_add, cosDeg_60, sinDeg_60]; linarith
    have s120 : sinDeg 120 = √3 / 2 := by
      rw [show (120 : ℝ) = 60 + 60 by norm_num, sinDeg_add, cosDeg_60, sinDeg_60]; ring
    have := inHull_halfplane (inHull_of_winding hw) (a := 9 * √3) (b := 11) (c := 90 * √3) fun v hv => by
      rw [hsv] at hv
      obtain ⟨i, hi, rfl⟩ := List.getElem_of_mem hv
      rw [starVerts_get]
      rw [hl] at hi
      interval_cases i
      · norm_num [circ, cosDeg_0, sinDeg_0]; linarith
      · norm_num [circ, cosDeg_60, sinDeg_60]; linarith
      · norm_num [circ, c120, s120]; linarith
      · norm_num [circ, cosDeg_180, sinDeg_180]; linarith
      · have e1 : cosDeg 240 = -(1 / 2) := by
          rw [show (240 : ℝ) = 180 + 60 by norm_num, cosDeg_add, cosDeg_60, sinDeg_60, cosDeg_180, sinDeg_180]; ring
        have e2 : sinDeg 240 = -(√3 / 2) := by
          rw [show (240 : ℝ) = 180 + 60 by norm_num, sinDeg_add, cosDeg_60, sinDeg_60, cosDeg_180, sinDeg_180]; ring
        norm_num [circ, e1, e2]; linarith
      · have e1 : cosDeg 300 = 1 / 2 := by
          rw [show (300 : ℝ) = 180 + 120 by norm_num, cosDeg_add, c120, s120, cosDeg_180, sinDeg_180]; ring
        have e2 : sinDeg 300 = -(√3 / 2) := by
          rw [show (300 : ℝ) = 180 + 120 by norm_num, sinDeg_add, c120, s120, cosDeg_180, sinDeg_180]; ring
        norm_num [circ, e1, e2]; linarith
    simp only at this
    nlinarith

/-- The hypotheses of the theorems above are met: a hexagon and a point near its centre, and a sharp three-pointed star. -/
example : (2 : ℝ) < |3| * cosDeg (180 / (6 : ℕ)) ∧ min |(10 : ℝ)| |3| ≤ max |(10 : ℝ)| |3| * cosDeg (180 / (3 : ℕ)) ∧
    (0 : ℝ) < 10 * 3 := by
  refine ⟨?_, ?_, by norm_num⟩
  · have : cosDeg (180 / (6 : ℕ)) = √3 / 2 := by
      unfold cosDeg
      rw [show (180 / ((6 : ℕ) : ℝ)) * (Real.pi / 180) = Real.pi / 6 by push_cast; ring, Real.cos_pi_div_six]
    rw [this, abs_of_pos (by norm_num)]
    have h3 : (√3 : ℝ) * √3 = 3 := Real.mul_self_sqrt (by norm_num)
    have h3p : (0 : ℝ) < √3 := Real.sqrt_pos.mpr (by norm_num)
    nlinarith
  · have : cosDeg (180 / (3 : ℕ)) = 1 / 2 := by rw [← cosDeg_60]; norm_num
    rw [this]; norm_num

end Planar
