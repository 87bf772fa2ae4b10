import Verif.Props.RadialContains
import Verif.Lemmas.YMono
import Verif.Spec.Simple
/- The shape of regular polygons and stars: distinct vertices, no self-intersection, convexity. -/
set_option linter.unusedSectionVars false
namespace Planar
open Spec
open Polygon

variable {c : Vec2 ℝ} {ρ : ℕ → ℝ} {a s : ℝ} {L : List (Vec2 ℝ)}

/-- The edges of a radial polygon. -/
theorem IsRadial.edge_at (h : IsRadial c ρ a s L) (i : ℕ) (hi : i < L.length) :
    (edges L)[i]? = some (circ c (ρ ((i + (L.length - 1)) % L.length)) (a + i * s - s), circ c (ρ i) (a + i * s)) := by
  have hL : 0 < L.length := by omega
  rw [← range_map_edges, List.getElem?_map, List.getElem?_range hi, Option.map_some]
  have e1 : nth L (i : ℤ) = L[i] := nth_ofNat L i hi
  have e2 : nth L ((i : ℤ) - 1) = L[(i + (L.length - 1)) % L.length]'(Nat.mod_lt _ hL) := by
    rcases i with _ | i
    · have : (0 + (L.length - 1)) % L.length = L.length - 1 := by rw [Nat.zero_add, Nat.mod_eq_of_lt (by omega)]
      simp only [this]
      exact nth_neg L 1 le_rfl hL
    · have : (i + 1 + (L.length - 1)) % L.length = i := by
        rw [show i + 1 + (L.length - 1) = i + L.length by omega, Nat.add_mod_right, Nat.mod_eq_of_lt (by omega)]
      simp only [this]
      exact nth_pred L i hi
  rw [e1, e2, h.mod _ hL, h.at_ i hi]
  have h360 := h.full
  congr 2
  rw [← circ_turns c _ (a + i * s - s) 1]
  congr 1
  rw [Nat.cast_add, Nat.cast_sub (by omega)]
  push_cast
  linear_combination h360

theorem circ_neg (c : Vec2 ℝ) (r θ : ℝ) : circ c (-r) θ = circ c r (θ + 180) := by
  unfold circ
  rw [cosDeg_add, sinDeg_add, cosDeg_180, sinDeg_180]
  apply Vec2.ext <;> simp only <;> ring

theorem IsRadial.neg (h : IsRadial c ρ a s L) : IsRadial c (fun i => - ρ i) (a + 180) s L :=
  ⟨fun i hi => by
    rw [h.at_ i hi, circ_neg, ← circ_turns c (ρ i) (a + i * s) 1]; congr 1; push_cast; ring, h.full⟩

/-- Twice the signed area of a triangle on two rays from `c`. -/
theorem circ_cross (c : Vec2 ℝ) (x y θ φ : ℝ) : side c (circ c x θ) (circ c y φ) = x * y * sinDeg (φ - θ) := by
  have := circ_side c x y θ (φ - θ)
  rwa [show θ + (φ - θ) = φ by ring] at this

theorem sinDeg_nonneg {θ : ℝ} (h0 : 0 ≤ θ) (h1 : θ ≤ 180) : 0 ≤ sinDeg θ := by
  unfold sinDeg
  have hp := Real.pi_pos
  apply Real.sin_nonneg_of_nonneg_of_le_pi
  · positivity
  · have : θ * (Real.pi / 180) ≤ 180 * (Real.pi / 180) := by gcongr
    linarith

theorem sinDeg_neg_of {θ : ℝ} (h0 : 180 < θ) (h1 : θ < 360) : sinDeg θ < 0 := by
  have h := sinDeg_pos (θ := θ - 180) (by linarith) (by linarith)
  have : sinDeg θ = - sinDeg (θ - 180) := by
    have := sinDeg_add (θ - 180) 180
    rw [cosDeg_180, sinDeg_180] at this
    rw [show θ = θ - 180 + 180 by ring, this]; ring_nf
  linarith

/-- `side` along an edge. -/
theorem side_along {K : Type} [Field K] (c P : Vec2 K) (e : Vec2 K × Vec2 K) (x : Vec2 K) (t : K)
    (hx : x.x = e.1.x + t * (e.2.x - e.1.x)) (hy : x.y = e.1.y + t * (e.2.y - e.1.y)) :
    side c P x = (1 - t) * side c P e.1 + t * side c P e.2 := by
  unfold side; rw [hx, hy]; ring

theorem sinDeg_neg (θ : ℝ) : sinDeg (-θ) = - sinDeg θ := by
  unfold sinDeg; rw [neg_mul, Real.sin_neg]

/-- The edges of a radial polygon with positive radii that do not follow one another have no common point. -/
theorem IsRadial.not_touching (h : IsRadial c ρ a s L) (hs : 0 < s) (hs' : s < 180) (hρ : ∀ i < L.length, 0 < ρ i) :
    ¬ SelfTouching L := by
  rintro ⟨e, f, x, ⟨i, j, hij, hji, he, hf⟩, hxe, hxf⟩
  have hj : j < L.length := by
    obtain ⟨hj, -⟩ := List.getElem?_eq_some_iff.mp hf
    rwa [edges_length] at hj
  have hL : 0 < L.length := by omega
  rw [h.edge_at i (by omega)] at he
  rw [h.edge_at j hj] at hf
  have p1 := hρ _ (Nat.mod_lt (i + (L.length - 1)) hL)
  have p2 := hρ i (by omega)
  have p3 := hρ _ (Nat.mod_lt (j + (L.length - 1)) hL)
  have p4 := hρ j hj
  generalize ρ ((i + (L.length - 1)) % L.length) = r1 at *
  generalize ρ ((j + (L.length - 1)) % L.length) = r3 at *
  generalize ρ i = r2 at *
  generalize ρ j = r4 at *
  have hfull := h.full
  obtain ⟨d, rfl⟩ : ∃ d, j = i + d := ⟨j - i, by omega⟩
  have hd2 : (2 : ℝ) ≤ d := by exact_mod_cast (by omega : 2 ≤ d)
  have hdn : (d : ℝ) + 2 ≤ L.length := by exact_mod_cast (by omega : d + 2 ≤ L.length)
  have hd3 : (d : ℝ) * s + 2 * s ≤ 360 := by
    rw [← hfull]; nlinarith
  have hd4 : 2 * s ≤ d * s := by nlinarith
  rw [Option.some.injEq] at he hf
  subst he; subst hf
  obtain ⟨t, ht0, ht1, hx1, hy1⟩ := hxe
  obtain ⟨t', ht0', ht1', hx2, hy2⟩ := hxf
  have hsin := sinDeg_pos hs hs'
  have q1 : 0 ≤ (1 - t) * r1 := mul_nonneg (by linarith) p1.le
  have q2 : 0 ≤ t * r2 := mul_nonneg ht0 p2.le
  have q3 : 0 ≤ (1 - t') * r3 := mul_nonneg (by linarith) p3.le
  have q4 : 0 ≤ t' * r4 := mul_nonneg ht0' p4.le
  have q34 : 0 < (1 - t') * r3 ∨ 0 < t' * r4 := by
    rcases eq_or_lt_of_le ht1' with h | h
    · right; rw [h]; linarith
    · left; exact mul_pos (by linarith) p3
  rcases le_or_gt (d * s) 180 with hcase | hcase
  · have g1 := side_along c (circ c 1 (a + i * s)) _ x t hx1 hy1
    rw [side_along c (circ c 1 (a + i * s)) _ x t' hx2 hy2] at g1
    simp only [circ_cross] at g1
    have a1 : a + i * s - s - (a + i * s) = -s := by ring
    have a3 : a + ((i + d : ℕ) : ℝ) * s - s - (a + i * s) = d * s - s := by push_cast; ring
    have a4 : a + ((i + d : ℕ) : ℝ) * s - (a + i * s) = d * s := by push_cast; ring
    rw [a1, a3, a4, sub_self, sinDeg_0, sinDeg_neg] at g1
    have h3 : 0 < sinDeg (d * s - s) := sinDeg_pos (by linarith) (by linarith)
    have h4 : 0 ≤ sinDeg (d * s) := sinDeg_nonneg (by linarith) hcase
    have m1 := mul_nonneg q1 hsin.le
    have m3 := mul_nonneg q3 h3.le
    have m4 := mul_nonneg q4 h4
    have z1 : (1 - t) * r1 * sinDeg s = 0 := by linarith
    have z3 : (1 - t') * r3 * sinDeg (d * s - s) = 0 := by linarith
    have z4 : t' * r4 * sinDeg (d * s) = 0 := by linarith
    have t1 : t = 1 := by
      rcases mul_eq_zero.mp z1 with h | h
      · rcases mul_eq_zero.mp h with h | h <;> linarith
      · linarith
    have t1' : t' = 1 := by
      rcases mul_eq_zero.mp z3 with h | h
      · rcases mul_eq_zero.mp h with h | h <;> linarith
      · linarith
    subst t1; subst t1'
    have s4 : sinDeg (d * s) = 0 := by
      rcases mul_eq_zero.mp z4 with h | h
      · linarith
      · exact h
    have d180 : d * s = 180 := by
      by_contra hne
      have := sinDeg_pos (θ := d * s) (by linarith) (lt_of_le_of_ne hcase hne)
      linarith
    have e4 : a + ((i + d : ℕ) : ℝ) * s = a + i * s + 180 := by push_cast; linarith
    rw [e4, ← circ_neg] at hx2 hy2
    simp only [circ] at hx1 hy1 hx2 hy2
    have k1 : (r2 + r4) * cosDeg (a + i * s) = 0 := by linarith
    have k2 : (r2 + r4) * sinDeg (a + i * s) = 0 := by linarith
    have hu := cosDeg_sq_add (a + i * s)
    have : (r2 + r4) * (cosDeg (a + i * s) * cosDeg (a + i * s) + sinDeg (a + i * s) * sinDeg (a + i * s)) = 0 := by
      linear_combination cosDeg (a + i * s) * k1 + sinDeg (a + i * s) * k2
    rw [hu] at this
    linarith
  · have g1 := side_along c (circ c 1 (a + i * s - s)) _ x t hx1 hy1
    rw [side_along c (circ c 1 (a + i * s - s)) _ x t' hx2 hy2] at g1
    simp only [circ_cross] at g1
    have a2 : a + i * s - (a + i * s - s) = s := by ring
    have a3 : a + ((i + d : ℕ) : ℝ) * s - s - (a + i * s - s) = d * s := by push_cast; ring
    have a4 : a + ((i + d : ℕ) : ℝ) * s - (a + i * s - s) = d * s + s := by push_cast; ring
    rw [a2, a3, a4, sub_self, sinDeg_0] at g1
    have h3 : sinDeg (d * s) < 0 := sinDeg_neg_of (by linarith) (by linarith)
    have h4 : sinDeg (d * s + s) < 0 := sinDeg_neg_of (by linarith) (by linarith)
    have m2 := mul_nonneg q2 hsin.le
    rcases q34 with h | h
    · have := mul_neg_of_pos_of_neg h h3
      have := mul_nonpos_of_nonneg_of_nonpos q4 h4.le
      linarith
    · have := mul_neg_of_pos_of_neg h h4
      have := mul_nonpos_of_nonneg_of_nonpos q3 h3.le
      linarith

theorem circ_inj {c : Vec2 ℝ} {x y θ φ : ℝ} (hx : 0 < x) (hy : 0 < y) (h : circ c x θ = circ c y φ) : cosDeg (φ - θ) = 1 := by
  have hd : |x| = |y| := by rw [← circ_dist c x θ, ← circ_dist c y φ, h]
  rw [abs_of_pos hx, abs_of_pos hy] at hd
  subst hd
  have h1 := congrArg Vec2.x h
  have h2 := congrArg Vec2.y h
  simp only [circ] at h1 h2
  have e1 : cosDeg θ = cosDeg φ := mul_left_cancel₀ hx.ne' (by linarith)
  have e2 : sinDeg θ = sinDeg φ := mul_left_cancel₀ hx.ne' (by linarith)
  have hc : cosDeg (-θ) = cosDeg θ := by unfold cosDeg; rw [neg_mul, Real.cos_neg]
  rw [sub_eq_add_neg, cosDeg_add, sinDeg_neg, hc, e1, e2]
  linarith [cosDeg_sq_add φ]

/-- The vertices of a radial polygon with positive radii are distinct. -/
theorem IsRadial.nodup (h : IsRadial c ρ a s L) (hs : 0 < s) (hρ : ∀ i < L.length, 0 < ρ i) : L.Nodup := by
  rw [List.nodup_iff_pairwise_ne, List.pairwise_iff_getElem]
  intro i j hi hj hij heq
  rw [h.at_ i hi, h.at_ j hj] at heq
  have := circ_inj (hρ i hi) (hρ j hj) heq
  rw [show a + j * s - (a + i * s) = (j - i) * s by ring] at this
  have h1 : (1 : ℝ) ≤ (j : ℝ) - i := by
    have : ((i + 1 : ℕ) : ℝ) ≤ j := by exact_mod_cast hij
    push_cast at this; linarith
  have h2 : (j : ℝ) - i < L.length := by
    have : (j : ℝ) < L.length := by exact_mod_cast hj
    have : (0 : ℝ) ≤ i := Nat.cast_nonneg i
    linarith
  refine cosDeg_ne_one (by nlinarith) ?_ this
  rw [← h.full]; nlinarith

/-- Twice the signed area of a triangle in a circle. -/
theorem circ_triangle (c : Vec2 ℝ) (r φ σ τ : ℝ) :
    side (circ c r (φ - 2 * σ)) (circ c r φ) (circ c r (φ + 2 * τ)) = 4 * r ^ 2 * (sinDeg σ * sinDeg τ * sinDeg (σ + τ)) := by
  have h1 : ∀ P Q R : Vec2 ℝ, side P Q R = side c P Q + side c Q R - side c P R := by
    intro P Q R; unfold side; ring
  rw [h1, circ_cross, circ_cross, circ_cross, show φ - (φ - 2 * σ) = σ + σ by ring, show φ + 2 * τ - φ = τ + τ by ring,
    show φ + 2 * τ - (φ - 2 * σ) = (σ + σ) + (τ + τ) by ring]
  have u1 := cosDeg_sq_add σ
  have u2 := cosDeg_sq_add τ
  simp only [sinDeg_add, cosDeg_add]
  linear_combination (-2 * r ^ 2 * (sinDeg σ * cosDeg σ)) * u2 + (-2 * r ^ 2 * (sinDeg τ * cosDeg τ)) * u1

/-- A radial polygon with equal radii has all its vertices on the left of every edge. -/
theorem IsRadial.left (h : IsRadial c ρ a s L) {r : ℝ} (hr : ∀ i < L.length, ρ i = r) (hs : 0 < s) :
    ∀ e ∈ edges L, ∀ v ∈ L, 0 ≤ side e.1 e.2 v := by
  intro e he v hv
  obtain ⟨i, hi, he⟩ := List.getElem_of_mem he
  obtain ⟨k, hk, rfl⟩ := List.getElem_of_mem hv
  rw [edges_length] at hi
  have hL : 0 < L.length := by omega
  have he' := h.edge_at i hi
  rw [List.getElem?_eq_getElem (by rwa [edges_length]), he, Option.some.injEq, hr _ (Nat.mod_lt _ hL), hr i hi] at he'
  subst he'
  rw [h.at_ k hk, hr k hk]
  have hfull := h.full
  have hs360 : s ≤ 360 := by
    rw [← hfull]
    have : (1 : ℝ) ≤ L.length := by exact_mod_cast hL
    nlinarith
  obtain ⟨m, hm, hm2⟩ : ∃ m : ℕ, m + 1 ≤ L.length ∧ circ c r (a + k * s) = circ c r (a + i * s + m * s) := by
    rcases le_or_gt i k with hik | hik
    · refine ⟨k - i, by omega, ?_⟩
      rw [Nat.cast_sub hik]; congr 1; ring
    · refine ⟨k + L.length - i, by omega, ?_⟩
      rw [Nat.cast_sub (by omega), ← circ_turns c r (a + k * s) 1]
      congr 1; push_cast; linear_combination - hfull
  have hmR : ((m : ℝ) + 1) * s ≤ 360 := by
    rw [← hfull]
    have : (m : ℝ) + 1 ≤ L.length := by exact_mod_cast hm
    nlinarith
  have hm0 : (0 : ℝ) ≤ m * s := by positivity
  have := circ_triangle c r (a + i * s) (s / 2) (m * s / 2)
  rw [show a + i * s - 2 * (s / 2) = a + i * s - s by ring, show a + i * s + 2 * (m * s / 2) = a + i * s + m * s by ring] at this
  rw [hm2, this]
  have g1 := sinDeg_nonneg (θ := s / 2) (by linarith) (by linarith)
  have g2 := sinDeg_nonneg (θ := m * s / 2) (by linarith) (by linarith)
  have g3 := sinDeg_nonneg (θ := s / 2 + m * s / 2) (by linarith) (by linarith)
  positivity

/-- The direction of an edge. -/
theorem circ_chord (c : Vec2 ℝ) (r φ σ : ℝ) :
    (circ c r φ).x - (circ c r (φ - 2 * σ)).x = 2 * r * sinDeg σ * cosDeg (φ - σ + 90) ∧
    (circ c r φ).y - (circ c r (φ - 2 * σ)).y = 2 * r * sinDeg σ * sinDeg (φ - σ + 90) := by
  obtain ⟨ψ, rfl⟩ : ∃ ψ, φ = ψ + σ := ⟨φ - σ, by ring⟩
  rw [show ψ + σ - 2 * σ = ψ + -σ by ring, show ψ + σ - σ + 90 = ψ + 90 by ring]
  have hc : cosDeg (-σ) = cosDeg σ := by unfold cosDeg; rw [neg_mul, Real.cos_neg]
  simp only [circ, cosDeg_add, sinDeg_add, sinDeg_neg, hc, cosDeg_90, sinDeg_90]
  constructor <;> ring


theorem cosDeg_pos {θ : ℝ} (h0 : -90 < θ) (h1 : θ < 90) : 0 < cosDeg θ := by
  have := sinDeg_pos (θ := θ + 90) (by linarith) (by linarith)
  rwa [sinDeg_add, cosDeg_90, sinDeg_90, mul_zero, mul_one, zero_add] at this

theorem dir_there {θ : ℝ} (h0 : -90 < θ) (h1 : θ ≤ 90) : 0 < cosDeg θ ∨ (cosDeg θ = 0 ∧ 0 ≤ sinDeg θ) := by
  rcases eq_or_lt_of_le h1 with rfl | h
  · right; rw [cosDeg_90, sinDeg_90]; norm_num
  · left; exact cosDeg_pos h0 h

theorem dir_back {θ : ℝ} (h0 : 90 < θ) (h1 : θ ≤ 270) : cosDeg θ < 0 ∨ (cosDeg θ = 0 ∧ sinDeg θ ≤ 0) := by
  have e1 := cosDeg_add (θ - 180) 180
  have e2 := sinDeg_add (θ - 180) 180
  rw [cosDeg_180, sinDeg_180, sub_add_cancel] at e1 e2
  rcases dir_there (θ := θ - 180) (by linarith) (by linarith) with h | ⟨h, h'⟩
  · left; linarith
  · right; constructor <;> linarith

/-- A radial polygon with equal positive radii goes around once. -/
theorem IsRadial.once (h : IsRadial c ρ a s L) {r : ℝ} (hr : ∀ i < L.length, ρ i = r) (hr0 : 0 < r) (hs : 0 < s) (hs' : s < 360)
    (hL : 0 < L.length) : OnceAround L := by
  have hfull := h.full
  obtain ⟨θ, hθ⟩ : ∃ θ, θ = a - s / 2 + 90 := ⟨_, rfl⟩
  have hσ : 0 < 2 * r * sinDeg (s / 2) := by
    have := sinDeg_pos (θ := s / 2) (by linarith) (by linarith)
    positivity
  have hedge : ∀ i (hi : i < L.length) (z : ℤ), ∃ e, (edges L)[i]? = some e ∧
      e.2.x - e.1.x = 2 * r * sinDeg (s / 2) * cosDeg (θ + ((i : ℤ) + L.length * z : ℤ) * s) ∧
      e.2.y - e.1.y = 2 * r * sinDeg (s / 2) * sinDeg (θ + ((i : ℤ) + L.length * z : ℤ) * s) := by
    intro i hi z
    refine ⟨_, h.edge_at i hi, ?_⟩
    rw [hr _ (Nat.mod_lt _ hL), hr i hi]
    have := circ_chord c r (a + i * s) (s / 2)
    rw [show a + i * s - 2 * (s / 2) = a + i * s - s by ring] at this
    have e : θ + ((i : ℤ) + L.length * z : ℤ) * s = a + i * s - s / 2 + 90 + 360 * z := by
      push_cast; rw [hθ]; linear_combination z * hfull
    rw [e, cosDeg_turns, sinDeg_turns]
    exact this
  obtain ⟨k, hk1, hk2⟩ : ∃ k : ℤ, -90 < θ + k * s ∧ θ + (k - 1) * s ≤ -90 := by
    refine ⟨⌊(-90 - θ) / s⌋ + 1, ?_, ?_⟩
    · have := Int.lt_floor_add_one ((-90 - θ) / s)
      rw [div_lt_iff₀ hs] at this
      push_cast; linarith
    · have := Int.floor_le ((-90 - θ) / s)
      rw [le_div_iff₀ hs] at this
      push_cast; linarith
  have hex : ∃ m : ℕ, 90 < θ + (k + m) * s := ⟨L.length, by nlinarith⟩
  classical
  have hm1 := Nat.find_spec hex
  have hm2 := fun i (hi : i < Nat.find hex) => Nat.find_min hex hi
  generalize Nat.find hex = m at hm1 hm2
  have hn0 : (L.length : ℤ) ≠ 0 := by omega
  have hkm := Int.emod_nonneg k hn0
  have hidx : ∀ i, i < L.length → ∀ e, ((edges L).rotate (k % L.length).toNat)[i]? = some e →
      e.2.x - e.1.x = 2 * r * sinDeg (s / 2) * cosDeg (θ + (k + i) * s) ∧
      e.2.y - e.1.y = 2 * r * sinDeg (s / 2) * sinDeg (θ + (k + i) * s) := by
    intro i hi e he
    rw [List.getElem?_rotate (by rwa [edges_length]), edges_length] at he
    have hz := Nat.mod_lt (i + (k % L.length).toNat) hL
    obtain ⟨e', he', h1, h2⟩ := hedge _ hz ((i + (k % L.length).toNat) / L.length + k / L.length)
    rw [he, Option.some.injEq] at he'
    subst he'
    have e3 : ((((i + (k % L.length).toNat) % L.length : ℕ) : ℤ) + L.length * ((i + (k % L.length).toNat) / L.length + k / L.length) : ℤ) = k + i := by
      have h4 : (((k % L.length).toNat : ℕ) : ℤ) = k % L.length := Int.toNat_of_nonneg hkm
      have h5 := Int.emod_add_mul_ediv k L.length
      have h6 := Int.emod_add_mul_ediv ((i : ℤ) + k % L.length) L.length
      push_cast
      rw [h4, mul_add]
      linarith
    rw [e3] at h1 h2
    push_cast at h1 h2
    exact ⟨h1, h2⟩
  have hlen : ((edges L).rotate (k % L.length).toNat).length = L.length := by rw [List.length_rotate, edges_length]
  refine ⟨((edges L).rotate (k % L.length).toNat).take m, ((edges L).rotate (k % L.length).toNat).drop m, ?_, ?_, ?_⟩
  · rw [List.take_append_drop]
    exact ⟨_, rfl⟩
  · intro e he
    obtain ⟨i, hi, rfl⟩ := List.getElem_of_mem he
    rw [List.length_take, hlen] at hi
    rw [List.getElem_take]
    obtain ⟨h1, h2⟩ := hidx i (by omega) _ (List.getElem?_eq_getElem (by omega))
    have hi0 : (0 : ℝ) ≤ i * s := by positivity
    have := not_lt.mp (hm2 i (by omega))
    unfold LexLe
    rcases dir_there (θ := θ + (k + i) * s) (by linarith) this with h | ⟨h, h'⟩
    · left; have := mul_pos hσ h; linarith
    · right; rw [h] at h1; have := mul_nonneg hσ.le h'; constructor <;> linarith
  · intro e he
    obtain ⟨i, hi, rfl⟩ := List.getElem_of_mem he
    rw [List.length_drop, hlen] at hi
    rw [List.getElem_drop]
    obtain ⟨h1, h2⟩ := hidx (m + i) (by omega) _ (List.getElem?_eq_getElem (by omega))
    have hi0 : (0 : ℝ) ≤ i * s := by positivity
    have hle : ((m + i : ℕ) : ℝ) * s ≤ L.length * s - s := by
      have : ((m + i + 1 : ℕ) : ℝ) ≤ L.length := by exact_mod_cast (by omega : m + i + 1 ≤ L.length)
      push_cast at this ⊢
      nlinarith
    unfold LexLe
    rcases dir_back (θ := θ + (k + ((m + i : ℕ) : ℝ)) * s) (by push_cast; linarith) (by linarith) with h | ⟨h, h'⟩
    · left; have := mul_neg_of_pos_of_neg hσ h; linarith
    · right; rw [h] at h1; have := mul_nonpos_of_nonneg_of_nonpos hσ.le h'; constructor <;> linarith


theorem IsRadial.convex (h : IsRadial c ρ a s L) {r : ℝ} (hr : ∀ i < L.length, ρ i = r) (hr0 : 0 < r) (hs : 0 < s) (hs' : s < 360)
    (hL : 0 < L.length) : Convex L := ⟨.inl (h.left hr hs), h.once hr hr0 hs hs' hL⟩

/-- In every direction there is a vertex. -/
theorem IsRadial.near (h : IsRadial c ρ a s L) (hs : 0 < s) (hs' : s ≤ 180) (hL : 0 < L.length) (τ : ℝ) :
    ∃ i < L.length, cosDeg (s / 2) ≤ cosDeg (a + i * s - τ) := by
  have hfull := h.full
  obtain ⟨k, hk1, hk2⟩ : ∃ k : ℤ, -(s / 2) ≤ a + k * s - τ ∧ a + k * s - τ ≤ s / 2 := by
    refine ⟨⌊(τ - a) / s + 1 / 2⌋, ?_, ?_⟩
    · have := Int.lt_floor_add_one ((τ - a) / s + 1 / 2)
      have h2 : (τ - a) / s < ⌊(τ - a) / s + 1 / 2⌋ + 1 / 2 := by linarith
      rw [div_lt_iff₀ hs] at h2
      linarith
    · have := Int.floor_le ((τ - a) / s + 1 / 2)
      have h2 : (⌊(τ - a) / s + 1 / 2⌋ : ℝ) - 1 / 2 ≤ (τ - a) / s := by linarith
      rw [le_div_iff₀ hs] at h2
      linarith
  have hn0 : (L.length : ℤ) ≠ 0 := by omega
  have hkm := Int.emod_nonneg k hn0
  have hkl := Int.emod_lt_of_pos k (by omega : (0 : ℤ) < L.length)
  refine ⟨(k % L.length).toNat, by omega, ?_⟩
  have h4 : (((k % L.length).toNat : ℕ) : ℤ) = k % L.length := Int.toNat_of_nonneg hkm
  have h5 := Int.emod_add_mul_ediv k L.length
  have h6 : (((k % L.length).toNat : ℕ) : ℝ) = k - L.length * ((k / L.length : ℤ) : ℝ) := by
    have : (((k % L.length).toNat : ℕ) : ℤ) = k - L.length * (k / L.length) := by rw [h4]; linarith
    exact_mod_cast this
  rw [← cosDeg_turns (a + ((k % L.length).toNat : ℕ) * s - τ) (k / L.length), h6]
  have e : a + ((k : ℝ) - L.length * ((k / L.length : ℤ) : ℝ)) * s - τ + 360 * ((k / L.length : ℤ) : ℝ) = a + k * s - τ := by
    linear_combination (- ((k / L.length : ℤ) : ℝ)) * hfull
  rw [e]
  unfold cosDeg
  have hp := Real.pi_pos
  have hp' : 0 < Real.pi / 180 := by positivity
  rw [← Real.cos_abs ((a + k * s - τ) * (Real.pi / 180))]
  apply Real.cos_le_cos_of_nonneg_of_le_pi (abs_nonneg _)
  · nlinarith
  · rw [abs_le]; constructor <;> nlinarith

/-- With five or more vertices on a circle, no vertex is extreme both in `x` and in `y`. -/
theorem IsRadial.clear (h : IsRadial c ρ a s L) {r : ℝ} (hr : ∀ i < L.length, ρ i = r) (hr0 : 0 < r) (hs : 0 < s) (hs' : s < 90)
    (hL : 0 < L.length) : Clear L := by
  have hC : 1 < 2 * (cosDeg (s / 2) * cosDeg (s / 2)) := by
    have := cosDeg_half s
    have := cosDeg_pos (θ := s) (by linarith) hs'
    linarith
  have hC0 : 0 < cosDeg (s / 2) := cosDeg_pos (by linarith) (by linarith)
  have key : ∀ v w : Vec2 ℝ, v ∈ L → (∀ u ∈ L, v.x ≤ u.x) → ((∀ u ∈ L, v.y ≤ u.y) ∨ (∀ u ∈ L, u.y ≤ v.y)) → False := by
    intro v w hv hx hy
    obtain ⟨k, hk, rfl⟩ := List.getElem_of_mem hv
    rw [h.at_ k hk, hr k hk] at hx hy
    obtain ⟨i, hi, hi'⟩ := h.near hs (by linarith) hL 180
    have c1 : cosDeg (a + k * s) ≤ - cosDeg (s / 2) := by
      have := hx _ (List.getElem_mem hi)
      rw [h.at_ i hi, hr i hi] at this
      simp only [circ] at this
      have := le_of_mul_le_mul_left (by linarith : r * cosDeg (a + k * s) ≤ r * cosDeg (a + i * s)) hr0
      have e := cosDeg_add (a + i * s - 180) 180
      rw [sub_add_cancel, cosDeg_180, sinDeg_180] at e
      linarith
    have hu := cosDeg_sq_add (a + k * s)
    rcases hy with hy | hy
    · obtain ⟨i, hi, hi'⟩ := h.near hs (by linarith) hL 270
      have c2 : sinDeg (a + k * s) ≤ - cosDeg (s / 2) := by
        have := hy _ (List.getElem_mem hi)
        rw [h.at_ i hi, hr i hi] at this
        simp only [circ] at this
        have := le_of_mul_le_mul_left (by linarith : r * sinDeg (a + k * s) ≤ r * sinDeg (a + i * s)) hr0
        have e := sinDeg_add (a + i * s - 270) 270
        rw [sub_add_cancel, cosDeg_270, sinDeg_270] at e
        linarith
      nlinarith
    · obtain ⟨i, hi, hi'⟩ := h.near hs (by linarith) hL 90
      have c2 : cosDeg (s / 2) ≤ sinDeg (a + k * s) := by
        have := hy _ (List.getElem_mem hi)
        rw [h.at_ i hi, hr i hi] at this
        simp only [circ] at this
        have := le_of_mul_le_mul_left (by linarith : r * sinDeg (a + i * s) ≤ r * sinDeg (a + k * s)) hr0
        have e := sinDeg_add (a + i * s - 90) 90
        rw [sub_add_cancel, cosDeg_90, sinDeg_90] at e
        linarith
      nlinarith
  intro lo hi le ri hlo hhi hle _
  obtain ⟨b, t, hb, hmin, -⟩ := hle
  have hmem : le ∈ L := by rw [hb]; simp
  refine ⟨?_, ?_⟩
  · rintro rfl
    obtain ⟨-, -, -, hm, -⟩ := hlo
    exact key le le hmem hmin (.inl hm)
  · rintro ⟨rfl, -⟩
    obtain ⟨-, -, -, hm, -⟩ := hhi
    exact key le le hmem hmin (.inr fun u hu => by have := hm u hu; linarith)

/-- Equal radii: everything at once, without sign conditions. -/
theorem IsRadial.convex' (h : IsRadial c ρ a s L) {r : ℝ} (hr : ∀ i < L.length, ρ i = r) (hr0 : r ≠ 0) (hs : 0 < s) (hs' : s < 360)
    (hL : 0 < L.length) : Convex L := by
  rcases lt_or_gt_of_ne hr0 with h0 | h0
  · exact h.neg.convex (fun i hi => by rw [hr i hi]) (by linarith) hs hs' hL
  · exact h.convex hr h0 hs hs' hL

theorem IsRadial.clear' (h : IsRadial c ρ a s L) {r : ℝ} (hr : ∀ i < L.length, ρ i = r) (hr0 : r ≠ 0) (hs : 0 < s) (hs' : s < 90)
    (hL : 0 < L.length) : Clear L := by
  rcases lt_or_gt_of_ne hr0 with h0 | h0
  · exact h.neg.clear (fun i hi => by rw [hr i hi]) (by linarith) hs hs' hL
  · exact h.clear hr h0 hs hs' hL

/-- Radii of one sign. -/
theorem IsRadial.simple' (h : IsRadial c ρ a s L) (hs : 0 < s) (hs' : s < 180)
    (hρ : (∀ i < L.length, 0 < ρ i) ∨ (∀ i < L.length, ρ i < 0)) : ¬ SelfTouching L ∧ L.Nodup := by
  rcases hρ with hρ | hρ
  · exact ⟨h.not_touching hs hs' hρ, h.nodup hs hρ⟩
  · have hρ' : ∀ i < L.length, 0 < - ρ i := fun i hi => by have := hρ i hi; linarith
    exact ⟨h.neg.not_touching hs hs' hρ', h.neg.nodup hs hρ'⟩

/-- **C59** a regular polygon (with a radius other than 0) is what its flags say: convex and simple, with distinct
vertices. -/
theorem C59_regular_shape (n : ℕ) (hn : 3 ≤ n) (r : ℝ) (hr : r ≠ 0) (c : Vec2 ℝ) (a : ℝ) :
    ∃ s, Polygon.regular (n : ℤ) r c a = .ok s ∧ s.isConvex.1 = true ∧ s.isSimple.1 = true ∧
      Convex s.verts ∧ ¬ SelfTouching s.verts ∧ s.verts.Nodup := by
  obtain ⟨s, hs, -, -, h1, h2, -⟩ := C59_regular n hn r c a
  obtain ⟨s', q, hs', hq, he, hv⟩ := regular_eq n hn r c a
  rw [hs] at hs'
  injection hs' with hs'
  subst hs'
  have hsv : s.verts = regularVerts (360 / (n : ℝ)) r c n a := by rw [he]; exact hv
  have hR := regular_radial n (by omega) r c a
  have hn' : (3 : ℝ) ≤ n := by exact_mod_cast hn
  have hs0 : (0 : ℝ) < 360 / n := by positivity
  have hs1 : (360 : ℝ) / n < 180 := by rw [div_lt_iff₀ (by linarith)]; linarith
  have hl := regularVerts_length (360 / (n : ℝ)) r c n a
  refine ⟨s, hs, h1, h2, ?_, ?_⟩
  · rw [hsv]; exact hR.convex' (fun _ _ => rfl) hr hs0 (by linarith) (by omega)
  · rw [hsv]; exact hR.simple' hs0 hs1 ((lt_or_gt_of_ne hr).symm.imp (fun h _ _ => h) fun h _ _ => h)

/-- **C59** a star with radii of the same sign is simple, as declared, with distinct vertices; with equal radii it is
also convex, as declared. -/
theorem C59_star_shape (n : ℕ) (hn : 2 ≤ n) (r1 r2 : ℝ) (hr : 0 < r1 * r2) (c : Vec2 ℝ) (a : ℝ) :
    ∃ s, Polygon.star (n : ℤ) r1 r2 c a = .ok s ∧ s.isSimple.1 = true ∧ ¬ SelfTouching s.verts ∧ s.verts.Nodup ∧
      s.isConvex.1 = decide (r1 = r2) ∧ (r1 = r2 → Convex s.verts) := by
  obtain ⟨s, hs, hsv, hcen, hmax, hcv, hsm, -⟩ := star_eq n hn r1 r2 c a
  have hR := star_radial n (by omega) r1 r2 c a
  have hn' : (2 : ℝ) ≤ n := by exact_mod_cast hn
  have hs0 : (0 : ℝ) < 180 / n := by positivity
  have hs1 : (180 : ℝ) / n < 180 := by rw [div_lt_iff₀ (by linarith)]; linarith
  have hl := starVerts_length (180 / (n : ℝ)) r1 r2 c n a
  have hiff : 0 < r1 ↔ 0 < r2 := by
    rcases mul_pos_iff.mp hr with h | h
    · exact ⟨fun _ => h.2, fun _ => h.1⟩
    · exact ⟨fun h' => absurd h' (not_lt.mpr h.1.le), fun h' => absurd h' (not_lt.mpr h.2.le)⟩
  rw [if_pos hiff] at hsm
  obtain ⟨h1, h2⟩ := hR.simple' hs0 hs1 ((mul_pos_iff.mp hr).imp
    (fun h i _ => by split; exacts [h.1, h.2]) (fun h i _ => by split; exacts [h.1, h.2]))
  refine ⟨s, hs, ?_, by rwa [hsv], by rwa [hsv], ?_, ?_⟩
  · unfold Polygon.isSimple; simp [hsm]
  · unfold Polygon.isConvex; rw [hcv]
  · rintro rfl
    rw [hsv]
    refine hR.convex' (r := r1) (fun i _ => by simp) ?_ hs0 (by linarith) (by omega)
    rintro rfl; simp at hr

/-- **C59** `is_convex` of a star with different radii is always False, even if the star is convex: every star with two
peaks is a rhombus. -/
theorem C59_star_convex_violated (r1 r2 : ℝ) (h1 : 0 < r1) (h2 : 0 < r2) (hne : r1 ≠ r2) :
    ∃ s, Polygon.star 2 r1 r2 (⟨0, 0⟩ : Vec2 ℝ) 0 = .ok s ∧ s.isConvex.1 = false ∧ Convex s.verts ∧
      s.verts = [⟨r1, 0⟩, ⟨0, r2⟩, ⟨-r1, 0⟩, ⟨0, -r2⟩] := by
  obtain ⟨s, hs, hsv, hcen, hmax, hcv, hsm, -⟩ := star_eq 2 le_rfl r1 r2 ⟨0, 0⟩ 0
  have hv : s.verts = [⟨r1, 0⟩, ⟨0, r2⟩, ⟨-r1, 0⟩, ⟨0, -r2⟩] := by
    rw [hsv]
    apply List.ext_getElem
    · rw [starVerts_length]; rfl
    · intro i hi hi'
      rw [starVerts_get]
      rw [starVerts_length] at hi
      have e : ((2 : ℕ) : ℝ) = 2 := by norm_num
      rw [e]
      interval_cases i
      · have : (0 : ℝ) + ((0 : ℕ) : ℝ) * (180 / 2) = 0 := by norm_num
        rw [this]; simp only [circ, cosDeg_0, sinDeg_0, List.getElem_cons_zero]; apply Vec2.ext <;> norm_num
      · have : (0 : ℝ) + ((1 : ℕ) : ℝ) * (180 / 2) = 90 := by norm_num
        rw [this]; simp only [circ, cosDeg_90, sinDeg_90, List.getElem_cons_zero, List.getElem_cons_succ]; apply Vec2.ext <;> norm_num
      · have : (0 : ℝ) + ((2 : ℕ) : ℝ) * (180 / 2) = 180 := by norm_num
        rw [this]; simp only [circ, cosDeg_180, sinDeg_180, List.getElem_cons_zero, List.getElem_cons_succ]; apply Vec2.ext <;> norm_num
      · have : (0 : ℝ) + ((3 : ℕ) : ℝ) * (180 / 2) = 270 := by norm_num
        rw [this]; simp only [circ, cosDeg_270, sinDeg_270, List.getElem_cons_zero, List.getElem_cons_succ]; apply Vec2.ext <;> norm_num
  refine ⟨s, hs, ?_, ?_, hv⟩
  · unfold Polygon.isConvex; rw [hcv]; simp [hne]
  · rw [hv]
    have h12 : 0 < r1 * r2 := mul_pos h1 h2
    refine ⟨.inl ?_, [(⟨-r1, 0⟩, ⟨0, -r2⟩), (⟨0, -r2⟩, ⟨r1, 0⟩)], [(⟨r1, 0⟩, ⟨0, r2⟩), (⟨0, r2⟩, ⟨-r1, 0⟩)], ⟨3, ?_⟩, ?_, ?_⟩
    · simp only [edges, edgesFrom, List.getLast?_cons_cons, List.getLast?_singleton]
      intro e he v hv
      simp only [List.mem_cons, List.not_mem_nil, or_false] at he hv
      rcases he with rfl | rfl | rfl | rfl <;> rcases hv with rfl | rfl | rfl | rfl <;> simp only [side] <;> nlinarith
    · rfl
    · intro e he
      simp only [List.mem_cons, List.not_mem_nil, or_false] at he
      rcases he with rfl | rfl <;> left <;> simpa
    · intro e he
      simp only [List.mem_cons, List.not_mem_nil, or_false] at he
      rcases he with rfl | rfl <;> left <;> simpa

/-- **C59** a star with one radius 0 and the other negative is declared simple, although every second vertex is the
centre. -/
theorem C59_star_simple_violated (n : ℕ) (hn : 2 ≤ n) (r2 : ℝ) (h2 : r2 < 0) (c : Vec2 ℝ) (a : ℝ) :
    ∃ s, Polygon.star (n : ℤ) 0 r2 c a = .ok s ∧ s.isSimple.1 = true ∧ SelfTouching s.verts := by
  obtain ⟨s, hs, hsv, hcen, hmax, hcv, hsm, -⟩ := star_eq n hn 0 r2 c a
  rw [if_pos ⟨fun h => absurd h (lt_irrefl _), fun h => absurd h (not_lt.mpr h2.le)⟩] at hsm
  have hR := star_radial n (by omega) 0 r2 c a
  have hl := starVerts_length (180 / (n : ℝ)) 0 r2 c n a
  have hc0 : ∀ θ, circ c 0 θ = c := fun θ => by unfold circ; apply Vec2.ext <;> simp
  refine ⟨s, hs, by unfold Polygon.isSimple; simp [hsm], ?_⟩
  rw [hsv]
  have e1 := hR.edge_at 1 (by omega)
  have e3 := hR.edge_at 3 (by omega)
  rw [hl] at e1 e3
  have m1 : (1 + (2 * n - 1)) % (2 * n) = 0 := by rw [show 1 + (2 * n - 1) = 2 * n by omega, Nat.mod_self]
  have m3 : (3 + (2 * n - 1)) % (2 * n) = 2 := by
    rw [show 3 + (2 * n - 1) = 2 + 2 * n by omega, Nat.add_mod_right, Nat.mod_eq_of_lt (by omega)]
  simp only [m1, m3, if_true, Nat.mod_self, Nat.zero_mod, hc0] at e1 e3
  refine ⟨_, _, c, ⟨1, 3, by omega, by omega, e1, e3⟩, ⟨0, le_rfl, zero_le_one, ?_, ?_⟩, ⟨0, le_rfl, zero_le_one, ?_, ?_⟩⟩ <;> simp

/-- What `contains_point` does between the two radii. -/
theorem contains_between {eps : ℝ} {s : Polygon ℝ} (h : 4 ≤ s.verts.length) {c : Vec2 ℝ} (hc : s.centroid = some (some c)) (pt : PyPoint ℝ)
    (h1 : 4 < s.verts.length → ∀ r, s.minR2 = some r → r ≤ d2 pt.toVec c)
    (h2 : 4 < s.verts.length → ∀ r, s.maxR2 = some r → d2 pt.toVec c ≤ r) :
    (∀ pls, s.yPolylines = some pls → (s.containsPoint eps pt).1 = pnpYMonotone pls pt.toVec) ∧
    (s.yPolylines = none → s.bbox = none → (s.containsPoint eps pt).1 = .ok (winding s.verts pt.toVec != 0)) := by
  have a1 : 4 < s.verts.length → s.minR2 = none ∨ ∃ r, s.minR2 = some r ∧ ¬ d2 pt.toVec c < r := by
    intro h
    rcases hm : s.minR2 with _ | r
    · exact .inl rfl
    · exact .inr ⟨r, rfl, not_lt.mpr (h1 h r hm)⟩
  have a2 : 4 < s.verts.length → s.maxR2 = none ∨ ∃ r, s.maxR2 = some r ∧ ¬ r < d2 pt.toVec c := by
    intro h
    rcases hm : s.maxR2 with _ | r
    · exact .inl rfl
    · exact .inr ⟨r, rfl, not_lt.mpr (h2 h r hm)⟩
  clear h1 h2
  constructor
  · intro pls hp
    unfold Polygon.containsPoint
    simp only [show ¬ s.verts.length = 3 by omega, if_false, hc, length2_sub, hp]
    by_cases h5 : 4 < s.verts.length
    · rcases a1 h5 with hm | ⟨r, hm, k1⟩ <;> rcases a2 h5 with hM | ⟨r', hM, k2⟩ <;> simp [*]
    · simp only [gt_iff_lt, h5, if_false]
  · intro hp hb
    rw [← C48_winding eps s.verts h pt]
    unfold Polygon.containsPoint
    simp only [Polygon.fromPoints, Polygon.cleared, Polygon.boundingBox, show ¬ s.verts.length = 3 by omega, if_false, hc, length2_sub, hp, hb]
    by_cases h5 : 4 < s.verts.length
    · have h4 : ¬ s.verts.length = 4 := by omega
      rcases hB : Box.fromPoints s.verts with e | b
      · rcases a1 h5 with hm | ⟨r, hm, k1⟩ <;> rcases a2 h5 with hM | ⟨r', hM, k2⟩ <;> simp [*]
      · by_cases hb : b.containsPoint pt.toVec = true <;>
        rcases a1 h5 with hm | ⟨r, hm, k1⟩ <;> rcases a2 h5 with hM | ⟨r', hM, k2⟩ <;> simp [*]
    · have h4 : s.verts.length = 4 := by omega
      simp only [h4, gt_iff_lt, lt_irrefl, if_false, if_true]

end Planar
