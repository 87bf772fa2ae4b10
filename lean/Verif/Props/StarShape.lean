import Verif.Props.Square
/- C53, C59: exactly which stars are convex, and for which the shortcuts of `contains_point` are right. -/
set_option linter.unusedSectionVars false
namespace Planar
open Spec Polygon

variable {c : Vec2 ℝ} {ρ : ℕ → ℝ} {a s : ℝ} {L : List (Vec2 ℝ)}

/-- A closed path whose edge directions turn monotonically and once goes around once. -/
theorem once_of_angles {L : List (Vec2 ℝ)} (hL : 0 < L.length) (Θ R : ℤ → ℝ) (hmono : ∀ k, Θ k ≤ Θ (k + 1))
    (hper : ∀ k, Θ (k + L.length) = Θ k + 360) (hR : ∀ k, 0 < R k)
    (hedge : ∀ (k : ℤ) (i : ℕ), (i : ℤ) = k % L.length → ∃ e, (edges L)[i]? = some e ∧
      e.2.x - e.1.x = R k * cosDeg (Θ k) ∧ e.2.y - e.1.y = R k * sinDeg (Θ k)) : OnceAround L := by
  have hL' : (0 : ℤ) < L.length := by exact_mod_cast hL
  have hperZ : ∀ (z : ℤ) k, Θ (k + L.length * z) = Θ k + 360 * z := by
    intro z
    induction z using Int.induction_on with
    | zero => intro k; simp
    | succ z ih => intro k; rw [mul_add, mul_one, ← add_assoc, hper, ih]; push_cast; ring
    | pred z ih =>
      intro k
      have := hper (k + L.length * (-z - 1))
      rw [show k + (L.length : ℤ) * (-z - 1) + L.length = k + L.length * -z by ring, ih] at this
      push_cast at this ⊢; linarith
  have hmono' : ∀ (d : ℕ) k, Θ k ≤ Θ (k + d) := by
    intro d
    induction d with
    | zero => intro k; simp
    | succ d ih => intro k; refine (ih k).trans ?_; have := hmono (k + d); push_cast; rwa [← add_assoc]
  -- a first direction after -90 degrees
  obtain ⟨k, hk1, hk2⟩ : ∃ k : ℤ, -90 < Θ k ∧ Θ (k - 1) ≤ -90 := by
    obtain ⟨z1, hz1⟩ := exists_int_gt ((-90 - Θ 0) / 360)
    obtain ⟨z0, hz0⟩ := exists_int_lt ((-90 - Θ 0) / 360)
    have e1 := hperZ z1 0
    have e0 := hperZ z0 0
    rw [zero_add] at e1 e0
    have g1 : -90 < Θ (L.length * z1) := by rw [e1]; rw [div_lt_iff₀ (by norm_num)] at hz1; linarith
    have g0 : Θ (L.length * z0) ≤ -90 := by rw [e0]; rw [lt_div_iff₀ (by norm_num)] at hz0; linarith
    have hle : (L.length : ℤ) * z0 ≤ L.length * z1 := by
      by_contra hc
      push Not at hc
      obtain ⟨d, hd⟩ := Int.eq_ofNat_of_zero_le (sub_nonneg.mpr hc.le)
      have := hmono' d (L.length * z1)
      rw [show (L.length : ℤ) * z1 + d = L.length * z0 by rw [← hd]; ring] at this
      linarith
    obtain ⟨D, hD⟩ := Int.eq_ofNat_of_zero_le (sub_nonneg.mpr hle)
    have hex : ∃ d : ℕ, -90 < Θ (L.length * z0 + d) := ⟨D, by rw [show (L.length : ℤ) * z0 + D = L.length * z1 by rw [← hD]; ring]; exact g1⟩
    classical
    have f1 := Nat.find_spec hex
    have f2 := fun i (hi : i < Nat.find hex) => Nat.find_min hex hi
    generalize Nat.find hex = d at f1 f2
    cases d with
    | zero => simp only [Nat.cast_zero, add_zero] at f1; linarith
    | succ d =>
      refine ⟨_, f1, ?_⟩
      have := not_lt.mp (f2 d (by omega))
      rwa [show (L.length : ℤ) * z0 + (d + 1 : ℕ) - 1 = L.length * z0 + d by push_cast; ring]
  have hk3 : Θ (k - 1 + L.length) = Θ (k - 1) + 360 := hper _
  have hex : ∃ m : ℕ, 90 < Θ (k + m) := ⟨L.length, by rw [hper]; linarith⟩
  classical
  have hm1 := Nat.find_spec hex
  have hm2 := fun i (hi : i < Nat.find hex) => Nat.find_min hex hi
  generalize Nat.find hex = m at hm1 hm2
  have hkm := Int.emod_nonneg k hL'.ne'
  have hidx : ∀ i : ℕ, i < L.length → ∀ e, ((edges L).rotate (k % L.length).toNat)[i]? = some e →
      e.2.x - e.1.x = R (k + i) * cosDeg (Θ (k + i)) ∧ e.2.y - e.1.y = R (k + i) * sinDeg (Θ (k + i)) := by
    intro i hi e he
    rw [List.getElem?_rotate (by rwa [edges_length]), edges_length] at he
    obtain ⟨e', he', h1, h2⟩ := hedge (k + i) ((i + (k % L.length).toNat) % L.length) (by
      rw [Int.natCast_mod, Nat.cast_add, Int.toNat_of_nonneg hkm, Int.add_emod_emod, add_comm])
    rw [he, Option.some.injEq] at he'
    subst he'
    exact ⟨h1, h2⟩
  have hlen : ((edges L).rotate (k % L.length).toNat).length = L.length := by rw [List.length_rotate, edges_length]
  refine ⟨((edges L).rotate (k % L.length).toNat).take m, ((edges L).rotate (k % L.length).toNat).drop m, ?_, ?_, ?_⟩
  · rw [List.take_append_drop]
    exact ⟨_, rfl⟩
  · intro e he
    obtain ⟨i, hi, rfl⟩ := List.getElem_of_mem he
    rw [List.length_take, hlen] at hi
    rw [List.getElem_take]
    obtain ⟨h1, h2⟩ := hidx i (by omega) _ (List.getElem?_eq_getElem (by omega))
    have := not_lt.mp (hm2 i (by omega))
    have hlow := hmono' i k
    unfold LexLe
    rcases dir_there (θ := Θ (k + i)) (by linarith) this with h | ⟨h, h'⟩
    · left; have := mul_pos (hR (k + i)) h; linarith
    · right; rw [h] at h1; have := mul_nonneg (hR (k + i)).le h'; constructor <;> linarith
  · intro e he
    obtain ⟨i, hi, rfl⟩ := List.getElem_of_mem he
    rw [List.length_drop, hlen] at hi
    rw [List.getElem_drop]
    obtain ⟨h1, h2⟩ := hidx (m + i) (by omega) _ (List.getElem?_eq_getElem (by omega))
    have g1 := hmono' i (k + m)
    rw [show k + (m : ℤ) + i = k + (m + i : ℕ) by push_cast; ring] at g1
    have g2 := hmono' (L.length - 1 - (m + i)) (k + (m + i : ℕ))
    rw [show k + ((m + i : ℕ) : ℤ) + (L.length - 1 - (m + i) : ℕ) = k - 1 + L.length by
      rw [Nat.cast_sub (by omega), Nat.cast_sub (by omega)]; push_cast; ring] at g2
    unfold LexLe
    rcases dir_back (θ := Θ (k + (m + i : ℕ))) (by linarith) (by linarith) with h | ⟨h, h'⟩
    · left; have := mul_neg_of_pos_of_neg (hR (k + (m + i : ℕ))) h; linarith
    · right; rw [h] at h1; have := mul_nonpos_of_nonneg_of_nonpos (hR (k + (m + i : ℕ))).le h'; constructor <;> linarith

theorem blunt_key {x y s u : ℝ} (hx : 0 < x) (hy : 0 < y) (h1 : x * cosDeg s ≤ y) (h2 : y * cosDeg s ≤ x) (hs : 0 < s)
    (hu : 0 ≤ u) (hus : u + s ≤ 180) : x * cosDeg (u + s) ≤ y * cosDeg u := by
  have p1 := sinDeg_nonneg (θ := u) hu (by linarith)
  have p2 := sinDeg_nonneg (θ := s) hs.le (by linarith)
  have p3 := sinDeg_nonneg (θ := u + s) (by linarith) hus
  rcases le_or_gt 0 (cosDeg u) with hc | hc
  · rw [cosDeg_add]
    have := mul_le_mul_of_nonneg_right h1 hc
    have := mul_nonneg hx.le (mul_nonneg p1 p2)
    nlinarith
  · have hv : cosDeg (u + s) ≤ 0 := by
      by_contra hpos
      push Not at hpos
      have : ¬ (u < 90) := fun h => absurd (cosDeg_pos (θ := u) (by linarith) h) (not_lt.mpr hc.le)
      have h90 : 90 ≤ u := not_lt.mp this
      have := cosDeg_pos (θ := u + s - 180) (by linarith) (by
        by_contra hcc; linarith)
      rw [show u + s = (u + s - 180) + 180 by ring, cosDeg_add, cosDeg_180, sinDeg_180] at hpos
      linarith
    have hcu : cosDeg u = cosDeg (u + s) * cosDeg s + sinDeg (u + s) * sinDeg s := by
      have e := cosDeg_sq_add s
      rw [cosDeg_add, sinDeg_add]
      linear_combination (- cosDeg u) * e
    rw [hcu]
    have := mul_nonneg hy.le (mul_nonneg p3 p2)
    have := mul_le_mul_of_nonpos_right h2 hv
    nlinarith

/-- The triangle of an edge and a vertex of a star, first for a vertex of the radius of the end of the edge, then for one
of the radius of its start. -/
theorem circ_star (c : Vec2 ℝ) (x y β s u : ℝ) :
    side (circ c x (β - s)) (circ c y β) (circ c y (β + 2 * u)) = 2 * y * sinDeg u * (y * cosDeg u - x * cosDeg (u + s)) ∧
    side (circ c x (β - s)) (circ c y β) (circ c x (β + 2 * u + s)) =
      2 * x * sinDeg (u + s) * (y * cosDeg u - x * cosDeg (u + s)) := by
  have h1 : ∀ P Q R : Vec2 ℝ, side P Q R = side c P Q + side c Q R - side c P R := by
    intro P Q R; unfold side; ring
  have u1 := cosDeg_sq_add u
  have u2 := cosDeg_sq_add s
  constructor
  · rw [h1, circ_cross, circ_cross, circ_cross, show β - (β - s) = s by ring, show β + 2 * u - β = u + u by ring,
      show β + 2 * u - (β - s) = (u + u) + s by ring]
    simp only [sinDeg_add, cosDeg_add]
    linear_combination (- x * y * sinDeg s) * u1
  · rw [h1, circ_cross, circ_cross, circ_cross, show β - (β - s) = s by ring, show β + 2 * u + s - β = (u + u) + s by ring,
      show β + 2 * u + s - (β - s) = (u + u) + (s + s) by ring]
    simp only [sinDeg_add, cosDeg_add]
    linear_combination (- x * y * sinDeg s) * u1

/-- Alternating radii. -/
abbrev alt (x y : ℝ) (i : ℕ) : ℝ := if i % 2 = 0 then x else y

theorem IsRadial.star_edge {x y : ℝ} {n : ℕ} (h : IsRadial c (alt x y) a s L) (hl : L.length = 2 * n) (i : ℕ) (hi : i < L.length) :
    (edges L)[i]? = some (circ c (alt y x i) (a + i * s - s), circ c (alt x y i) (a + i * s)) := by
  rw [h.edge_at i hi, hl]
  have : alt x y ((i + (2 * n - 1)) % (2 * n)) = alt y x i := by
    unfold alt
    rw [Nat.mod_mod_of_dvd _ (Dvd.intro _ rfl)]
    rcases Nat.mod_two_eq_zero_or_one i with h | h
    · rw [if_neg (by omega), if_pos h]
    · rw [if_pos (by omega), if_neg (by omega)]
  rw [this]

theorem alt_cases {x y : ℝ} {P : ℝ → ℝ → Prop} (i : ℕ) (h1 : P x y) (h2 : P y x) : P (alt y x i) (alt x y i) := by
  unfold alt
  rcases Nat.mod_two_eq_zero_or_one i with h | h
  · rw [if_pos h, if_pos h]; exact h2
  · rw [if_neg (by omega), if_neg (by omega)]; exact h1

/-- A blunt star has all its vertices on the left of every edge. -/
theorem IsRadial.star_left {x y : ℝ} {n : ℕ} (h : IsRadial c (alt x y) a s L) (hl : L.length = 2 * n) (hn : 0 < n)
    (hx : 0 < x) (hy : 0 < y) (h1 : x * cosDeg s ≤ y) (h2 : y * cosDeg s ≤ x) :
    ∀ e ∈ edges L, ∀ v ∈ L, 0 ≤ side e.1 e.2 v := by
  intro e he v hv
  obtain ⟨i, hi, he⟩ := List.getElem_of_mem he
  obtain ⟨k, hk, rfl⟩ := List.getElem_of_mem hv
  rw [edges_length] at hi
  have he' := h.star_edge hl i hi
  rw [List.getElem?_eq_getElem (by rwa [edges_length]), he, Option.some.injEq] at he'
  subst he'
  rw [h.at_ k hk]
  have hfull := h.full
  rw [hl] at hi hk hfull
  push_cast at hfull
  have hnR : (0 : ℝ) < n := by exact_mod_cast hn
  have hs : 0 < s := by
    by_contra hc
    push Not at hc
    nlinarith
  obtain ⟨m, hm, hpar, hm2⟩ : ∃ m : ℕ, m + 1 ≤ 2 * n ∧ (k + i) % 2 = m % 2 ∧
      ∀ r, circ c r (a + k * s) = circ c r (a + i * s + m * s) := by
    rcases le_or_gt i k with hik | hik
    · refine ⟨k - i, by omega, by omega, fun r => ?_⟩
      rw [Nat.cast_sub hik]; congr 1; ring
    · refine ⟨k + 2 * n - i, by omega, by omega, fun r => ?_⟩
      rw [Nat.cast_sub (by omega), ← circ_turns c r (a + k * s) 1]
      congr 1; push_cast; linear_combination - hfull
  rw [hm2]
  have key := alt_cases (x := x) (y := y)
    (P := fun X Y => 0 < X ∧ 0 < Y ∧ X * cosDeg s ≤ Y ∧ Y * cosDeg s ≤ X) i ⟨hx, hy, h1, h2⟩ ⟨hy, hx, h2, h1⟩
  have hz : alt x y k = if m % 2 = 0 then alt x y i else alt y x i := by
    unfold alt
    rcases Nat.mod_two_eq_zero_or_one i with h | h <;> rcases Nat.mod_two_eq_zero_or_one m with h' | h' <;>
      rcases Nat.mod_two_eq_zero_or_one k with h'' | h'' <;> first | omega | simp [h, h', h'']
  rw [hz]
  generalize alt x y i = Y at *
  generalize alt y x i = X at *
  generalize a + i * s = β at *
  obtain ⟨kX, kY, k1, k2⟩ := key
  obtain ⟨j, hj, hj2⟩ : ∃ j : ℕ, (m = 2 * j ∧ m % 2 = 0 ∨ m = 2 * j + 1 ∧ m % 2 = 1) ∧ j + 1 ≤ n := ⟨m / 2, by omega, by omega⟩
  have hjR : (j : ℝ) + 1 ≤ n := by exact_mod_cast hj2
  have hju : (j : ℝ) * s + s ≤ 180 := by nlinarith
  have hj0 : (0 : ℝ) ≤ j * s := by positivity
  have b := blunt_key kX kY k1 k2 hs hj0 hju
  have q1 := sinDeg_nonneg hj0 (by linarith)
  have q2 := sinDeg_nonneg (θ := j * s + s) (by linarith) hju
  rcases hj with ⟨hj, hp⟩ | ⟨hj, hp⟩
  · rw [if_pos hp, hj, show β + ((2 * j : ℕ) : ℝ) * s = β + 2 * (j * s) by push_cast; ring, (circ_star c X Y β s (j * s)).1]
    exact mul_nonneg (by positivity) (by linarith)
  · rw [if_neg (by omega), hj, show β + ((2 * j + 1 : ℕ) : ℝ) * s = β + 2 * (j * s) + s by push_cast; ring,
      (circ_star c X Y β s (j * s)).2]
    exact mul_nonneg (by positivity) (by linarith)

/-- Polar coordinates in the first quadrant. -/
theorem polar_quadrant {P Q : ℝ} (hP : 0 ≤ P) (hQ : 0 < Q) :
    ∃ α R : ℝ, 0 ≤ α ∧ α ≤ 90 ∧ 0 < R ∧ P = R * cosDeg α ∧ Q = R * sinDeg α := by
  have hp := Real.pi_pos
  let z : ℂ := ⟨P, Q⟩
  have hz : z ≠ 0 := fun h => by
    have := congrArg Complex.im h
    simp [z] at this; linarith
  have e : z.arg * (180 / Real.pi) * (Real.pi / 180) = z.arg := by field_simp
  refine ⟨z.arg * (180 / Real.pi), ‖z‖, ?_, ?_, norm_pos_iff.mpr hz, ?_, ?_⟩
  · have : 0 ≤ z.arg := Complex.arg_nonneg_iff.mpr hQ.le
    positivity
  · have : |z.arg| ≤ Real.pi / 2 := Complex.abs_arg_le_pi_div_two_iff.mpr hP
    have := (abs_le.mp this).2
    rw [mul_div_assoc', div_le_iff₀ hp]; linarith
  · unfold cosDeg; rw [e, Complex.norm_mul_cos_arg]
  · unfold sinDeg; rw [e, Complex.norm_mul_sin_arg]

theorem turns_deg (θ : ℝ) (z : ℤ) : cosDeg (θ + 360 * z) = cosDeg θ ∧ sinDeg (θ + 360 * z) = sinDeg θ := by
  have := circ_turns ⟨0, 0⟩ 1 θ z
  simp only [circ, Vec2.mk.injEq, zero_add, one_mul] at this
  exact this

/-- A blunt star goes around once. -/
theorem IsRadial.star_once {x y : ℝ} {n : ℕ} (h : IsRadial c (alt x y) a s L) (hl : L.length = 2 * n) (hn : 2 ≤ n)
    (hx : 0 < x) (hy : 0 < y) (h1 : x * cosDeg s ≤ y) (h2 : y * cosDeg s ≤ x) : OnceAround L := by
  have hfull := h.full
  rw [hl] at hfull
  push_cast at hfull
  have hnR : (2 : ℝ) ≤ n := by exact_mod_cast hn
  have hs : 0 < s := by
    by_contra hc
    push Not at hc
    nlinarith
  have hs90 : s ≤ 90 := by nlinarith
  have hsin := sinDeg_pos hs (by linarith)
  obtain ⟨α1, R1, a1, b1, p1, c1, d1⟩ := polar_quadrant (P := x - y * cosDeg s) (Q := y * sinDeg s) (by linarith) (by positivity)
  obtain ⟨α2, R2, a2, b2, p2, c2, d2⟩ := polar_quadrant (P := y - x * cosDeg s) (Q := x * sinDeg s) (by linarith) (by positivity)
  -- the turn at a vertex
  have turn : ∀ {X Y α R α' R' : ℝ}, 0 < X → X * cosDeg s ≤ Y → 0 ≤ α' → α ≤ 90 → α' ≤ 90 → 0 < R → 0 < R' → Y - X * cosDeg s = R * cosDeg α →
      X * sinDeg s = R * sinDeg α → X - Y * cosDeg s = R' * cosDeg α' → Y * sinDeg s = R' * sinDeg α' → α ≤ s + α' := by
    intro X Y α R α' R' hX hXY ha hb hb' hR hR' e1 e2 e3 e4
    by_contra hc
    push Not at hc
    have neg := sinDeg_pos (θ := -(s + α' - α)) (by linarith) (by linarith)
    rw [sinDeg_neg, show s + α' - α = s + α' + -α by ring, sinDeg_add, sinDeg_add, cosDeg_add s, sinDeg_neg,
      show cosDeg (-α) = cosDeg α by unfold cosDeg; rw [neg_mul, Real.cos_neg]] at neg
    have u := cosDeg_sq_add s
    have : R * R' * -((sinDeg s * cosDeg α' + cosDeg s * sinDeg α') * cosDeg α +
        (cosDeg s * cosDeg α' - sinDeg s * sinDeg α') * -sinDeg α) = - (2 * X * sinDeg s * (Y - X * cosDeg s)) := by
      have : R * R' * -((sinDeg s * cosDeg α' + cosDeg s * sinDeg α') * cosDeg α +
        (cosDeg s * cosDeg α' - sinDeg s * sinDeg α') * -sinDeg α) =
        -((sinDeg s * (R' * cosDeg α') + cosDeg s * (R' * sinDeg α')) * (R * cosDeg α) +
        (cosDeg s * (R' * cosDeg α') - sinDeg s * (R' * sinDeg α')) * -(R * sinDeg α)) := by ring
      rw [this, ← e1, ← e2, ← e3, ← e4]
      linear_combination (-(X * sinDeg s * Y)) * u
    have pos := mul_pos (mul_pos hR hR') neg
    rw [this] at pos
    have := mul_nonneg (mul_nonneg (by linarith : (0:ℝ) ≤ 2 * X) hsin.le) (by linarith : 0 ≤ Y - X * cosDeg s)
    linarith
  have t1 : α2 ≤ s + α1 := turn hx h1 a1 b2 b1 p2 p1 c2 d2 c1 d1
  have t2 : α1 ≤ s + α2 := turn hy h2 a2 b1 b2 p1 p2 c1 d1 c2 d2
  refine once_of_angles (by omega) (fun k => a + k * s + if k % 2 = 0 then α1 else α2) (fun k => if k % 2 = 0 then R1 else R2)
    ?_ ?_ ?_ ?_
  · intro k
    rcases Int.emod_two_eq_zero_or_one k with hk | hk
    · rw [if_pos hk, if_neg (by omega)]; push_cast; linarith
    · rw [if_neg (by omega), if_pos (by omega)]; push_cast; linarith
  · intro k
    simp only [hl]
    rw [show (k + ((2 * n : ℕ) : ℤ)) % 2 = k % 2 by push_cast; omega]
    push_cast; linarith
  · intro k; split <;> assumption
  · intro k i hik
    have hi : i < L.length := by
      have := Int.emod_lt_of_pos k (show (0 : ℤ) < L.length by omega)
      omega
    refine ⟨_, h.star_edge hl i hi, ?_⟩
    simp only
    rw [hl] at hik
    have hpar : k % 2 = (i : ℤ) % 2 := by
      rw [hik]; push_cast; exact (Int.emod_emod_of_dvd k (Dvd.intro _ rfl)).symm
    have hk : (k : ℝ) * s = i * s + 360 * ((k / (2 * n : ℕ) : ℤ) : ℝ) := by
      have : (k : ℝ) = (2 * n : ℕ) * ((k / (2 * n : ℕ) : ℤ) : ℝ) + i := by
        have := (Int.mul_ediv_add_emod k (2 * n : ℕ)).symm
        rw [← hik] at this
        exact_mod_cast this
      rw [this]; push_cast; linear_combination ((k / (2 * (n : ℤ)) : ℤ) : ℝ) * hfull
    have fin : ∀ X Y α R : ℝ, Y - X * cosDeg s = R * cosDeg α → X * sinDeg s = R * sinDeg α →
        (circ c Y (a + i * s)).x - (circ c X (a + i * s - s)).x = R * cosDeg (a + k * s + α) ∧
        (circ c Y (a + i * s)).y - (circ c X (a + i * s - s)).y = R * sinDeg (a + k * s + α) := by
      intro X Y α R e1 e2
      obtain ⟨g1, g2⟩ := turns_deg (a + i * s + α) (k / (2 * n : ℕ))
      rw [show a + k * s + α = a + i * s + α + 360 * ((k / (2 * n : ℕ) : ℤ) : ℝ) by rw [hk]; ring, g1, g2]
      simp only [circ]
      have hm : cosDeg (-s) = cosDeg s := by unfold cosDeg; rw [neg_mul, Real.cos_neg]
      rw [show a + i * s - s = a + i * s + -s by ring, cosDeg_add _ (-s), sinDeg_add _ (-s), hm, sinDeg_neg, cosDeg_add _ α, sinDeg_add _ α]
      constructor
      · linear_combination cosDeg (a + i * s) * e1 - sinDeg (a + i * s) * e2
      · linear_combination sinDeg (a + i * s) * e1 + cosDeg (a + i * s) * e2
    rcases Int.emod_two_eq_zero_or_one k with hk | hk
    · simp only [alt]
      rw [if_pos hk, if_pos hk, if_pos (by omega), if_pos (by omega)]
      exact fin _ _ _ _ c1 d1
    · simp only [alt]
      rw [if_neg (by omega), if_neg (by omega), if_neg (by omega), if_neg (by omega)]
      exact fin _ _ _ _ c2 d2

/-- The turn at a vertex of a star. -/
theorem IsRadial.star_turn {x y : ℝ} {n : ℕ} (h : IsRadial c (alt x y) a s L) (hl : L.length = 2 * n) (i : ℕ) (hi : i + 1 < L.length) :
    ∃ e ∈ edges L, ∃ v ∈ L, side e.1 e.2 v = 2 * alt y x i * sinDeg s * (alt x y i - alt y x i * cosDeg s) := by
  have he := h.star_edge hl i (by omega)
  refine ⟨_, List.mem_of_getElem? he, L[i + 1], List.getElem_mem hi, ?_⟩
  rw [h.at_ (i + 1) hi]
  have : alt x y (i + 1) = alt y x i := by
    unfold alt
    rcases Nat.mod_two_eq_zero_or_one i with h | h
    · rw [if_neg (by omega), if_pos h]
    · rw [if_pos (by omega), if_neg (by omega)]
  have := (circ_star c (alt y x i) (alt x y i) (a + i * s) s 0).2
  rw [mul_zero, add_zero, zero_add, cosDeg_0, mul_one] at this
  rw [‹alt x y (i + 1) = _›, show a + ((i + 1 : ℕ) : ℝ) * s = a + i * s + s by push_cast; ring]
  exact this

theorem IsRadial.star_convex {x y : ℝ} {n : ℕ} (h : IsRadial c (alt x y) a s L) (hl : L.length = 2 * n) (hn : 2 ≤ n)
    (hx : 0 < x) (hy : 0 < y) : Convex L ↔ x * cosDeg s ≤ y ∧ y * cosDeg s ≤ x := by
  constructor
  · intro hc
    have hfull := h.full
    rw [hl] at hfull
    push_cast at hfull
    have hnR : (2 : ℝ) ≤ n := by exact_mod_cast hn
    have hs : 0 < s := by
      by_contra hc
      push Not at hc
      nlinarith
    have hs90 : s ≤ 90 := by nlinarith
    have hsin := sinDeg_pos hs (by linarith)
    have hc1 := cosDeg_le_one s
    obtain ⟨e1, he1, v1, hv1, g1⟩ := h.star_turn hl 1 (by omega)
    obtain ⟨e2, he2, v2, hv2, g2⟩ := h.star_turn hl 2 (by omega)
    simp only [alt] at g1 g2
    norm_num at g1 g2
    have key : ∀ {X Y : ℝ}, 0 < X → 0 < Y → Y < X * cosDeg s →
        2 * X * sinDeg s * (Y - X * cosDeg s) < 0 ∧ 0 < 2 * Y * sinDeg s * (X - Y * cosDeg s) := by
      intro X Y hX hY hlt
      constructor
      · exact mul_neg_of_pos_of_neg (by positivity) (by linarith)
      · refine mul_pos (by positivity) ?_
        nlinarith
    by_contra hno
    rw [not_and_or, not_le, not_le] at hno
    rcases hno with hno | hno
    · obtain ⟨k1, k2⟩ := key hx hy hno
      rcases hc.1 with hL | hR
      · have := hL e1 he1 v1 hv1; linarith
      · have := hR e2 he2 v2 hv2; linarith
    · obtain ⟨k1, k2⟩ := key hy hx hno
      rcases hc.1 with hL | hR
      · have := hL e2 he2 v2 hv2; linarith
      · have := hR e1 he1 v1 hv1; linarith
  · rintro ⟨h1, h2⟩
    exact ⟨.inl (h.star_left hl (by omega) hx hy h1 h2), h.star_once hl hn hx hy h1 h2⟩

theorem star_abs (n : ℕ) (hn : 0 < n) {r1 r2 : ℝ} (hr : 0 < r1 * r2) (c : Vec2 ℝ) (a : ℝ) :
    0 < |r1| ∧ 0 < |r2| ∧ ∃ a', IsRadial c (alt |r1| |r2|) a' (180 / (n : ℝ)) (starVerts (180 / (n : ℝ)) r1 r2 c n a) := by
  have hR := star_radial n hn r1 r2 c a
  rcases mul_pos_iff.mp hr with ⟨h1, h2⟩ | ⟨h1, h2⟩
  · rw [abs_of_pos h1, abs_of_pos h2]
    exact ⟨h1, h2, a, hR⟩
  · rw [abs_of_neg h1, abs_of_neg h2]
    refine ⟨by linarith, by linarith, a + 180, ?_⟩
    have := hR.neg
    have e : (fun i : ℕ => -(if i % 2 = 0 then r1 else r2)) = alt (-r1) (-r2) := by
      funext i; unfold alt; split <;> rfl
    rwa [e] at this

theorem blunt_iff {x y k : ℝ} (hx : 0 < x) (hy : 0 < y) (hk : k ≤ 1) : max x y * k ≤ min x y ↔ x * k ≤ y ∧ y * k ≤ x := by
  rcases le_total x y with h | h
  · rw [max_eq_right h, min_eq_left h]
    exact ⟨fun h' => ⟨by nlinarith, h'⟩, fun h' => h'.2⟩
  · rw [max_eq_left h, min_eq_right h]
    exact ⟨fun h' => ⟨h', by nlinarith⟩, fun h' => h'.1⟩

/-- **C59** exactly which stars with radii of the same sign are convex: the blunt ones, whose smaller radius is at least
`cos(180°/n)` times the larger; `is_convex` tells only whether the radii are equal. -/
theorem C59_star_convex_iff (n : ℕ) (hn : 2 ≤ n) (r1 r2 : ℝ) (hr : 0 < r1 * r2) (c : Vec2 ℝ) (a : ℝ) :
    ∃ s, Polygon.star (n : ℤ) r1 r2 c a = .ok s ∧ s.isConvex.1 = decide (r1 = r2) ∧
      (Convex s.verts ↔ max |r1| |r2| * cosDeg (180 / n) ≤ min |r1| |r2|) := by
  obtain ⟨s, hs, -, -, -, hcv, -⟩ := C59_star_shape n hn r1 r2 hr c a
  obtain ⟨s', hs', hsv, -⟩ := star_eq n hn r1 r2 c a
  rw [hs] at hs'
  injection hs' with hs'
  subst hs'
  refine ⟨s, hs, hcv, ?_⟩
  obtain ⟨h1, h2, a', hR⟩ := star_abs n (by omega) hr c a
  rw [hsv, hR.star_convex (starVerts_length _ _ _ _ _ _) hn h1 h2, blunt_iff h1 h2 (cosDeg_le_one _)]

/-- A point outside a strictly blunt star that is nearer to the centre than all its vertices. -/
theorem IsRadial.star_bad {x y : ℝ} {n : ℕ} (h : IsRadial c (alt x y) a s L) (hl : L.length = 2 * n) (hn : 2 ≤ n)
    (hx : 0 < x) (hy : 0 < y) (h1 : x * cosDeg s < y) (h2 : y * cosDeg s < x) :
    ∃ p : Vec2 ℝ, d2 p c < min x y * min x y ∧ winding L p = 0 := by
  have hfull := h.full
  rw [hl] at hfull
  push_cast at hfull
  have hnR : (2 : ℝ) ≤ n := by exact_mod_cast hn
  have hs : 0 < s := by
    by_contra hc
    push Not at hc
    nlinarith
  have hs90 : s ≤ 90 := by nlinarith
  have hsin := sinDeg_pos hs (by linarith)
  have u := cosDeg_sq_add s
  have he := h.star_edge hl 1 (by omega)
  have hleft := h.star_left hl (by omega) hx hy h1.le h2.le _ (List.mem_of_getElem? he)
  simp only [alt] at hleft
  norm_num at hleft
  set A := circ c x a with hA
  set B := circ c y (a + s) with hB
  have hm : 0 < min x y := lt_min hx hy
  -- the squared length of the edge
  have hQ : d2 B A = x * x + y * y - 2 * x * y * cosDeg s := by
    have ua := cosDeg_sq_add a
    simp only [hA, hB, d2, circ, cosDeg_add, sinDeg_add]
    linear_combination (y * y * (cosDeg s * cosDeg s + sinDeg s * sinDeg s) + x * x - 2 * x * y * cosDeg s) * ua + y * y * u
  have hc0 : side A B c = x * y * sinDeg s := by
    have := circ_cross c x y a (a + s)
    rw [show a + s - a = s by ring] at this
    rw [← this, hA, hB]; unfold side; ring
  have hQ0 : 0 < d2 B A := by
    rw [hQ]
    have := mul_pos hy (by linarith : 0 < y - x * cosDeg s)
    have := mul_pos hx (by linarith : 0 < x - y * cosDeg s)
    nlinarith
  -- the distance of the edge from the centre
  have hlt : (x * y * sinDeg s) * (x * y * sinDeg s) < (min x y * min x y) * d2 B A := by
    have hss : sinDeg s * sinDeg s = 1 - cosDeg s * cosDeg s := by linarith
    have e : (x * y * sinDeg s) * (x * y * sinDeg s) = x * x * (y * y) * (1 - cosDeg s * cosDeg s) := by
      rw [← hss]; ring
    rw [e, hQ]
    rcases le_total x y with hxy | hxy
    · rw [min_eq_left hxy]
      have := mul_pos (mul_pos hx hx) (mul_pos (by linarith : 0 < x - y * cosDeg s) (by linarith : 0 < x - y * cosDeg s))
      nlinarith
    · rw [min_eq_right hxy]
      have := mul_pos (mul_pos hy hy) (mul_pos (by linarith : 0 < y - x * cosDeg s) (by linarith : 0 < y - x * cosDeg s))
      nlinarith
  set R := √(d2 B A) with hR
  have hRR : R * R = d2 B A := Real.mul_self_sqrt hQ0.le
  have hR0 : 0 < R := Real.sqrt_pos.mpr hQ0
  set k := x * y * sinDeg s with hk
  have hk0 : 0 < k := by positivity
  have hkR : k < min x y * R := by
    by_contra hc
    push Not at hc
    have := mul_self_le_mul_self (by positivity) hc
    nlinarith
  -- halfway between the edge and the circle
  obtain ⟨w, hw1, hw2⟩ : ∃ w, k < w ∧ w < min x y * R := exists_between hkR
  refine ⟨⟨c.x + w * (B.y - A.y) / (R * R), c.y - w * (B.x - A.x) / (R * R)⟩, ?_, ?_⟩
  · have : d2 (⟨c.x + w * (B.y - A.y) / (R * R), c.y - w * (B.x - A.x) / (R * R)⟩ : Vec2 ℝ) c = w * w * d2 B A / ((R * R) * (R * R)) := by
      simp only [d2]; field_simp; ring
    rw [this, ← hRR, div_lt_iff₀ (by positivity)]
    have := mul_lt_mul'' hw2 hw2 (by linarith) (by linarith)
    have := mul_lt_mul_of_pos_right this (mul_pos hR0 hR0)
    linarith
  · by_contra hne
    have := inHull_halfplane (inHull_of_winding hne) (a := B.y - A.y) (b := -(B.x - A.x))
      (c := (B.y - A.y) * A.x - (B.x - A.x) * A.y) fun v hv => by
        have := hleft v hv
        unfold side at this
        linarith
    simp only at this
    have e : (B.y - A.y) * (c.x + w * (B.y - A.y) / (R * R)) + -(B.x - A.x) * (c.y - w * (B.x - A.x) / (R * R)) -
        ((B.y - A.y) * A.x - (B.x - A.x) * A.y) = w * d2 B A / (R * R) - side A B c := by
      simp only [d2, side]; field_simp; ring
    rw [← hRR, mul_div_cancel_right₀ w (mul_pos hR0 hR0).ne', hc0] at e
    linarith

/-- **C53** with a radius 0 there is nothing to shortcut: the winding rule. -/
theorem C53_star_zero (n : ℕ) (hn : 3 ≤ n) (r1 r2 : ℝ) (c : Vec2 ℝ) (a : ℝ) (s : Polygon ℝ)
    (h : Polygon.star (n : ℤ) r1 r2 c a = .ok s) (hr : r1 * r2 = 0) (hne : r1 ≠ r2) (eps : ℝ) (pt : PyPoint ℝ) :
    (s.containsPoint eps pt).1 = .ok (winding s.verts pt.toVec != 0) := by
  have hout := C53_star_outer n hn r1 r2 c a s h eps pt
  obtain ⟨s', hs, hsv, hcen, hmax, -, -, hyp, hbb, hmin⟩ := star_eq n (by omega) r1 r2 c a
  rw [h] at hs
  injection hs with hs
  subst hs
  have hl := starVerts_length (180 / (n : ℝ)) r1 r2 c n a
  rw [if_neg hne] at hyp
  by_cases hsg : 0 < r1 ↔ 0 < r2
  · rw [if_pos hsg] at hcen
    have hneg : ¬ (0 ≤ r1 ↔ 0 ≤ r2) := by
      rcases mul_eq_zero.mp hr with h0 | h0 <;> subst h0 <;> intro hle
      · have := hle.mp le_rfl
        exact hne (le_antisymm this (not_lt.mp fun h => lt_irrefl _ (hsg.mpr h)))
      · have := hle.mpr le_rfl
        exact hne (le_antisymm (not_lt.mp fun h => lt_irrefl _ (hsg.mp h)) this)
    rw [if_neg hneg] at hmin
    by_cases hd2 : max |r1| |r2| < pt.toVec.distanceTo c
    · obtain ⟨e1, e2⟩ := hout hd2
      rw [e1, e2]; rfl
    refine (contains_between (by rw [hsv, hl]; omega) hcen pt ?_ ?_).2 hyp hbb
    · rintro - r' hr'
      rw [hmin] at hr'; cases hr'
    · rintro - r' hr'
      rw [hmax] at hr'
      simp only [Option.some.injEq] at hr'
      rw [← hr', ← d2_dist]
      nlinarith [dist_nonneg' pt.toVec c]
  · rw [if_neg hsg] at hcen
    exact contains_general (by rw [hsv, hl]; omega) hcen hyp hbb pt

/-- **C53** exactly for which stars with three or more peaks `contains_point` answers by the winding rule at every point:
all but those with different radii of one sign whose smaller radius is more than `cos(180°/n)` times the larger. (Partial
because of these: some point outside them is reported inside.) -/
theorem C53_star_iff_partial (n : ℕ) (hn : 3 ≤ n) (r1 r2 : ℝ) (c : Vec2 ℝ) (a : ℝ) (s : Polygon ℝ)
    (h : Polygon.star (n : ℤ) r1 r2 c a = .ok s) (eps : ℝ) :
    (∀ pt, (s.containsPoint eps pt).1 = .ok (winding s.verts pt.toVec != 0)) ↔
    ¬ (0 < r1 * r2 ∧ r1 ≠ r2 ∧ max |r1| |r2| * cosDeg (180 / n) < min |r1| |r2|) := by
  constructor
  · rintro hall ⟨hr, hne, hb⟩
    obtain ⟨s', hs, hsv, hcen, hmax, -, -, hyp, hbb, hmin⟩ := star_eq n (by omega) r1 r2 c a
    rw [h] at hs
    injection hs with hs
    subst hs
    have hl := starVerts_length (180 / (n : ℝ)) r1 r2 c n a
    have hsg : (0 < r1 ↔ 0 < r2) ∧ (0 ≤ r1 ↔ 0 ≤ r2) := by
      rcases mul_pos_iff.mp hr with ⟨h1, h2⟩ | ⟨h1, h2⟩
      · exact ⟨⟨fun _ => h2, fun _ => h1⟩, ⟨fun _ => h2.le, fun _ => h1.le⟩⟩
      · exact ⟨⟨fun h => absurd h (not_lt.mpr h1.le), fun h => absurd h (not_lt.mpr h2.le)⟩,
          ⟨fun h => absurd h (not_le.mpr h1), fun h => absurd h (not_le.mpr h2)⟩⟩
    rw [if_pos hsg.1] at hcen
    rw [if_pos hsg.2, if_neg hne] at hmin
    obtain ⟨h1, h2, a', hR⟩ := star_abs n (by omega) hr c a
    have hc1 := cosDeg_le_one (180 / n)
    have hb' : |r1| * cosDeg (180 / n) < |r2| ∧ |r2| * cosDeg (180 / n) < |r1| := by
      have hlt : cosDeg (180 / n) < 1 := lt_of_le_of_ne hc1 (cosDeg_ne_one (by positivity) (by
        have : (3 : ℝ) ≤ n := by exact_mod_cast hn
        rw [div_lt_iff₀ (by linarith)]; linarith))
      rcases le_total |r1| |r2| with hxy | hxy
      · rw [max_eq_right hxy, min_eq_left hxy] at hb
        exact ⟨by nlinarith, hb⟩
      · rw [max_eq_left hxy, min_eq_right hxy] at hb
        exact ⟨hb, by nlinarith⟩
    obtain ⟨p, hp1, hp2⟩ := hR.star_bad hl (by omega) h1 h2 hb'.1 hb'.2
    obtain ⟨k1, -⟩ := contains_radial (eps := eps) (s := s) (by rw [hsv, hl]; omega) hcen (.vec p)
    have := hall (.vec p)
    rw [k1 _ hmin hp1] at this
    simp only [PyPoint.toVec, hsv, hp2] at this
    simp at this
  · intro hno pt
    by_cases hne : r1 = r2
    · subst hne; exact C53_star_equal_exact n hn r1 c a s h eps pt
    rcases lt_trichotomy (r1 * r2) 0 with hr | hr | hr
    · exact C53_star_mixed n (by omega) r1 r2 c a s h hr eps pt
    · exact C53_star_zero n hn r1 r2 c a s h hr hne eps pt
    · refine C53_star_exact_partial n (by omega) r1 r2 c a s h hr hne (.inr ?_) eps pt
      by_contra hc
      exact hno ⟨hr, hne, not_le.mp hc⟩

/-- The conditions can be met: a blunt star, a sharp one, and one with a radius 0. -/
example : (0 : ℝ) < 10 * 9 ∧ (10 : ℝ) ≠ 9 ∧ max |(10 : ℝ)| |9| * cosDeg (180 / (3 : ℕ)) < min |(10 : ℝ)| |9| ∧
    ¬ max |(10 : ℝ)| |3| * cosDeg (180 / (3 : ℕ)) < min |(10 : ℝ)| |3| ∧ (0 : ℝ) * 5 = 0 ∧ (0 : ℝ) ≠ 5 := by
  rw [show (180 : ℝ) / (3 : ℕ) = 60 by norm_num, cosDeg_60]
  norm_num [abs_of_pos]

end Planar
