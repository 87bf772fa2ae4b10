import Verif.Props.Trig
import Verif.Model.Cache
import Verif.Lemmas.Rounded
import Mathlib.Tactic.LinearCombination
/- Properties C12-C19 (transforms). -/
set_option linter.unusedSectionVars false
namespace Planar
open Planar.Affine

section LawfulBEq
variable {K : Type} [BEq K] [LawfulBEq K]

instance : LawfulBEq (Affine K) where
  eq_of_beq {a b} h := by
    have h' : (a.a == b.a && a.b == b.b && a.c == b.c && a.d == b.d && a.e == b.e && a.f == b.f) = true := h
    simp only [Bool.and_eq_true, beq_iff_eq] at h'
    obtain ⟨⟨⟨⟨⟨h1, h2⟩, h3⟩, h4⟩, h5⟩, h6⟩ := h'
    exact Affine.ext h1 h2 h3 h4 h5 h6
  rfl {a} := by
    change (a.a == a.a && a.b == a.b && a.c == a.c && a.d == a.d && a.e == a.e && a.f == a.f) = true
    simp

end LawfulBEq

section Field
variable {K : Type} [Field K] [LinearOrder K] [IsStrictOrderedRing K]

@[simp] theorem Affine.identity_eq : (Affine.identity : Affine K) = ⟨1, 0, 0, 0, 1, 0⟩ := by
  simp [Affine.identity, Affine.mk']

@[simp] theorem Affine.apply_x (T : Affine K) (v : Vec2 K) :
    (T.apply v).x = v.x * T.a + v.y * T.d + T.c := by simp [Affine.apply]
@[simp] theorem Affine.apply_y (T : Affine K) (v : Vec2 K) :
    (T.apply v).y = v.x * T.b + v.y * T.e + T.f := by simp [Affine.apply]

/-- **C12** transforms form a monoid and the determinant is multiplicative. -/
theorem C12_monoid (A B C : Affine K) :
    Affine.identity * A = A ∧ A * Affine.identity = A ∧ (A * B) * C = A * (B * C) ∧
    (A * B).determinant = A.determinant * B.determinant ∧
    (Affine.identity : Affine K).determinant = 1 := by
  refine ⟨?_, ?_, ?_, ?_, ?_⟩
  · ext <;> simp [mul]
  · ext <;> simp [mul]
  · ext <;> simp [mul] <;> ring
  · simp [mul, determinant]; ring
  · simp [determinant]

/-- The entries of an inverse, given a non-zero determinant. -/
theorem invert_ok {eps : K} {T : Affine K} (hd : eps ≤ |T.determinant|) (h0 : T.determinant ≠ 0) :
    T.invert eps = .ok ⟨T.e / T.determinant, -T.b / T.determinant,
      (T.f * T.b - T.c * T.e) / T.determinant, -T.d / T.determinant, T.a / T.determinant,
      (T.c * T.d - T.f * T.a) / T.determinant⟩ := by
  have : ¬ |T.determinant| < eps := not_lt.mpr hd
  simp only [invert, isDegenerate, pyabs_eq_abs, this, decide_false, Bool.false_eq_true, if_false,
    pydiv_ok h0]
  change Except.ok _ = _
  congr 1
  ext <;> simp <;> field_simp <;> ring

/-- **C13** inversion: raises TransformNotInvertibleError exactly when |determinant| < EPSILON, and otherwise gives the
two-sided inverse, whose inverse (when it exists) is the original. -/
theorem C13_invert (eps : K) (heps : 0 < eps) (T : Affine K) :
    (|T.determinant| < eps → T.invert eps = .error .notInvertible) ∧
    (eps ≤ |T.determinant| → ∃ R, T.invert eps = .ok R ∧ T * R = Affine.identity ∧
      R * T = Affine.identity ∧ R.determinant = 1 / T.determinant ∧
      (eps ≤ |R.determinant| → R.invert eps = .ok T)) := by
  constructor
  · intro h; simp [invert, isDegenerate, h]
  · intro h
    have h0 : T.determinant ≠ 0 := by
      intro h0; rw [h0, abs_zero] at h; linarith
    have h0' : T.a * T.e - T.b * T.d ≠ 0 := h0
    have hdet : ∀ R : Affine K, R = ⟨T.e / T.determinant, -T.b / T.determinant,
      (T.f * T.b - T.c * T.e) / T.determinant, -T.d / T.determinant, T.a / T.determinant,
      (T.c * T.d - T.f * T.a) / T.determinant⟩ → R.determinant = 1 / T.determinant := by
      rintro R rfl
      obtain ⟨D, hD⟩ : ∃ D, T.determinant = D := ⟨_, rfl⟩
      rw [hD] at h0 ⊢
      simp only [determinant] at hD ⊢; field_simp; linear_combination hD
    refine ⟨_, invert_ok h h0, ?_, ?_, hdet _ rfl, ?_⟩
    · obtain ⟨D, hD⟩ : ∃ D, T.determinant = D := ⟨_, rfl⟩
      rw [hD] at h0 ⊢
      simp only [determinant] at hD
      ext <;> simp [mul] <;> field_simp <;> first
        | ring1 | linear_combination hD | linear_combination T.c * (-hD) | linear_combination T.f * (-hD)
    · obtain ⟨D, hD⟩ : ∃ D, T.determinant = D := ⟨_, rfl⟩
      rw [hD] at h0 ⊢
      simp only [determinant] at hD
      ext <;> simp [mul] <;> field_simp <;> first
        | ring1 | linear_combination hD | linear_combination -hD
    · intro h'
      have hd := hdet _ rfl
      rw [invert_ok h' (by rw [hd]; exact one_div_ne_zero h0), hd]
      congr 1
      ext <;> simp <;> field_simp <;> simp only [determinant] <;> ring

/-- A non-trivial invertible transform, and a degenerate one. -/
example : (1 / 100000 : ℚ) ≤ |(⟨2, 1, 5, 0, 3, 7⟩ : Affine ℚ).determinant| ∧
    |(⟨2, 4, 5, 1, 2, 7⟩ : Affine ℚ).determinant| < 1 / 100000 := by
  norm_num [determinant]

/-- **C14** (partial) the effect of a product is the composition of the effects exactly when the linear parts commute and
the translation of the second is mapped alike by the first linear part and its transpose; the general claim fails, see
`C14_violated`. -/
theorem C14_compose_partial (A B : Affine K) :
    (∀ p, (A * B).apply p = A.apply (B.apply p)) ↔
      (A.b * B.d = A.d * B.b ∧ A.a * B.b + A.b * B.e = A.b * B.a + A.e * B.b ∧
        A.d * B.a + A.e * B.d = A.a * B.d + A.d * B.e ∧
        A.b * B.f = A.d * B.f ∧ A.d * B.c = A.b * B.c) := by
  constructor
  · intro h
    have h0 := h ⟨0, 0⟩
    have h1 := h ⟨1, 0⟩
    have h2 := h ⟨0, 1⟩
    rw [Vec2.ext_iff'] at h0 h1 h2
    simp [mul] at h0 h1 h2
    obtain ⟨h01, h02⟩ := h0
    obtain ⟨h11, h12⟩ := h1
    obtain ⟨h21, h22⟩ := h2
    refine ⟨?_, ?_, ?_, ?_, ?_⟩
    · linear_combination h11 - h01
    · linear_combination h12 - h02
    · linear_combination h21 - h01
    · linear_combination h01
    · linear_combination h02
  · rintro ⟨h1, h2, h3, h4, h5⟩ p
    ext
    · simp [mul]; linear_combination p.x * h1 + p.y * h3 + h4
    · simp [mul]; linear_combination p.x * h2 - p.y * h1 + h5

/-- **C14** (partial) classes of transforms that do compose in sequence: two products of scales and translations, and any
second factor under a first factor made of a uniform scale and a translation. -/
theorem C14_compose_classes_partial (A B : Affine K) :
    (A.b = 0 → A.d = 0 → B.b = 0 → B.d = 0 → ∀ p, (A * B).apply p = A.apply (B.apply p)) ∧
    (A.b = 0 → A.d = 0 → A.a = A.e → ∀ p, (A * B).apply p = A.apply (B.apply p)) := by
  constructor
  · intro h1 h2 h3 h4 p
    exact (C14_compose_partial A B).mpr (by simp [h1, h2, h3, h4]) p
  · intro h1 h2 h3 p
    refine (C14_compose_partial A B).mpr ?_ p
    simp [h1, h2, h3]

/-- **C14** is violated: rotation by 90 degrees times a translation. -/
theorem C14_violated :
    ∃ A B : Affine K, ∃ p, (A * B).apply p ≠ A.apply (B.apply p) := by
  refine ⟨⟨0, 1, 0, -1, 0, 0⟩, ⟨1, 0, 1, 0, 1, 0⟩, ⟨0, 0⟩, ?_⟩
  intro h
  have := congrArg Vec2.y h
  simp [mul] at this
  have h2 : (2:K) = 0 := by linear_combination -this
  exact two_ne_zero h2

/-- **C15** (partial) the inverse undoes the transform on points exactly when the transposed inverse linear part maps the
translation as the inverse does; in general it does not, see `C15_violated`. -/
theorem C15_inverse_partial (eps : K) (heps : 0 < eps) (T R : Affine K) (h : T.invert eps = .ok R) :
    (∀ p, R.apply (T.apply p) = p) ↔ ((T.b - T.d) * T.c = 0 ∧ (T.b - T.d) * T.f = 0) := by
  have hd : eps ≤ |T.determinant| := by
    by_contra hc
    rw [(C13_invert eps heps T).1 (not_le.mp hc)] at h; simp at h
  have h0 : T.determinant ≠ 0 := by
    intro h0; rw [h0, abs_zero] at hd; linarith
  have h0' : T.a * T.e - T.b * T.d ≠ 0 := h0
  rw [invert_ok hd h0] at h
  simp only [Except.ok.injEq] at h
  obtain ⟨D, hD⟩ : ∃ D, T.determinant = D := ⟨_, rfl⟩
  rw [hD] at h0 h
  simp only [determinant] at hD
  subst h
  constructor
  · intro hp
    have hp := hp ⟨0, 0⟩
    rw [Vec2.ext_iff'] at hp
    simp at hp
    obtain ⟨h1, h2⟩ := hp
    field_simp at h1 h2
    constructor
    · linear_combination -h2
    · linear_combination h1
  · rintro ⟨h1, h2⟩ p
    ext
    · simp; field_simp; linear_combination h2 + p.x * hD
    · simp; field_simp; linear_combination -h1 + p.y * hD

/-- **C15** (partial) for transforms without a translation part (c = f = 0) the inverse always undoes the transform. -/
theorem C15_inverse_linear_partial (eps : K) (heps : 0 < eps) (T R : Affine K)
    (h : T.invert eps = .ok R) (hc : T.c = 0) (hf : T.f = 0) (p : Vec2 K) :
    R.apply (T.apply p) = p ∧ T.apply (R.apply p) = p := by
  have h1 : ∀ p, R.apply (T.apply p) = p :=
    (C15_inverse_partial eps heps T R h).mpr (by simp [hc, hf])
  refine ⟨h1 p, ?_⟩
  have hd : eps ≤ |T.determinant| := by
    by_contra hc
    rw [(C13_invert eps heps T).1 (not_le.mp hc)] at h; simp at h
  have h0 : T.determinant ≠ 0 := by
    intro h0; rw [h0, abs_zero] at hd; linarith
  have h0' : T.a * T.e - T.b * T.d ≠ 0 := h0
  rw [invert_ok hd h0] at h
  simp only [Except.ok.injEq] at h
  obtain ⟨D, hD⟩ : ∃ D, T.determinant = D := ⟨_, rfl⟩
  rw [hD] at h0 h
  simp only [determinant] at hD
  subst h
  ext <;> simp [hc, hf] <;> field_simp <;> first
    | linear_combination p.x * hD | linear_combination p.y * hD

/-- **C15** is violated: a rotation by 90 degrees with a translation part. -/
theorem C15_violated : ∃ T R : Affine ℚ, T.invert (1/100000) = .ok R ∧
    ∃ p, R.apply (T.apply p) ≠ p := by
  have h : (⟨0, 1, 1, -1, 0, 0⟩ : Affine ℚ).invert (1/100000) = .ok ⟨0, -1, 0, 1, 0, -1⟩ := by
    rw [invert_ok] <;> norm_num [determinant]
  refine ⟨_, _, h, ?_⟩
  by_contra hc
  push Not at hc
  have := ((C15_inverse_partial _ (by norm_num) _ _ h).mp hc).1
  norm_num at this

/-! ### C16 -/

/-- Twice the signed area swept along a path from `u` through the points `l` (specification: the shoelace sum). -/
def pathArea : Vec2 K → List (Vec2 K) → K
  | _, [] => 0
  | u, v :: l => (u.x * v.y - u.y * v.x) + pathArea v l

/-- Twice the signed area of the closed polygon with the given vertices (specification). -/
def signedArea2 : List (Vec2 K) → K
  | [] => 0
  | v :: l => pathArea v (l ++ [v])

theorem pathArea_apply (T : Affine K) (u : Vec2 K) (l : List (Vec2 K)) (w : Vec2 K) :
    pathArea (T.apply u) ((l ++ [w]).map T.apply) =
      T.determinant * pathArea u (l ++ [w]) +
        (T.c * (w.x * T.b + w.y * T.e) - T.f * (w.x * T.a + w.y * T.d)) -
        (T.c * (u.x * T.b + u.y * T.e) - T.f * (u.x * T.a + u.y * T.d)) := by
  induction l generalizing u with
  | nil => simp [pathArea, determinant]; ring
  | cons v l ih =>
    simp only [List.cons_append, List.map_cons, pathArea]
    rw [ih]; simp [determinant]; ring

/-- **C16** application is affine: it preserves linear interpolation (so midpoints, collinear and parallel points), it
multiplies the signed area of every polygon by the determinant, and the identity changes nothing. -/
theorem C16_affine (T : Affine K) (p q : Vec2 K) (t : K) (vs : List (Vec2 K)) :
    T.apply (p.lerp q t) = (T.apply p).lerp (T.apply q) t ∧
    signedArea2 (T.applyPts vs) = T.determinant * signedArea2 vs ∧
    T.applyPts vs = vs.map T.apply ∧
    (Affine.identity : Affine K).apply p = p ∧ (Affine.identity : Affine K).applyPts vs = vs := by
  have hpts : ∀ (T : Affine K) l, T.applyPts l = l.map T.apply := fun _ _ => rfl
  refine ⟨?_, ?_, rfl, ?_, ?_⟩
  · ext <;> simp [Vec2.lerp] <;> ring
  · rw [hpts]
    cases vs with
    | nil => simp [signedArea2]
    | cons v l =>
      simp only [List.map_cons, signedArea2]
      have := pathArea_apply T v l v
      simp only [List.map_append, List.map_cons, List.map_nil] at this
      rw [this]; ring
  · ext <;> simp
  · rw [hpts]
    conv_rhs => rw [← List.map_id vs]
    apply List.map_congr_left
    intro a _; ext <;> simp

/-- **C16** parallel displacements stay parallel, and cross products of displacements scale by the determinant. -/
theorem C16_parallel (T : Affine K) (p q r s : Vec2 K) :
    (T.apply q - T.apply p).cross (T.apply s - T.apply r) = T.determinant * (q - p).cross (s - r) := by
  simp [Vec2.cross, determinant]; ring

example : signedArea2 (K := ℚ) [⟨0,0⟩, ⟨2,0⟩, ⟨2,2⟩, ⟨0,2⟩] = 8 := by
  norm_num [signedArea2, pathArea]

/-! ### C17 without trigonometry -/

/-- **C17** translation and scale. -/
theorem C17_translation_scale (o o' s s' p : Vec2 K) (k : K) :
    (translation o).apply p = ⟨p.x + o.x, p.y + o.y⟩ ∧ (scaleV s).apply p = ⟨p.x * s.x, p.y * s.y⟩ ∧
    (scaleS k).apply p = ⟨p.x * k, p.y * k⟩ ∧
    translation o * translation o' = translation ⟨o.x + o'.x, o.y + o'.y⟩ ∧
    scaleV s * scaleV s' = scaleV ⟨s.x * s'.x, s.y * s'.y⟩ ∧ scaleS k = scaleV ⟨k, k⟩ ∧
    (translation o).determinant = 1 ∧ (scaleV s).determinant = s.x * s.y := by
  refine ⟨?_, ?_, ?_, ?_, ?_, rfl, ?_, ?_⟩
  · ext <;> simp [translation]
  · ext <;> simp [scaleV]
  · ext <;> simp [scaleS]
  · ext <;> simp [mul, translation] <;> ring
  · ext <;> simp [mul, scaleV]
  · simp [determinant, translation]
  · simp [determinant, scaleV]

end Field

/-- **C17** rotations. -/
theorem C17_rotation (a b : ℝ) (p q c : Vec2 ℝ) :
    (rotation a none).apply p = p.rotated a ∧ (rotation a none : Affine ℝ).determinant = 1 ∧
    (rotation a (some c)).apply p = (p - c).rotated a + c ∧ (rotation a (some c)).apply c = c ∧
    (rotation a (some c)).determinant = 1 ∧
    ((rotation a (some c)).apply p).distanceTo ((rotation a (some c)).apply q) = p.distanceTo q ∧
    (rotation a none : Affine ℝ) * rotation b none = rotation (a + b) none ∧
    (rotation a (some Vec2.null) : Affine ℝ) = rotation a none := by
  have hu := cosDeg_sq_add a
  have h3 : ∀ p, (rotation a (some c)).apply p = (p - c).rotated a + c := by
    intro p
    rw [rotated_eq]; ext <;> simp [rotation, C08_cos_sin_deg] <;> ring
  refine ⟨?_, ?_, h3 p, ?_, ?_, ?_, ?_, ?_⟩
  · rw [rotated_eq]; ext <;> simp [rotation, C08_cos_sin_deg] <;> ring
  · simp [rotation, C08_cos_sin_deg, determinant]; linear_combination hu
  · rw [h3, rotated_eq]; ext <;> simp
  · simp [rotation, C08_cos_sin_deg, determinant]; linear_combination hu
  · rw [h3, h3, distanceTo_eq_length, distanceTo_eq_length]
    rw [← (C08_rotated (p - q) (p - q) a 0 0).1]
    congr 1
    rw [rotated_eq, rotated_eq, rotated_eq]; ext <;> simp <;> ring
  · ext <;> simp [rotation, C08_cos_sin_deg, mul, cosDeg_add, sinDeg_add] <;> ring
  · ext <;> simp [rotation]

/-- **C17** shear moves each point along x by `tan` of the angle times its y coordinate, and along y likewise. -/
theorem C17_shear (ax ay : ℝ) (p : Vec2 ℝ) :
    (shear ax ay).apply p =
      p + ⟨p.y * Real.tan (ax * (Real.pi / 180)), p.x * Real.tan (ay * (Real.pi / 180))⟩ := by
  ext <;> simp [shear, PyMath.tan, PyMath.radians] <;> ring

section Flags
variable {K : Type} [Field K] [LinearOrder K] [IsStrictOrderedRing K]

/-- The value of a quadratic form is bounded by the norm of its coefficients. -/
theorem quad_form_le (P Q R x y : K) : (P * x ^ 2 + 2 * Q * x * y + R * y ^ 2) ^ 2 ≤
    (P ^ 2 + 2 * Q ^ 2 + R ^ 2) * (x ^ 2 + y ^ 2) ^ 2 := by
  have h : (P ^ 2 + 2 * Q ^ 2 + R ^ 2) * (x ^ 2 + y ^ 2) ^ 2 -
      (P * x ^ 2 + 2 * Q * x * y + R * y ^ 2) ^ 2 =
      2 * (P * x * y - Q * x ^ 2) ^ 2 + (P * y ^ 2 - R * x ^ 2) ^ 2 +
        2 * (Q * y ^ 2 - R * x * y) ^ 2 := by ring
  have h1 := sq_nonneg (P * x * y - Q * x ^ 2)
  have h2 := sq_nonneg (P * y ^ 2 - R * x ^ 2)
  have h3 := sq_nonneg (Q * y ^ 2 - R * x * y)
  linarith

/-- **C18** (partial) orthonormal transforms are rigid up to EPSILON: squared distances change by less than a factor
`2*EPSILON`, the squared determinant is near 1. Missing from the property: what `is_conformal` promises
(see `C18_conformal_violated`). -/
theorem C18_orthonormal_partial (eps : K) (T : Affine K) (h : T.isOrthonormal eps = true)
    (p q : Vec2 K) :
    |(T.apply p - T.apply q).length2 - (p - q).length2| ≤ 2 * eps * (p - q).length2 ∧
    |T.determinant * T.determinant - 1| ≤ 2 * eps * (1 + eps) := by
  simp only [isOrthonormal, isConformal, pyabs_eq_abs, Bool.and_eq_true, decide_eq_true_eq] at h
  obtain ⟨⟨h1, h2⟩, h3⟩ := h
  have heps : 0 < eps := lt_of_le_of_lt (abs_nonneg _) h1
  rw [abs_lt] at h1 h2 h3
  have s1 : (T.a * T.b + T.d * T.e) ^ 2 ≤ eps ^ 2 := by nlinarith
  have s2 : (1 - (T.a * T.a + T.d * T.d)) ^ 2 ≤ eps ^ 2 := by nlinarith
  have s3 : (1 - (T.b * T.b + T.e * T.e)) ^ 2 ≤ eps ^ 2 := by nlinarith
  constructor
  · set x := p.x - q.x with hx
    set y := p.y - q.y with hy
    have e1 : (T.apply p - T.apply q).length2 - (p - q).length2
        = (T.a * T.a + T.b * T.b - 1) * x ^ 2 + 2 * (T.a * T.d + T.b * T.e) * x * y +
          (T.d * T.d + T.e * T.e - 1) * y ^ 2 := by
      simp [Vec2.length2, hx, hy]; ring
    have e2 : (p - q).length2 = x ^ 2 + y ^ 2 := by simp [Vec2.length2, hx, hy]; ring
    rw [e1, e2]
    set P := T.a * T.a + T.b * T.b - 1 with hP
    set Q := T.a * T.d + T.b * T.e with hQ
    set R := T.d * T.d + T.e * T.e - 1 with hR
    have fro : P ^ 2 + 2 * Q ^ 2 + R ^ 2 ≤ (2 * eps) ^ 2 := by
      have : P ^ 2 + 2 * Q ^ 2 + R ^ 2 = (1 - (T.a * T.a + T.d * T.d)) ^ 2 +
          (1 - (T.b * T.b + T.e * T.e)) ^ 2 + 2 * (T.a * T.b + T.d * T.e) ^ 2 := by
        rw [hP, hQ, hR]; ring
      rw [this]; nlinarith
    apply abs_le_of_sq_le_sq
    · have cs := quad_form_le P Q R x y
      calc _ ≤ _ := cs
        _ ≤ (2 * eps) ^ 2 * (x ^ 2 + y ^ 2) ^ 2 := by
          apply mul_le_mul_of_nonneg_right fro (sq_nonneg _)
        _ = _ := by ring
    · positivity
  · have e1 : T.determinant * T.determinant - 1 =
        -(1 - (T.a * T.a + T.d * T.d)) - (1 - (T.b * T.b + T.e * T.e)) +
        (1 - (T.a * T.a + T.d * T.d)) * (1 - (T.b * T.b + T.e * T.e)) -
        (T.a * T.b + T.d * T.e) ^ 2 := by
      simp only [determinant]; ring
    rw [e1, abs_le]
    constructor <;> nlinarith

/-- **C18** (partial) exactly orthonormal transforms (orthonormal for every EPSILON > 0) are rigid motions, with
determinant 1 or -1. -/
theorem C18_orthonormal_exact_partial (T : Affine K) (h : ∀ eps > 0, T.isOrthonormal eps = true) :
    (∀ p q, (T.apply p - T.apply q).length2 = (p - q).length2) ∧
    (T.determinant = 1 ∨ T.determinant = -1) := by
  have z : ∀ x : K, (∀ eps > 0, |x| < eps) → x = 0 := by
    intro x hx
    by_contra hne
    exact lt_irrefl _ (hx _ (abs_pos.mpr hne))
  have h1 := z _ fun eps he => by
    have := h eps he
    simp only [isOrthonormal, isConformal, pyabs_eq_abs, Bool.and_eq_true, decide_eq_true_eq] at this
    exact this.1.1
  have h2 := z _ fun eps he => by
    have := h eps he
    simp only [isOrthonormal, isConformal, pyabs_eq_abs, Bool.and_eq_true, decide_eq_true_eq] at this
    exact this.1.2
  have h3 := z _ fun eps he => by
    have := h eps he
    simp only [isOrthonormal, isConformal, pyabs_eq_abs, Bool.and_eq_true, decide_eq_true_eq] at this
    exact this.2
  have hd : T.determinant * T.determinant = 1 := by
    have : T.determinant * T.determinant = (T.a * T.a + T.d * T.d) * (T.b * T.b + T.e * T.e) -
        (T.a * T.b + T.d * T.e) ^ 2 := by simp only [determinant]; ring
    rw [this, h1]; linear_combination -h2 - (T.a * T.a + T.d * T.d) * h3
  constructor
  · intro p q
    have hb : ∀ eps > 0, |(T.apply p - T.apply q).length2 - (p - q).length2| < eps := by
      intro eps he
      set N := (p - q).length2
      have hN : 0 ≤ N := length2_nonneg _
      have he' : 0 < eps / (2 * (N + 1) * 2) := by positivity
      have := (C18_orthonormal_partial _ T (h _ he') p q).1
      refine lt_of_le_of_lt this ?_
      rw [show 2 * (eps / (2 * (N + 1) * 2)) * N = eps * (N / (2 * (N + 1))) by field_simp]
      have : N / (2 * (N + 1)) < 1 := by rw [div_lt_one (by positivity)]; linarith
      nlinarith
    have := z _ hb
    linarith
  · have : (T.determinant - 1) * (T.determinant + 1) = 0 := by linear_combination hd
    rcases mul_eq_zero.mp this with h | h
    · left; linarith
    · right; linarith

/-- The vectors `u`, `v` make the same angle as `u'`, `v'` (specification: the cosines, dot product over lengths, have the
same square and not opposite signs). -/
def SameAngle (u v u' v' : Vec2 K) : Prop :=
  (u.dot v) ^ 2 * (u'.length2 * v'.length2) = (u'.dot v') ^ 2 * (u.length2 * v.length2) ∧ 0 ≤ u.dot v * u'.dot v'

/-- **C18** is violated by `is_conformal`: a scale by (2,3) has it true although it changes angles. -/
theorem C18_conformal_violated : ∃ T : Affine ℚ, (∀ eps > 0, T.isConformal eps = true) ∧
    ∃ p q r, ¬ SameAngle (q - p) (r - p) (T.apply q - T.apply p) (T.apply r - T.apply p) := by
  refine ⟨scaleV ⟨2, 3⟩, ?_, ⟨0, 0⟩, ⟨1, 0⟩, ⟨1, 1⟩, ?_⟩
  · intro eps he; simp [isConformal, scaleV, he]
  · norm_num [SameAngle, Vec2.dot, Vec2.length2, scaleV]

/-- **C18** (partial) what would make the flag right: exactly conformal and both columns equally long; then all angles are
preserved. -/
theorem C18_conformal_equal_columns_partial (T : Affine K) (h : ∀ eps > 0, T.isConformal eps = true)
    (hc : T.a * T.a + T.d * T.d = T.b * T.b + T.e * T.e) (p q r : Vec2 K) :
    SameAngle (q - p) (r - p) (T.apply q - T.apply p) (T.apply r - T.apply p) := by
  have h1 : T.a * T.b + T.d * T.e = 0 := by
    by_contra hne
    have := h _ (abs_pos.mpr hne)
    simp [isConformal] at this
  set s := T.a * T.a + T.d * T.d with hs
  -- rows are then orthogonal and equally long too
  have k1 : (T.a ^ 2 - T.e ^ 2) ^ 2 + (T.a * T.d + T.b * T.e) ^ 2 * 0 = (T.a ^ 2 - T.e ^ 2) ^ 2 := by ring
  have hrow1 : T.a * T.a + T.b * T.b = s ∧ T.d * T.d + T.e * T.e = s ∧ T.a * T.d + T.b * T.e = 0 := by
    have tr : (T.a * T.a + T.b * T.b) + (T.d * T.d + T.e * T.e) = 2 * s := by linear_combination -hc
    have fr : (T.a * T.a + T.b * T.b - s) ^ 2 + 2 * (T.a * T.d + T.b * T.e) ^ 2 +
        (T.d * T.d + T.e * T.e - s) ^ 2 = 0 := by
      have : (T.a * T.a + T.b * T.b - s) ^ 2 + 2 * (T.a * T.d + T.b * T.e) ^ 2 +
        (T.d * T.d + T.e * T.e - s) ^ 2 = (T.a * T.a + T.d * T.d - s) ^ 2 +
        2 * (T.a * T.b + T.d * T.e) ^ 2 + (T.b * T.b + T.e * T.e - s) ^ 2 := by ring
      rw [this, h1, ← hc, ← hs]; ring
    have a1 := sq_nonneg (T.a * T.a + T.b * T.b - s)
    have a2 := sq_nonneg (T.a * T.d + T.b * T.e)
    have a3 := sq_nonneg (T.d * T.d + T.e * T.e - s)
    have b1 : (T.a * T.a + T.b * T.b - s) ^ 2 = 0 := by linarith
    have b2 : (T.a * T.d + T.b * T.e) ^ 2 = 0 := by linarith
    have b3 : (T.d * T.d + T.e * T.e - s) ^ 2 = 0 := by linarith
    rw [sq_eq_zero_iff] at b1 b2 b3
    exact ⟨by linarith, by linarith, b2⟩
  obtain ⟨r1, r2, r3⟩ := hrow1
  have hdot : ∀ u v : Vec2 K, (T.apply u - T.apply p).dot (T.apply v - T.apply p) = s * (u - p).dot (v - p) := by
    intro u v
    simp only [Vec2.dot, Vec2.sub_x, Vec2.sub_y, apply_x, apply_y]
    linear_combination (u.x - p.x) * (v.x - p.x) * r1 + (u.y - p.y) * (v.y - p.y) * r2 +
      ((u.x - p.x) * (v.y - p.y) + (u.y - p.y) * (v.x - p.x)) * r3
  have hl : ∀ u : Vec2 K, (T.apply u - T.apply p).length2 = s * (u - p).length2 := fun u => hdot u u
  unfold SameAngle
  rw [hdot, hl, hl]
  refine ⟨by ring, ?_⟩
  have hs0 : 0 ≤ s := add_nonneg (mul_self_nonneg _) (mul_self_nonneg _)
  have := mul_nonneg hs0 (mul_self_nonneg ((q - p).dot (r - p)))
  linarith

/-- **C18** (partial) exactly rectilinear transforms map horizontal and vertical segments to horizontal or vertical
ones. -/
theorem C18_rectilinear_partial (T : Affine K) (h : ∀ eps > 0, T.isRectilinear eps = true)
    (p q : Vec2 K) (hpq : p.x = q.x ∨ p.y = q.y) :
    (T.apply p).x = (T.apply q).x ∨ (T.apply p).y = (T.apply q).y := by
  have : (T.a = 0 ∧ T.e = 0) ∨ (T.d = 0 ∧ T.b = 0) := by
    by_contra hc
    push Not at hc
    obtain ⟨m, hm, h1, h2⟩ : ∃ m > 0, (¬ (|T.a| < m ∧ |T.e| < m)) ∧ ¬ (|T.d| < m ∧ |T.b| < m) := by
      obtain ⟨c1, c2⟩ := hc
      have m1 : ∃ m > 0, ¬ (|T.a| < m ∧ |T.e| < m) := by
        by_cases ha : T.a = 0
        · exact ⟨|T.e|, abs_pos.mpr (c1 ha), fun h => lt_irrefl _ h.2⟩
        · exact ⟨|T.a|, abs_pos.mpr ha, fun h => lt_irrefl _ h.1⟩
      have m2 : ∃ m > 0, ¬ (|T.d| < m ∧ |T.b| < m) := by
        by_cases ha : T.d = 0
        · exact ⟨|T.b|, abs_pos.mpr (c2 ha), fun h => lt_irrefl _ h.2⟩
        · exact ⟨|T.d|, abs_pos.mpr ha, fun h => lt_irrefl _ h.1⟩
      obtain ⟨x, hx, hx'⟩ := m1
      obtain ⟨y, hy, hy'⟩ := m2
      refine ⟨min x y, lt_min hx hy, fun h => hx' ⟨?_, ?_⟩, fun h => hy' ⟨?_, ?_⟩⟩
      · exact lt_of_lt_of_le h.1 (min_le_left _ _)
      · exact lt_of_lt_of_le h.2 (min_le_left _ _)
      · exact lt_of_lt_of_le h.1 (min_le_right _ _)
      · exact lt_of_lt_of_le h.2 (min_le_right _ _)
    have := h m hm
    simp only [isRectilinear, pyabs_eq_abs, Bool.or_eq_true, Bool.and_eq_true, decide_eq_true_eq] at this
    tauto
  rcases this with ⟨h1, h2⟩ | ⟨h1, h2⟩ <;> rcases hpq with h3 | h3
  · right; simp [h1, h2, h3]
  · left; simp [h1, h2, h3]
  · left; simp [h1, h2, h3]
  · right; simp [h1, h2, h3]

/-- **C18** `is_degenerate` is true exactly when `~T` raises (EPSILON > 0). -/
theorem C18_degenerate (eps : K) (heps : 0 < eps) (T : Affine K) :
    T.isDegenerate eps = true ↔ T.invert eps = .error .notInvertible := by
  constructor
  · intro h; simp [invert, h]
  · intro h
    by_contra hc
    have hd : eps ≤ |T.determinant| := by
      simpa [isDegenerate] using hc
    obtain ⟨R, hR, -⟩ := (C13_invert eps heps T).2 hd
    rw [hR] at h; simp at h

/-- Concrete transforms meeting the hypotheses of the C18 theorems. -/
example : (∀ eps > 0, (⟨3/5, 4/5, 7, -4/5, 3/5, 1⟩ : Affine ℚ).isOrthonormal eps = true) ∧
    (∀ eps > 0, (⟨3, 4, 7, -4, 3, 1⟩ : Affine ℚ).isConformal eps = true) ∧
    (∀ eps > 0, (⟨0, 4, 7, -4, 0, 1⟩ : Affine ℚ).isRectilinear eps = true) := by
  refine ⟨fun e he => ?_, fun e he => ?_, fun e he => ?_⟩ <;>
    norm_num [isOrthonormal, isConformal, isRectilinear, he]

end Flags

section Rounded
open Spec
variable {K : Type} [LinearOrder K] [Add K] [Sub K] [Mul K] [Div K] [Neg K] [Zero K] [One K] [RoundedArith K]

/-! ### C19 -/

theorem itransformFrom_eq (T : Affine K) : ∀ (n : Nat) (seq : List (Vec2 K)) (i : Nat),
    seq.length - i = n → i ≤ seq.length →
    itransformFrom T seq i = seq.take i ++ (seq.drop i).map T.apply := by
  intro n
  induction n with
  | zero =>
    intro seq i hn hi
    have : i = seq.length := by omega
    subst this
    unfold itransformFrom; simp
  | succ n ih =>
    intro seq i hn hi
    have hlt : i < seq.length := by omega
    rw [itransformFrom, dif_pos hlt, ih _ (i+1) (by simp; omega) (by simp; omega)]
    change List.take (i+1) (seq.set i (T.apply seq[i])) ++ (List.drop (i+1) (seq.set i (T.apply seq[i]))).map T.apply = _
    rw [List.drop_set_of_lt (by omega), List.drop_eq_getElem_cons hlt, List.take_add_one,
      List.take_set_of_le (by omega), List.getElem?_set_self hlt]
    simp only [Option.toList_some, List.append_assoc, List.singleton_append, List.map_cons]

/-- **C19** the in-place transform of a sequence of points leaves at each index the transform of the old point there, also
for the identity, where the loop is skipped. -/
theorem C19_itransform (T : Affine K) (seq : List (Vec2 K)) :
    T.itransform seq = seq.map T.apply ∧ (T.itransform seq).length = seq.length ∧
    (T.itransform seq) = T.applyPts seq := by
  have h : T.itransform seq = seq.map T.apply := by
    unfold itransform
    split
    · rw [itransformFrom_eq T _ seq 0 rfl (by omega)]; simp
    · have hT : T = Affine.identity := by
        rename_i hne
        simpa using hne
      subst hT
      exact (List.map_id'' Affine.identity_fl seq).symm
  exact ⟨h, by rw [h]; simp, h⟩

end Rounded
end Planar
