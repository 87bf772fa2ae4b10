import Verif.Spec.Circle
import Verif.Props.Centroid
import Verif.Props.Trig
/- Property C59: regular polygons and stars. -/
set_option linter.unusedSectionVars false
namespace Planar
open Spec
open Polygon

/-- The rotation by `θ` degrees about `c`. -/
noncomputable def rotAbout (c : Vec2 ℝ) (θ : ℝ) : Affine ℝ :=
  ⟨cosDeg θ, sinDeg θ, c.x - c.x * cosDeg θ + c.y * sinDeg θ, -sinDeg θ, cosDeg θ, c.y - c.x * sinDeg θ - c.y * cosDeg θ⟩

theorem rotAbout_apply (c : Vec2 ℝ) (θ : ℝ) (v : Vec2 ℝ) : (rotAbout c θ).apply v =
    ⟨c.x + ((v.x - c.x) * cosDeg θ - (v.y - c.y) * sinDeg θ), c.y + ((v.x - c.x) * sinDeg θ + (v.y - c.y) * cosDeg θ)⟩ := by
  unfold rotAbout Affine.apply Vec2.mk'
  apply Vec2.ext <;> simp only <;> ring

theorem rotAbout_circ (c : Vec2 ℝ) (θ r φ : ℝ) : (rotAbout c θ).apply (circ c r φ) = circ c r (φ + θ) := by
  rw [rotAbout_apply]
  unfold circ
  apply Vec2.ext <;> simp only [cosDeg_add, sinDeg_add] <;> ring

theorem rotAbout_det (c : Vec2 ℝ) (θ : ℝ) : (rotAbout c θ).a * (rotAbout c θ).e - (rotAbout c θ).b * (rotAbout c θ).d = 1 := by
  have := cosDeg_sq_add θ
  unfold rotAbout; simp only; linarith

/-- A proper rotation about `c` fixes no other point. -/
theorem rotAbout_fixed {c : Vec2 ℝ} {θ : ℝ} (h : cosDeg θ ≠ 1) {g : Vec2 ℝ} (hg : (rotAbout c θ).apply g = g) : g = c := by
  rw [rotAbout_apply] at hg
  have e1 := congrArg Vec2.x hg
  have e2 := congrArg Vec2.y hg
  simp only at e1 e2
  have hu := cosDeg_sq_add θ
  have hc : 2 * (1 - cosDeg θ) ≠ 0 := mul_ne_zero two_ne_zero (sub_ne_zero.mpr (Ne.symm h))
  apply Vec2.ext
  · have : 2 * (1 - cosDeg θ) * (g.x - c.x) = 0 := by
      linear_combination (cosDeg θ - 1) * e1 + sinDeg θ * e2 + (g.x - c.x) * (- hu)
    rcases mul_eq_zero.mp this with h | h
    · exact absurd h hc
    · linarith
  · have : 2 * (1 - cosDeg θ) * (g.y - c.y) = 0 := by
      linear_combination (cosDeg θ - 1) * e2 - sinDeg θ * e1 + (g.y - c.y) * (- hu)
    rcases mul_eq_zero.mp this with h | h
    · exact absurd h hc
    · linarith

theorem circ_turns (c : Vec2 ℝ) (r θ : ℝ) (n : ℤ) : circ c r (θ + 360 * n) = circ c r θ := by
  unfold circ; rw [cosDeg_turns, sinDeg_turns]

theorem circ_side (c : Vec2 ℝ) (r1 r2 θ s : ℝ) : side c (circ c r1 θ) (circ c r2 (θ + s)) = r1 * r2 * sinDeg s := by
  have hu := cosDeg_sq_add θ
  unfold side circ
  simp only [cosDeg_add, sinDeg_add]
  linear_combination (r1 * r2 * sinDeg s) * hu

theorem circ_dist (c : Vec2 ℝ) (r θ : ℝ) : (circ c r θ).distanceTo c = |r| := by
  rw [distanceTo_eq_length, length_eq_iff (abs_nonneg r), abs_mul_abs_self]
  have hu := cosDeg_sq_add θ
  simp only [Vec2.length2, circ, Vec2.sub_x, Vec2.sub_y]
  linear_combination (r * r) * hu

/-- Vertices at equal angular steps around `c`. -/
structure IsRadial (c : Vec2 ℝ) (ρ : ℕ → ℝ) (a s : ℝ) (L : List (Vec2 ℝ)) : Prop where
  at_ : ∀ i (h : i < L.length), L[i] = circ c (ρ i) (a + i * s)
  full : (L.length : ℝ) * s = 360

variable {c : Vec2 ℝ} {ρ : ℕ → ℝ} {a s : ℝ} {L : List (Vec2 ℝ)}

theorem IsRadial.mod (h : IsRadial c ρ a s L) (i : ℕ) (hL : 0 < L.length) :
    L[i % L.length]'(Nat.mod_lt _ hL) = circ c (ρ (i % L.length)) (a + i * s) := by
  rw [h.at_]
  have e : (i : ℝ) = L.length * ((i / L.length : ℕ) : ℝ) + ((i % L.length : ℕ) : ℝ) := by
    exact_mod_cast (Nat.div_add_mod i L.length).symm
  rw [← circ_turns c _ (a + ((i % L.length : ℕ) : ℝ) * s) ((i / L.length : ℕ) : ℤ)]
  congr 1
  have hf := h.full
  rw [Int.cast_natCast, e]
  linear_combination (- ((i / L.length : ℕ) : ℝ)) * hf

/-- A rotation by `m` steps permutes the vertices, when the radii repeat after `m` steps. -/
theorem IsRadial.map_rot (h : IsRadial c ρ a s L) (m : ℕ) (hρ : ∀ i < L.length, ρ ((i + m) % L.length) = ρ i) :
    L.map (rotAbout c (m * s)).apply = L.rotate m := by
  apply List.ext_getElem
  · simp
  · intro i h1 h2
    have hi : i < L.length := by simpa using h1
    have hL : 0 < L.length := by omega
    rw [List.getElem_map, List.getElem_rotate, h.at_ i hi, rotAbout_circ]
    rw [h.mod (i + m) hL, hρ i hi]
    congr 1
    push_cast; ring

/-- The area. -/
theorem IsRadial.area (h : IsRadial c ρ a s L) (P : ℝ) (hP : ∀ i < L.length, ρ ((i + (L.length - 1)) % L.length) * ρ i = P) :
    area2 L = L.length * (P * sinDeg s) := by
  have pivot : ∀ vs : List (Vec2 ℝ), area2 vs = ((edges vs).map fun e => side c e.1 e.2).sum := by
    intro vs
    have : ((edges vs).map fun e => side c e.1 e.2).sum =
        ((edges vs).map fun e => wedge e + ((c.y * e.2.x - c.x * e.2.y) - (c.y * e.1.x - c.x * e.1.y))).sum := by
      congr 1; apply List.map_congr_left; rintro ⟨u, v⟩ _; simp only [side, wedge]; ring
    rw [this, sum_sub', sum_edges_telescope (fun v => c.y * v.x - c.x * v.y) vs, add_zero]; rfl
  rw [pivot]
  have hall : ∀ e ∈ edges L, side c e.1 e.2 = P * sinDeg s := by
    intro e he
    rw [← range_map_edges] at he
    obtain ⟨i, hi, rfl⟩ := List.mem_map.mp he
    rw [List.mem_range] at hi
    have hL : 0 < L.length := by omega
    simp only
    have e1 : nth L (i : ℤ) = L[i] := nth_ofNat L i hi
    have e2 : nth L ((i : ℤ) - 1) = L[(i + (L.length - 1)) % L.length]'(Nat.mod_lt _ hL) := by
      rcases i with _ | i
      · have : (0 + (L.length - 1)) % L.length = L.length - 1 := by rw [Nat.zero_add, Nat.mod_eq_of_lt (by omega)]
        simp only [this]
        exact nth_neg L 1 le_rfl hL
      · have : (i + 1 + (L.length - 1)) % L.length = i := by
          rw [show i + 1 + (L.length - 1) = i + L.length by omega, Nat.add_mod_right, Nat.mod_eq_of_lt (by omega)]
        simp only [this]
        exact nth_pred L i hi
    rw [e1, e2, h.mod _ hL, h.at_ i hi]
    have h360 := h.full
    have e3 : circ c (ρ i) (a + i * s) = circ c (ρ i) (a + ((i + (L.length - 1) : ℕ) : ℝ) * s + s) := by
      rw [← circ_turns c (ρ i) (a + i * s) 1]
      congr 1
      rw [Nat.cast_add, Nat.cast_sub (by omega)]
      push_cast
      linear_combination - h360
    rw [e3, circ_side, hP i hi]
  rw [List.map_congr_left hall]
  simp [edges_length]

/-- The area centroid is the centre. -/
theorem IsRadial.centroid (h : IsRadial c ρ a s L) (m : ℕ) (hρ : ∀ i < L.length, ρ ((i + m) % L.length) = ρ i)
    (hm : cosDeg (m * s) ≠ 1) (hA : area2 L ≠ 0) : areaCentroid L = c := by
  apply rotAbout_fixed hm
  rw [← (C47_affine (rotAbout c (m * s)) L (by rw [rotAbout_det]; exact one_ne_zero) hA).1, h.map_rot m hρ]
  exact (C47_rotate_reverse L m).1

theorem regularVerts_length (st r : ℝ) (c : Vec2 ℝ) (n : ℕ) (a : ℝ) : (regularVerts st r c n a).length = n := by
  induction n generalizing a with
  | zero => rfl
  | succ n ih => simp [regularVerts, ih]

theorem regularVerts_get (st r : ℝ) (c : Vec2 ℝ) (n : ℕ) (a : ℝ) (i : ℕ) (h : i < (regularVerts st r c n a).length) :
    (regularVerts st r c n a)[i] = circ c r (a + i * st) := by
  induction n generalizing a i with
  | zero => simp [regularVerts] at h
  | succ n ih =>
    rcases i with _ | i
    · simp only [regularVerts, List.getElem_cons_zero, C08_cos_sin_deg, circ, Nat.cast_zero, zero_mul, add_zero]
      apply Vec2.ext <;> simp only <;> ring
    · simp only [regularVerts, List.getElem_cons_succ]
      rw [ih]
      congr 1; push_cast; ring

theorem starVerts_length (st r1 r2 : ℝ) (c : Vec2 ℝ) (n : ℕ) (a : ℝ) : (starVerts st r1 r2 c n a).length = 2 * n := by
  induction n generalizing a with
  | zero => rfl
  | succ n ih => simp only [starVerts, List.length_cons, ih]; ring

theorem starVerts_get (st r1 r2 : ℝ) (c : Vec2 ℝ) (n : ℕ) (a : ℝ) (i : ℕ) (h : i < (starVerts st r1 r2 c n a).length) :
    (starVerts st r1 r2 c n a)[i] = circ c (if i % 2 = 0 then r1 else r2) (a + i * st) := by
  induction n generalizing a i with
  | zero => simp [starVerts] at h
  | succ n ih =>
    rcases i with _ | _ | i
    · simp only [starVerts, List.getElem_cons_zero, C08_cos_sin_deg, circ, Nat.cast_zero, zero_mul, add_zero, Nat.zero_mod, if_true]
      apply Vec2.ext <;> simp only <;> ring
    · simp only [starVerts, List.getElem_cons_succ, List.getElem_cons_zero, C08_cos_sin_deg, circ]
      apply Vec2.ext <;> norm_num <;> ring
    · simp only [starVerts, List.getElem_cons_succ]
      rw [ih]
      have : (i + 1 + 1) % 2 = i % 2 := by omega
      rw [this]
      congr 1; push_cast; ring

theorem regular_radial (n : ℕ) (hn : 0 < n) (r : ℝ) (c : Vec2 ℝ) (a : ℝ) :
    IsRadial c (fun _ => r) a (360 / (n : ℝ)) (regularVerts (360 / (n : ℝ)) r c n a) :=
  ⟨fun i h => regularVerts_get _ r c n a i h, by
    rw [regularVerts_length]; field_simp⟩

theorem star_radial (n : ℕ) (hn : 0 < n) (r1 r2 : ℝ) (c : Vec2 ℝ) (a : ℝ) :
    IsRadial c (fun i => if i % 2 = 0 then r1 else r2) a (180 / (n : ℝ)) (starVerts (180 / (n : ℝ)) r1 r2 c n a) :=
  ⟨fun i h => starVerts_get _ r1 r2 c n a i h, by
    rw [starVerts_length]; push_cast; field_simp; norm_num⟩

theorem cosDeg_ne_one {θ : ℝ} (h0 : 0 < θ) (h1 : θ < 360) : cosDeg θ ≠ 1 := by
  unfold cosDeg
  have hp := Real.pi_pos
  intro h
  have h2 : 0 < θ * (Real.pi / 180) := by positivity
  have h3 : θ * (Real.pi / 180) < 360 * (Real.pi / 180) := by gcongr
  have := (Real.cos_eq_one_iff_of_lt_of_lt (x := θ * (Real.pi / 180)) (by linarith) (by linarith)).mp h
  linarith

theorem sinDeg_pos {θ : ℝ} (h0 : 0 < θ) (h1 : θ < 180) : 0 < sinDeg θ := by
  unfold sinDeg
  have hp := Real.pi_pos
  apply Real.sin_pos_of_pos_of_lt_pi
  · positivity
  · have : θ * (Real.pi / 180) < 180 * (Real.pi / 180) := by gcongr
    linarith

/-- What `Polygon.regular` builds. -/
theorem regular_eq (n : ℕ) (hn : 3 ≤ n) (r : ℝ) (c : Vec2 ℝ) (a : ℝ) :
    ∃ s q, Polygon.regular (n : ℤ) r c a = .ok s ∧ Polygon.new (regularVerts (360 / (n : ℝ)) r c n a) (some true) none = .ok q ∧
      s = { q with
        centroid := some (some c)
        maxR := some r
        maxR2 := some (r * r)
        minR := some (midRadius q.verts c)
        minR2 := some (midRadius q.verts c * midRadius q.verts c)
        dupeVerts := some false } ∧ q.verts = regularVerts (360 / (n : ℝ)) r c n a := by
  obtain ⟨q, hq, hv⟩ := (C43_new (regularVerts (360 / (n : ℝ)) r c n a) (some true) none).2 (by rw [regularVerts_length]; exact hn)
  refine ⟨_, q, ?_, hq, rfl, hv⟩
  have h0 : ((n : ℤ) : ℝ) ≠ 0 := by
    have : (n : ℤ) ≠ 0 := by omega
    exact_mod_cast this
  unfold Polygon.regular pydiv
  have h1 : ((PyMath.ofInt (n : ℤ) : ℝ) == 0) = false := by
    rw [beq_eq_false_iff_ne]; exact h0
  have h2 : (PyMath.ofInt 360 : ℝ) / PyMath.ofInt (n : ℤ) = 360 / n := by
    change ((360 : ℤ) : ℝ) / ((n : ℤ) : ℝ) = _
    push_cast; rfl
  simp only [h1, bind, Except.bind, h2, Int.toNat_natCast, Bool.false_eq_true, if_false, hq, pure, Except.pure, Vec2.copy_eq]

/-- **C59** `Polygon.regular(n, r, c, a)` for `n ≥ 3` has exactly `n` vertices, vertex `k` at distance `|r|` from `c` at the
angle `a + 360 k / n`. -/
theorem C59_regular (n : ℕ) (hn : 3 ≤ n) (r : ℝ) (c : Vec2 ℝ) (a : ℝ) :
    ∃ s, Polygon.regular (n : ℤ) r c a = .ok s ∧ s.verts.length = n ∧
      (∀ (k : ℕ) (v : Vec2 ℝ), s.verts[k]? = some v → v = circ c r (a + 360 * k / n) ∧ v.distanceTo c = |r|) ∧
      s.isConvex.1 = true ∧ s.isSimple.1 = true ∧ s.getCentroid.1 = .ok (some c) := by
  obtain ⟨s, q, hs, hq, he, hv⟩ := regular_eq n hn r c a
  have hsv : s.verts = regularVerts (360 / (n : ℝ)) r c n a := by rw [he]; exact hv
  refine ⟨s, hs, by rw [hsv, regularVerts_length], ?_, ?_⟩
  · intro k v hk
    rw [hsv] at hk
    obtain ⟨h1, h2⟩ := List.getElem?_eq_some_iff.mp hk
    rw [regularVerts_get] at h2
    rw [← h2]
    refine ⟨?_, circ_dist _ _ _⟩
    congr 1; ring
  · rw [new_eq _ _ _ (by rw [regularVerts_length]; exact hn)] at hq
    injection hq with hq
    subst hq
    subst he
    refine ⟨?_, ?_, ?_⟩
    · unfold Polygon.isConvex; simp only; split <;> simp_all
    · unfold Polygon.isSimple; simp
    · unfold Polygon.getCentroid; simp

/-- **C59** the reported centroid of a regular polygon is its area centroid. -/
theorem C59_regular_centroid (n : ℕ) (hn : 3 ≤ n) (r : ℝ) (hr : r ≠ 0) (c : Vec2 ℝ) (a : ℝ) :
    ∃ s, Polygon.regular (n : ℤ) r c a = .ok s ∧ area2 s.verts ≠ 0 ∧ areaCentroid s.verts = c := by
  obtain ⟨s, q, hs, hq, he, hv⟩ := regular_eq n hn r c a
  have hsv : s.verts = regularVerts (360 / (n : ℝ)) r c n a := by rw [he]; exact hv
  have hR := regular_radial n (by omega) r c a
  have hn' : (3 : ℝ) ≤ n := by exact_mod_cast hn
  have hA : area2 (regularVerts (360 / (n : ℝ)) r c n a) ≠ 0 := by
    rw [hR.area (r * r) (fun _ _ => rfl), regularVerts_length]
    have : 0 < sinDeg (360 / n) := sinDeg_pos (by positivity) (by rw [div_lt_iff₀ (by linarith)]; linarith)
    have : r * r ≠ 0 := mul_ne_zero hr hr
    have : (n : ℝ) ≠ 0 := by linarith
    positivity
  refine ⟨s, hs, by rw [hsv]; exact hA, ?_⟩
  rw [hsv]
  refine hR.centroid 1 (fun _ _ => rfl) ?_ hA
  rw [Nat.cast_one, one_mul]
  exact cosDeg_ne_one (by positivity) (by rw [div_lt_iff₀ (by linarith)]; linarith)

/-- **C59** fewer than three vertices raise `ValueError`. (Partial: a count of zero raises `ZeroDivisionError`,
`C59_zero_violated`.) -/
theorem C59_regular_few_partial (n : ℤ) (hn : n < 3) (h0 : n ≠ 0) (r : ℝ) (c : Vec2 ℝ) (a : ℝ) :
    Polygon.regular n r c a = .error .valueError := by
  unfold Polygon.regular pydiv
  have h1 : ((PyMath.ofInt n : ℝ) == 0) = false := by
    rw [beq_eq_false_iff_ne]
    change (n : ℝ) ≠ 0
    exact_mod_cast h0
  have h2 := (C43_new (regularVerts ((PyMath.ofInt 360 : ℝ) / PyMath.ofInt n) r c n.toNat a) (some true) none).1
    (by rw [regularVerts_length]; omega)
  simp only [h1, bind, Except.bind, Bool.false_eq_true, if_false, h2]

/-- **C59** a count of zero raises the wrong exception. -/
theorem C59_zero_violated (r : ℝ) (c : Vec2 ℝ) (a : ℝ) : Polygon.regular 0 r c a = .error .zeroDivisionError := by
  unfold Polygon.regular pydiv
  have h1 : ((PyMath.ofInt 0 : ℝ) == 0) = true := by
    rw [beq_iff_eq]
    change ((0 : ℤ) : ℝ) = 0
    simp
  simp only [h1, if_true, bind, Except.bind]

/-- What `Polygon.star` builds. -/
theorem star_eq (n : ℕ) (hn : 2 ≤ n) (r1 r2 : ℝ) (c : Vec2 ℝ) (a : ℝ) :
    ∃ s, Polygon.star (n : ℤ) r1 r2 c a = .ok s ∧ s.verts = starVerts (180 / (n : ℝ)) r1 r2 c n a ∧
      s.centroid = (if (0 < r1 ↔ 0 < r2) then some (some c) else none) ∧
      s.maxR2 = some (max |r1| |r2| * max |r1| |r2|) ∧
      s.convex = some (decide (r1 = r2)) ∧
      s.simple = (if (0 < r1 ↔ 0 < r2) then some true else none) ∧
      s.yPolylines = (if r1 = r2 then some (splitYPolylines s.verts) else none) ∧ s.bbox = none ∧
      s.minR2 = (if 0 ≤ r1 ↔ 0 ≤ r2 then (if r1 = r2 then some (midRadius s.verts c * midRadius s.verts c)
        else some (min |r1| |r2| * min |r1| |r2|)) else none) := by
  have h0 : ((n : ℤ) : ℝ) ≠ 0 := by
    have : (n : ℤ) ≠ 0 := by omega
    exact_mod_cast this
  have h1 : ((PyMath.ofInt (n : ℤ) : ℝ) == 0) = false := by
    rw [beq_eq_false_iff_ne]; exact h0
  have h2 : (PyMath.ofInt 180 : ℝ) / PyMath.ofInt (n : ℤ) = 180 / (n : ℝ) := by
    change ((180 : ℤ) : ℝ) / ((n : ℤ) : ℝ) = _
    push_cast; rfl
  have hl : (starVerts (180 / (n : ℝ)) r1 r2 c n a).length = 2 * n := starVerts_length _ _ _ _ _ _
  have h3 : 3 < (starVerts (180 / (n : ℝ)) r1 r2 c n a).length := by omega
  have habs : ∀ x : ℝ, pyabs x = |x| := fun x => by
    unfold pyabs; split
    · rw [abs_of_neg (by assumption)]
    · rw [abs_of_nonneg (not_lt.mp (by assumption))]
  unfold Polygon.star pydiv
  simp only [show ¬ (n : ℤ) < 2 by omega, if_false, h1, bind, Except.bind, h2, Int.toNat_natCast, Bool.false_eq_true,
    new_eq _ _ _ h3.le, pure, Except.pure]
  refine ⟨_, rfl, ?_⟩
  generalize starVerts (180 / (n : ℝ)) r1 r2 c n a = L at *
  have hmax : pymax |r1| |r2| = max |r1| |r2| := by
    unfold pymax; split
    · rw [max_eq_right (by linarith)]
    · rw [max_eq_left (by linarith)]
  have hmin : pymin |r1| |r2| = min |r1| |r2| := by
    unfold pymin; split
    · rw [min_eq_right (by linarith)]
    · rw [min_eq_left (by linarith)]
  have hc1 : (cleared L none).centroid = none := rfl
  have hc2 : (cleared L none).minR2 = none := rfl
  have hc0 : (cleared L none).verts = L := rfl
  have hc3 : (cleared L none).bbox = none := rfl
  by_cases hA : 0 < r1 <;> by_cases hB : 0 < r2 <;> by_cases hC : 0 ≤ r1 <;> by_cases hD : 0 ≤ r2 <;> by_cases hE : r1 = r2 <;>
    first
    | (exfalso; linarith)
    | simp [hA, hB, hC, hD, hE, h3, habs, hmax, hmin, hc0, hc1, hc2, hc3, Vec2.copy_eq]

/-- **C59** `Polygon.star(n, r1, r2, c, a)` for `n ≥ 2` has `2n` vertices; vertex `2k` is at distance `|r1|` from `c` at the
angle `a + 360 k / n`, vertex `2k + 1` at distance `|r2|` half way to the next one. -/
theorem C59_star (n : ℕ) (hn : 2 ≤ n) (r1 r2 : ℝ) (c : Vec2 ℝ) (a : ℝ) :
    ∃ s, Polygon.star (n : ℤ) r1 r2 c a = .ok s ∧ s.verts.length = 2 * n ∧
      ∀ k : ℕ, k < n →
        (∃ v, s.verts[2 * k]? = some v ∧ v = circ c r1 (a + 360 * k / n) ∧ v.distanceTo c = |r1|) ∧
        (∃ v, s.verts[2 * k + 1]? = some v ∧ v = circ c r2 (a + 360 * k / n + 180 / n) ∧ v.distanceTo c = |r2|) := by
  obtain ⟨s, hs, hv, -⟩ := star_eq n hn r1 r2 c a
  refine ⟨s, hs, by rw [hv, starVerts_length], fun k hk => ?_⟩
  have hl := starVerts_length (180 / (n : ℝ)) r1 r2 c n a
  rw [hv]
  have h0 : 2 * k < (starVerts (180 / (n : ℝ)) r1 r2 c n a).length := by omega
  have h1 : 2 * k + 1 < (starVerts (180 / (n : ℝ)) r1 r2 c n a).length := by omega
  refine ⟨⟨_, List.getElem?_eq_getElem h0, ?_⟩, ⟨_, List.getElem?_eq_getElem h1, ?_⟩⟩
  · rw [starVerts_get, if_pos (by omega)]
    refine ⟨?_, circ_dist _ _ _⟩
    congr 1; push_cast; ring
  · rw [starVerts_get, if_neg (by omega)]
    refine ⟨?_, circ_dist _ _ _⟩
    congr 1; push_cast; ring

/-- **C59** the reported centroid of a star with radii of the same sign is its centre, and that is its area centroid. -/
theorem C59_star_centroid (n : ℕ) (hn : 2 ≤ n) (r1 r2 : ℝ) (c : Vec2 ℝ) (a : ℝ) (hr : 0 < r1 * r2) :
    ∃ s, Polygon.star (n : ℤ) r1 r2 c a = .ok s ∧ s.getCentroid.1 = .ok (some c) ∧
      area2 s.verts ≠ 0 ∧ areaCentroid s.verts = c := by
  obtain ⟨s, hs, hv, hc, -⟩ := star_eq n hn r1 r2 c a
  have hsign : 0 < r1 ↔ 0 < r2 := by
    rcases mul_pos_iff.mp hr with h | h
    · exact ⟨fun _ => h.2, fun _ => h.1⟩
    · exact ⟨fun h' => absurd h' (not_lt.mpr h.1.le), fun h' => absurd h' (not_lt.mpr h.2.le)⟩
  rw [if_pos hsign] at hc
  have hR := star_radial n (by omega) r1 r2 c a
  have hn' : (2 : ℝ) ≤ n := by exact_mod_cast hn
  have hl := starVerts_length (180 / (n : ℝ)) r1 r2 c n a
  have hA : area2 (starVerts (180 / (n : ℝ)) r1 r2 c n a) ≠ 0 := by
    rw [hR.area (r1 * r2) ?_, hl]
    · have : 0 < sinDeg (180 / n) := sinDeg_pos (by positivity) (by rw [div_lt_iff₀ (by linarith)]; linarith)
      push_cast
      positivity
    · intro i hi
      rw [hl] at hi ⊢
      rcases Nat.mod_two_eq_zero_or_one i with h | h
      · have : (i + (2 * n - 1)) % (2 * n) % 2 = 1 := by
          rw [Nat.mod_mod_of_dvd _ (Dvd.intro _ rfl)]; omega
        rw [if_neg (by omega), if_pos h]; ring
      · have : (i + (2 * n - 1)) % (2 * n) % 2 = 0 := by
          rw [Nat.mod_mod_of_dvd _ (Dvd.intro _ rfl)]; omega
        rw [if_pos this, if_neg (by omega)]
  refine ⟨s, hs, by unfold Polygon.getCentroid; rw [hc], by rw [hv]; exact hA, ?_⟩
  rw [hv]
  refine hR.centroid 2 ?_ ?_ hA
  · intro i hi
    rw [hl]
    have : (i + 2) % (2 * n) % 2 = i % 2 := by
      rw [Nat.mod_mod_of_dvd _ (Dvd.intro _ rfl)]; omega
    simp only [this]
  · exact cosDeg_ne_one (by positivity) (by
      push_cast
      rw [← mul_div_assoc, div_lt_iff₀ (by linarith)]; linarith)

/-- **C59** fewer than two peaks raise `ValueError`. -/
theorem C59_star_few (n : ℤ) (hn : n < 2) (r1 r2 : ℝ) (c : Vec2 ℝ) (a : ℝ) :
    Polygon.star n r1 r2 c a = .error .valueError := by
  unfold Polygon.star
  rw [if_pos hn]

/-- The hypotheses of the theorems above are met by a square and a five-pointed star. -/
example : (∃ s, Polygon.regular 4 (2 : ℝ) ⟨1, 1⟩ 0 = .ok s ∧ s.verts[1]? = some ⟨1, 3⟩) ∧
    ∃ s, Polygon.star 5 (3 : ℝ) 1 ⟨0, 0⟩ 90 = .ok s ∧ s.verts.length = 10 := by
  constructor
  · obtain ⟨s, hs, hl, hv, -⟩ := C59_regular 4 (by norm_num) 2 ⟨1, 1⟩ 0
    refine ⟨s, hs, ?_⟩
    have h1 : 1 < s.verts.length := by omega
    rw [List.getElem?_eq_getElem h1, (hv 1 _ (List.getElem?_eq_getElem h1)).1]
    congr 1
    unfold circ
    have : (0 + 360 * ((1 : ℕ) : ℝ) / ((4 : ℕ) : ℝ)) = 90 := by norm_num
    rw [this, cosDeg_90, sinDeg_90]
    apply Vec2.ext <;> norm_num
  · obtain ⟨s, hs, hl, -⟩ := C59_star 5 (by norm_num) 3 1 ⟨0, 0⟩ 90
    exact ⟨s, hs, hl⟩

end Planar
