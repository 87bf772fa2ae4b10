import Verif.Props.Line
/- Properties C34 and C38 for Ray. -/
set_option linter.unusedSectionVars false
namespace Planar
open Spec

/-- The points of a ray. -/
def Ray.Pt (r : Ray ℝ) (p : Vec2 ℝ) : Prop := OnRay r.anchor r.direction p

/-- The ways to build a Ray. -/
inductive RayCtor where
  | new (anchor direction : Vec2 ℝ)
  | fromPoints (ps : List (Vec2 ℝ))

/-- The ray a constructor call builds, or its exception. -/
noncomputable def RayCtor.build (eps : ℝ) : RayCtor → Py (Ray ℝ)
  | .new p d => Ray.new eps p d
  | .fromPoints ps => Ray.fromPoints eps ps

/-- The ways to change a Ray. -/
inductive RayOp where
  | setDirection (v : Vec2 ℝ)
  | setNormal (v : Vec2 ℝ)
  | setAnchor (v : Vec2 ℝ)
  | imul (T : Affine ℝ)

/-- One change: its result and the ray afterwards. -/
noncomputable def RayOp.exec (eps : ℝ) (s : Ray ℝ) : RayOp → Py Unit × Ray ℝ
  | .setDirection v => s.setDirection eps v
  | .setNormal v => s.setNormal eps v
  | .setAnchor v => (.ok (), s.setAnchor v)
  | .imul T => s.imul eps T

/-- The ray after a history of changes. -/
noncomputable def RayOp.run (eps : ℝ) (s : Ray ℝ) (ops : List RayOp) : Ray ℝ :=
  ops.foldl (fun s op => (op.exec eps s).2) s

theorem Ray.new_ok {eps : ℝ} (h0 : 0 < eps) (h1 : eps < 1) {p d : Vec2 ℝ} (h : eps < d.length) :
    Ray.new eps p d = .ok ⟨⟨unitOf d, ⟨(unitOf d).y, -(unitOf d).x⟩⟩, p⟩ := by
  simp [Ray.new, ofDirection_long h0.le h1.le h]

theorem Ray.new_error {eps : ℝ} (h0 : 0 < eps) {p d : Vec2 ℝ} (h : d.length ≤ eps) :
    Ray.new eps p d = .error .valueError := by
  simp [Ray.new, ofDirection_short h0 h]

theorem RayCtor.frame {eps : ℝ} (h0 : 0 < eps) (c : RayCtor) (l : Ray ℝ)
    (h : c.build eps = .ok l) : l.Frame := by
  cases c with
  | new p d =>
    simp only [RayCtor.build, Ray.new, bind, Except.bind] at h
    split at h
    · cases h
    · rename_i k hk
      obtain rfl := Except.ok.inj h
      exact (ofDirection_frame h0 hk).1
  | fromPoints ps =>
    simp only [RayCtor.build, Ray.fromPoints, bind, Except.bind] at h
    split at h
    · cases h
    · split at h
      · cases h
      · rename_i k hk
        split at h
        · obtain rfl := Except.ok.inj h
          exact (ofDirection_frame h0 hk).1
        · cases h

/-- **C34** (Ray) one change either succeeds or raises ValueError and leaves the ray as it was. -/
theorem C34_ray_step (eps : ℝ) (h0 : 0 < eps) (s : Ray ℝ) (hs : s.Frame) (op : RayOp) :
    (op.exec eps s).2.Frame ∧
    ((op.exec eps s).1 = .ok () ∨ op.exec eps s = (.error .valueError, s)) := by
  cases op with
  | setDirection v =>
    rcases Lin.setDirection_cases h0 s.toLin v with ⟨e1, e2⟩ | e
    · simp only [RayOp.exec, Ray.setDirection, e1]; exact ⟨e2, Or.inl trivial⟩
    · simp only [RayOp.exec, Ray.setDirection, e]; exact ⟨hs, Or.inr trivial⟩
  | setNormal v =>
    rcases Lin.setNormal_cases h0 s.toLin v with ⟨e1, e2⟩ | e
    · simp only [RayOp.exec, Ray.setNormal, e1]; exact ⟨e2, Or.inl trivial⟩
    · simp only [RayOp.exec, Ray.setNormal, e]; exact ⟨hs, Or.inr trivial⟩
  | setAnchor o => exact ⟨hs, Or.inl rfl⟩
  | imul T =>
    rcases Lin.setDirection_cases h0 s.toLin (T.apply s.points.2 - T.apply s.points.1) with ⟨e1, e2⟩ | e
    · simp only [RayOp.exec, Ray.imul, Ray.setDirection, e1]; exact ⟨e2, Or.inl trivial⟩
    · simp only [RayOp.exec, Ray.imul, Ray.setDirection, e]; exact ⟨hs, Or.inr trivial⟩

/-- **C34** (Ray) after any constructor and any history of changes. -/
theorem C34_ray (eps : ℝ) (h0 : 0 < eps) (c : RayCtor) (l : Ray ℝ)
    (h : c.build eps = .ok l) (ops : List RayOp) : (RayOp.run eps l ops).Frame := by
  have hl := c.frame h0 l h
  clear h
  unfold RayOp.run
  induction ops generalizing l with
  | nil => exact hl
  | cons op ops ih => exact ih _ (C34_ray_step eps h0 l hl op).1

example : (RayCtor.new ⟨1, 2⟩ ⟨3, 4⟩).build (1/100000) = .ok ⟨⟨⟨3/5, 4/5⟩, ⟨4/5, -(3/5)⟩⟩, ⟨1, 2⟩⟩ := by
  simp only [RayCtor.build]
  rw [Ray.new_ok (by norm_num) (by norm_num) (by rw [len34]; norm_num)]
  simp [unitOf, len34]

/-! ### C38 -/

/-- Coordinates of `p` in the frame of the ray or segment: along and across. -/
theorem frame_coords {dx dy : ℝ} (hu : dx * dx + dy * dy = 1) (wx wy : ℝ) :
    wx = dx * (dx * wx + dy * wy) + dy * (dy * wx - dx * wy) ∧
    wy = dy * (dx * wx + dy * wy) - dx * (dy * wx - dx * wy) := by
  constructor
  · linear_combination -wx * hu
  · linear_combination -wy * hu

/-- **C38** `ray.distance_to` is the distance to the ray. -/
theorem C38_distance (r : Ray ℝ) (h : r.Frame) (p : Vec2 ℝ) : IsDist r.Pt p (r.distanceTo p) Vec2.distanceTo := by
  obtain ⟨dx, dy, hu, hd, hn⟩ := h.eqs
  obtain ⟨hx, hy⟩ := frame_coords hu (p.x - r.anchor.x) (p.y - r.anchor.y)
  set A := dx * (p.x - r.anchor.x) + dy * (p.y - r.anchor.y) with hA
  set B := dy * (p.x - r.anchor.x) - dx * (p.y - r.anchor.y) with hB
  have hdist : r.distanceTo p = if A ≥ 0 then |B| else (p - r.anchor).length := by
    simp only [Ray.distanceTo, Vec2.copy_eq, Vec2.dot, hd, hn, Vec2.sub_x, Vec2.sub_y, pyabs_eq_abs]
    rw [← hA, show (p.x - r.anchor.x) * dy + (p.y - r.anchor.y) * -dx = B by rw [hB]; ring]
  rw [hdist]
  have hlen : ∀ t : ℝ, ∀ q : Vec2 ℝ, q.x = r.anchor.x + t * dx → q.y = r.anchor.y + t * dy →
      (p - q).length2 = (A - t) * (A - t) + B * B := by
    intro t q h1 h2
    have e1 : p.x - q.x = dx * (A - t) + dy * B := by rw [h1]; linear_combination hx
    have e2 : p.y - q.y = dy * (A - t) - dx * B := by rw [h2]; linear_combination hy
    simp only [Vec2.length2, Vec2.sub_x, Vec2.sub_y, e1, e2]
    linear_combination ((A - t) * (A - t) + B * B) * hu
  have hanc : (p - r.anchor).length2 = A * A + B * B := by
    have := hlen 0 r.anchor (by simp) (by simp); simpa using this
  simp only [IsDist, Ray.Pt, OnRay, hd]
  by_cases hA0 : A ≥ 0
  · rw [if_pos hA0]
    refine ⟨⟨⟨r.anchor.x + A * dx, r.anchor.y + A * dy⟩, ⟨A, hA0, rfl, rfl⟩, ?_⟩, ?_⟩
    · rw [distanceTo_eq_length, length_eq_iff (abs_nonneg _), abs_mul_abs_self, hlen A _ rfl rfl]; ring
    · rintro q ⟨t, -, h1, h2⟩
      rw [distanceTo_eq_length, le_length_iff (abs_nonneg _), abs_mul_abs_self, hlen t _ h1 h2]
      nlinarith [mul_self_nonneg (A - t)]
  · rw [if_neg hA0]
    refine ⟨⟨r.anchor, ⟨0, le_rfl, by simp, by simp⟩, by rw [distanceTo_eq_length]⟩, ?_⟩
    rintro q ⟨t, ht, h1, h2⟩
    rw [distanceTo_eq_length, le_length_iff (length_nonneg _), length_mul_self, hlen t _ h1 h2, hanc]
    have : A < 0 := not_le.mp hA0
    nlinarith

/-- **C38** contains_point: within EPSILON of the ray. -/
theorem C38_contains (eps : ℝ) (r : Ray ℝ) (h : r.Frame) (p : Vec2 ℝ) :
    r.containsPoint eps p = true ↔ ∃ q, r.Pt q ∧ p.distanceTo q < eps := by
  obtain ⟨⟨q, hq, hd⟩, hle⟩ := C38_distance r h p
  simp only [Ray.containsPoint, decide_eq_true_eq]
  constructor
  · intro h'; exact ⟨q, hq, by rw [hd]; exact h'⟩
  · rintro ⟨q', hq', h'⟩; exact lt_of_le_of_lt (hle q' hq') h'

/-- **C38** behind, left and right exclude each other (what they leave out: `C38_sides_cover`). -/
theorem C38_sides (eps : ℝ) (h0 : 0 < eps) (r : Ray ℝ) (p : Vec2 ℝ) :
    ¬ (r.pointBehind eps p = true ∧ r.pointLeft eps p = true) ∧
    ¬ (r.pointBehind eps p = true ∧ r.pointRight eps p = true) ∧
    ¬ (r.pointLeft eps p = true ∧ r.pointRight eps p = true) := by
  simp only [Ray.pointBehind, Ray.pointLeft, Ray.pointRight, Bool.and_eq_true, decide_eq_true_eq]
  refine ⟨?_, ?_, ?_⟩
  · rintro ⟨a, b, -⟩; linarith
  · rintro ⟨a, b, -⟩; linarith
  · rintro ⟨⟨-, a⟩, -, b⟩; linarith

/-- **C38** what behind, left and right mean: along and across coordinates relative to the anchor. -/
theorem C38_sides_meaning (eps : ℝ) (r : Ray ℝ) (h : r.Frame) (p : Vec2 ℝ) :
    (r.pointBehind eps p = true ↔ r.direction.dot (p - r.anchor) ≤ -eps) ∧
    (r.pointLeft eps p = true ↔ -eps < r.direction.dot (p - r.anchor) ∧ eps ≤ r.direction.cross (p - r.anchor)) ∧
    (r.pointRight eps p = true ↔ -eps < r.direction.dot (p - r.anchor) ∧ r.direction.cross (p - r.anchor) ≤ -eps) := by
  obtain ⟨dx, dy, hu, hd, hn⟩ := h.eqs
  simp only [Ray.pointBehind, Ray.pointLeft, Ray.pointRight, Bool.and_eq_true, decide_eq_true_eq, Vec2.copy_eq,
    Vec2.dot, Vec2.cross, hd, hn, gt_iff_lt, ge_iff_le, true_and]
  refine ⟨and_congr_right fun _ => ?_, and_congr_right fun _ => ?_⟩ <;> constructor <;> intro h' <;> linarith

/-- **C38** project. -/
theorem C38_project (eps : ℝ) (h0 : 0 ≤ eps) (h1 : eps < 1) (r : Ray ℝ) (h : r.Frame) (p : Vec2 ℝ) :
    ∃ q, r.project eps p = .ok q ∧ p.distanceTo q ≤ r.distanceTo p ∧
      (r.Pt q ∨ ∃ a, r.Pt a ∧ q.distanceTo a < eps) ∧
      ((0 ≤ r.direction.dot (p - r.anchor) ∨ r.pointBehind eps p = true) →
        r.Pt q ∧ ∀ s, r.Pt s → p.distanceTo q ≤ p.distanceTo s) := by
  have hD := C38_distance r h p
  obtain ⟨dx, dy, hu, hd, hn⟩ := h.eqs
  obtain ⟨hx, hy⟩ := frame_coords hu (p.x - r.anchor.x) (p.y - r.anchor.y)
  set A := dx * (p.x - r.anchor.x) + dy * (p.y - r.anchor.y) with hA
  set B := dy * (p.x - r.anchor.x) - dx * (p.y - r.anchor.y) with hB
  have hdist : r.distanceTo p = if A ≥ 0 then |B| else (p - r.anchor).length := by
    simp only [Ray.distanceTo, Vec2.copy_eq, Vec2.dot, hd, hn, Vec2.sub_x, Vec2.sub_y, pyabs_eq_abs]
    rw [← hA, show (p.x - r.anchor.x) * dy + (p.y - r.anchor.y) * -dx = B by rw [hB]; ring]
  have hpr : r.project eps p = .ok (if A > -eps then ⟨dx * A + r.anchor.x, dy * A + r.anchor.y⟩ else r.anchor) := by
    have e1 : Vec2.dot ⟨dx, dy⟩ (p - r.anchor) = A := by simp [Vec2.dot, hA]
    have e2 : Vec2.dot ⟨dx * A, dy * A⟩ ⟨dx, dy⟩ = A := by simp only [Vec2.dot]; linear_combination A * hu
    simp only [Ray.project, Vec2.copy_eq, hd, project_unit h0 h1 (d := ⟨dx, dy⟩) hu, bind, Except.bind, e1, e2]
    split <;> rfl
  have hlen : (p - ⟨dx * A + r.anchor.x, dy * A + r.anchor.y⟩).length2 = B * B := by
    have e1 : p.x - (dx * A + r.anchor.x) = dy * B := by linear_combination hx
    have e2 : p.y - (dy * A + r.anchor.y) = -dx * B := by linear_combination hy
    simp only [Vec2.length2, Vec2.sub_x, Vec2.sub_y, e1, e2]
    linear_combination (B * B) * hu
  have hanc : (p - r.anchor).length2 = A * A + B * B := by
    simp only [Vec2.length2, Vec2.sub_x, Vec2.sub_y]
    have e1 := hx; have e2 := hy
    rw [e1, e2]; linear_combination (A * A + B * B) * hu
  have hAdot : r.direction.dot (p - r.anchor) = A := by simp [Vec2.dot, hd, hA]
  have hbehind : r.pointBehind eps p = true ↔ A ≤ -eps := by
    simp only [Ray.pointBehind, Vec2.copy_eq, hAdot, decide_eq_true_eq]
  have hancPt : r.Pt r.anchor := ⟨0, le_rfl, by simp, by simp⟩
  refine ⟨_, hpr, ?_⟩
  rw [hbehind, hAdot]
  by_cases hA1 : A > -eps
  · rw [if_pos hA1]
    have hle : p.distanceTo ⟨dx * A + r.anchor.x, dy * A + r.anchor.y⟩ ≤ r.distanceTo p := by
      rw [hdist, distanceTo_eq_length]
      split
      · rw [length_le_iff (abs_nonneg _), abs_mul_abs_self, hlen]
      · rw [length_le_iff (length_nonneg _), length_mul_self, hlen, hanc]; nlinarith [mul_self_nonneg A]
    refine ⟨hle, ?_, ?_⟩
    · rcases le_or_gt 0 A with hA0 | hA0
      · left; exact ⟨A, hA0, by simp only [hd]; ring, by simp only [hd]; ring⟩
      · right; refine ⟨r.anchor, hancPt, ?_⟩
        rw [distanceTo_eq_length, length_lt_iff h0]
        simp only [Vec2.length2, Vec2.sub_x, Vec2.sub_y]
        have : (dx * A + r.anchor.x - r.anchor.x) * (dx * A + r.anchor.x - r.anchor.x) +
          (dy * A + r.anchor.y - r.anchor.y) * (dy * A + r.anchor.y - r.anchor.y) = A * A := by
          linear_combination A * A * hu
        rw [this]; nlinarith
    · rintro (hA0 | hA0)
      · refine ⟨⟨A, hA0, by simp only [hd]; ring, by simp only [hd]; ring⟩, ?_⟩
        intro s hs
        exact hle.trans (hD.2 s hs)
      · exact absurd hA1 (not_lt.mpr hA0)
  · rw [if_neg hA1]
    have hAneg : A ≤ -eps := not_lt.mp hA1
    have hle : p.distanceTo r.anchor ≤ r.distanceTo p := by
      rw [hdist, distanceTo_eq_length]
      split
      · rename_i hA2
        have : A = 0 := by linarith
        rw [length_le_iff (abs_nonneg _), abs_mul_abs_self, hanc, this]; simp
      · exact le_rfl
    exact ⟨hle, Or.inl hancPt, fun _ => ⟨hancPt, fun s hs => hle.trans (hD.2 s hs)⟩⟩

theorem Ray.fromPoints_eq {eps : ℝ} (h0 : 0 < eps) (h1 : eps < 1) {ps : List (Vec2 ℝ)} {a b : Vec2 ℝ}
    {r : List (Vec2 ℝ)} (h : firstTwoDistinct ps = .ok (a, b, r)) :
    Ray.fromPoints eps ps = if eps < (b - a).length then
      (match Ray.new eps a (b - a) with
       | .ok l => if ∀ p ∈ r, l.containsPoint eps p = true then .ok l else .error .valueError
       | .error e => .error e) else .error .valueError := by
  simp only [Ray.fromPoints, h, bind, Except.bind]
  by_cases hl : eps < (b - a).length
  · rw [ofDirection_long h0.le h1.le hl, Ray.new_ok h0 h1 hl]
    simp only [hl, if_true, List.all_eq_true, Vec2.copy_eq]
    rfl
  · rw [ofDirection_short h0 (not_lt.mp hl)]
    simp [hl]

/-- **C38** `Ray(anchor, direction)`. -/
theorem C38_new (eps : ℝ) (h0 : 0 < eps) (h1 : eps < 1) (p d : Vec2 ℝ) :
    (eps < d.length → ∃ r, Ray.new eps p d = .ok r ∧ r.Frame ∧ r.anchor = p ∧ r.direction.smul d.length = d) ∧
    (d.length ≤ eps → Ray.new eps p d = .error .valueError) :=
  ⟨fun h => ⟨_, Ray.new_ok h0 h1 h, frame_unitOf (h0.trans h), rfl, unitOf_smul (h0.trans h)⟩, Ray.new_error h0⟩

/-- **C38** `Ray.from_points`: ValueError unless there are two distinct points, the first two distinct ones are more than
EPSILON apart, and the others are within EPSILON of the ray from the first through the second. -/
theorem C38_from_points (eps : ℝ) (h0 : 0 < eps) (h1 : eps < 1) (ps : List (Vec2 ℝ)) :
    ((∀ a ∈ ps, ∀ b ∈ ps, a = b) → Ray.fromPoints eps ps = .error .valueError) ∧
    (∀ k a b rest, a ≠ b → ps = List.replicate (k + 1) a ++ b :: rest →
      ((∃ r, Ray.fromPoints eps ps = .ok r) ↔
        eps < (b - a).length ∧ ∀ p ∈ rest, ∃ q, OnRay a (b - a) q ∧ p.distanceTo q < eps) ∧
      (∀ e, Ray.fromPoints eps ps = .error e → e = .valueError) ∧
      ∀ r, Ray.fromPoints eps ps = .ok r → r.Frame ∧ r.anchor = a ∧ r.direction.smul (b - a).length = b - a) := by
  obtain ⟨s1, s2, s3⟩ := firstTwoDistinct_spec ps
  refine ⟨?_, ?_⟩
  · intro h
    obtain ⟨e, he⟩ := s2.mpr h
    rw [s3 e he] at he
    simp only [Ray.fromPoints, he]; rfl
  · intro k a b rest hab hps
    have hf : firstTwoDistinct ps = .ok (a, b, rest) := hps ▸ firstTwoDistinct_replicate k a b rest hab
    rw [Ray.fromPoints_eq h0 h1 hf]
    by_cases hl : eps < (b - a).length
    · obtain ⟨l, hn, hfr, hpa, hdir⟩ := (C38_new eps h0 h1 a (b - a)).1 hl
      simp only [hl, if_true, hn, true_and]
      have hpos := h0.trans hl
      have hdx : l.direction.x * (b - a).length = b.x - a.x := by
        have := congrArg Vec2.x hdir; simpa using this
      have hdy : l.direction.y * (b - a).length = b.y - a.y := by
        have := congrArg Vec2.y hdir; simpa using this
      have hray : ∀ q, l.Pt q ↔ OnRay a (b - a) q := by
        intro q
        constructor
        · rintro ⟨t, ht, hx, hy⟩
          refine ⟨t / (b - a).length, div_nonneg ht hpos.le, ?_, ?_⟩
          · simp only [Vec2.sub_x]; rw [← hdx, hx, hpa]; field_simp
          · simp only [Vec2.sub_y]; rw [← hdy, hy, hpa]; field_simp
        · rintro ⟨t, ht, hx, hy⟩
          refine ⟨t * (b - a).length, mul_nonneg ht hpos.le, ?_, ?_⟩
          · simp only [Vec2.sub_x] at hx; rw [← hdx] at hx; rw [hx, hpa]; ring
          · simp only [Vec2.sub_y] at hy; rw [← hdy] at hy; rw [hy, hpa]; ring
      have hcont : ∀ p, l.containsPoint eps p = true ↔ ∃ q, OnRay a (b - a) q ∧ p.distanceTo q < eps := by
        intro p
        rw [C38_contains eps l hfr p]
        simp only [hray]
      refine ⟨?_, ?_, ?_⟩
      · constructor
        · rintro ⟨l', hl'⟩
          split at hl'
          · rename_i hall
            intro p hp; exact (hcont p).mp (hall p hp)
          · cases hl'
        · intro hall
          exact ⟨l, by rw [if_pos (fun p hp => (hcont p).mpr (hall p hp))]⟩
      · intro e he
        split at he
        · cases he
        · exact (Except.error.inj he).symm
      · intro l' hl'
        split at hl'
        · obtain rfl := Except.ok.inj hl'
          exact ⟨hfr, hpa, hdir⟩
        · cases hl'
    · simp [hl, eq_comm]

/-- **C38** `Ray.from_points(ray.points) == ray`. -/
theorem C38_points (eps : ℝ) (h0 : 0 < eps) (h1 : eps < 1) (r : Ray ℝ) (h : r.Frame) :
    r.Pt r.points.1 ∧ r.Pt r.points.2 ∧ Ray.fromPoints eps [r.points.1, r.points.2] = .ok r := by
  have hd : r.points.2 - r.points.1 = r.direction := by
    simp only [Ray.points]; ext <;> simp
  have hne : r.points.1 ≠ r.points.2 := by
    intro he
    have : r.direction = Vec2.null := by rw [← hd, he]; ext <;> simp
    have h' := h.1
    rw [this, length_eq_zero.mpr rfl] at h'
    norm_num at h'
  have hf : firstTwoDistinct [r.points.1, r.points.2] = .ok (r.points.1, r.points.2, []) :=
    firstTwoDistinct_replicate 0 _ _ _ hne
  have hlen : eps < r.direction.length := by rw [h.1]; exact h1
  refine ⟨⟨0, le_rfl, by simp [Ray.points], by simp [Ray.points]⟩,
    ⟨1, zero_le_one, by simp [Ray.points], by simp [Ray.points]⟩, ?_⟩
  rw [Ray.fromPoints_eq h0 h1 hf, hd, if_pos hlen, Ray.new_ok h0 h1 hlen, unitOf_of_unit h.1]
  simp only [List.not_mem_nil, false_imp_iff, implies_true, if_true, ← h.2.2]
  rfl

/-- **C38** the line of a ray contains the ray and runs the same way. -/
theorem C38_line (eps : ℝ) (h0 : 0 < eps) (h1 : eps < 1) (r : Ray ℝ) (h : r.Frame) :
    ∃ l, r.line eps = .ok l ∧ l.Frame ∧ l.direction = r.direction ∧ ∀ p, r.Pt p → l.Pt p := by
  obtain ⟨l, e1, e2, e3, e4⟩ := (C37_new eps h0 h1 r.anchor r.direction).1 (by rw [h.1]; exact h1)
  rw [h.1] at e4
  have hd : l.direction = r.direction := by rw [← e4]; ext <;> simp
  refine ⟨l, e1, e2, hd, ?_⟩
  rintro p ⟨t, -, hx, hy⟩
  obtain ⟨t0, hx0, hy0⟩ := e3
  exact ⟨t0 + t, by rw [hx, hx0, hd]; ring, by rw [hy, hy0, hd]; ring⟩

end Planar
