import Verif.Lemmas.FloatProject
import Verif.Props.FloatLines
import Verif.Props.FloatAffine
/- **C94** `project` and `reflect` of lines, rays and segments in double precision. -/
namespace Planar
open Spec
set_option linter.unusedSectionVars false
variable [PyMath Double] [SqrtOk]

theorem slack44 {M : ℝ} (hM : 0 ≤ M) {k : ℝ} (hk : k ≤ 512) : k * (uR * M) ≤ M / 2 ^ 44 := by
  have e : M / 2 ^ 44 = 512 * (uR * M) := by unfold uR; ring
  rw [e]
  exact mul_le_mul_of_nonneg_right hk (mul_nonneg uR_pos.le hM)

theorem slackη' {k : ℝ} (hk : k ≤ 100) : k * ηR ≤ 1 / 2 ^ 490 := by
  have h1 := ηR_θR; have h2 := slackθ; have h3 := ηR_pos; have h4 := θR_pos
  have := mul_le_mul_of_nonneg_right hk h3
  linarith

/-- **C94** `Line(a, v).project(p)` never raises; it is the foot of the perpendicular up to `M / 2 ^ 44`, where `M` bounds the
coordinates of `a` and `p`. -/
theorem C94_line_project (eps : Double) (he : 1 / 2 ^ 500 ≤ eps.real) (he1 : eps.real ≤ 1 / 2) (a v p : Vec2 Double)
    (hv : FiniteVec v) (M : ℝ) (hM : M ≤ 2 ^ 500) (ha : Within M a) (hp : Within M p) (l : Line Double)
    (h : Line.new eps a v = .ok l) (F : Vec2 ℝ) (hF : Nearest (OnLine (toReal a) (toReal v)) (toReal p) F) :
    ∃ q, l.project eps p = .ok q ∧ CloseTo (M / 2 ^ 44 + 1 / 2 ^ 490) q F := by
  obtain ⟨hd, hn, ho⟩ := new_line he he1 hv h
  have hvp : 0 < vlen (toReal v) := hd.pos
  have ep := (eps_small he).1
  have M0 : 0 ≤ M := (abs_nonneg _).trans ha.1
  obtain ⟨q, hq, qx, qy⟩ := line_project ep.le he1 hd.unit (hd.vec.mono (by norm_num)) hn ho ha hp hM
  obtain ⟨fx, fy⟩ := nearest_line hvp hF
  have hcs := vunit hvp
  have s1 := slack44 M0 (k := 125) (by norm_num)
  have s2 := slackη' (k := 20) (by norm_num)
  refine ⟨q, hq, ?_, ?_⟩
  · refine le_trans (le_of_eq ?_) (qx.trans (add_le_add s1 s2))
    rw [fx, ahead_eq hvp]
    have hcs' : (toReal v).x / vlen (toReal v) * ((toReal v).x / vlen (toReal v)) +
      (toReal v).y / vlen (toReal v) * ((toReal v).y / vlen (toReal v)) = 1 := hcs
    congr 1
    simp only [toReal, vlen] at *
    linear_combination a.x.real * hcs'
  · refine le_trans (le_of_eq ?_) (qy.trans (add_le_add s1 s2))
    rw [fy, ahead_eq hvp]
    have hcs' : (toReal v).x / vlen (toReal v) * ((toReal v).x / vlen (toReal v)) +
      (toReal v).y / vlen (toReal v) * ((toReal v).y / vlen (toReal v)) = 1 := hcs
    congr 1
    simp only [toReal, vlen] at *
    linear_combination a.y.real * hcs'

/-- **C94** `Line(a, v).reflect(p)` is the mirror image up to `M / 2 ^ 44`: as far beyond the foot of the perpendicular as `p`
is from it. -/
theorem C94_line_reflect (eps : Double) (he : 1 / 2 ^ 500 ≤ eps.real) (he1 : eps.real ≤ 1 / 2) (a v p : Vec2 Double)
    (hv : FiniteVec v) (M : ℝ) (hM : M ≤ 2 ^ 500) (ha : Within M a) (hp : Within M p) (l : Line Double)
    (h : Line.new eps a v = .ok l) (F : Vec2 ℝ) (hF : Nearest (OnLine (toReal a) (toReal v)) (toReal p) F) :
    CloseTo (M / 2 ^ 44 + 1 / 2 ^ 490) (l.reflect p) ⟨2 * F.x - (toReal p).x, 2 * F.y - (toReal p).y⟩ := by
  obtain ⟨hd, hn, ho⟩ := new_line he he1 hv h
  have hvp : 0 < vlen (toReal v) := hd.pos
  have M0 : 0 ≤ M := (abs_nonneg _).trans ha.1
  obtain ⟨qx, qy⟩ := line_reflect hd.unit (hd.vec.mono (by norm_num)) hn ho ha hp hM
  obtain ⟨fx, fy⟩ := nearest_line hvp hF
  have hcs' : (toReal v).x / vlen (toReal v) * ((toReal v).x / vlen (toReal v)) +
      (toReal v).y / vlen (toReal v) * ((toReal v).y / vlen (toReal v)) = 1 := vunit hvp
  have s1 := slack44 M0 (k := 220) (by norm_num)
  have s2 := slackη' (k := 40) (by norm_num)
  constructor
  · refine le_trans (le_of_eq ?_) (qx.trans (add_le_add s1 s2))
    rw [fx, ahead_eq hvp]
    congr 1
    simp only [toReal, vlen] at *
    linear_combination -2 * (p.x.real - a.x.real) * hcs'
  · refine le_trans (le_of_eq ?_) (qy.trans (add_le_add s1 s2))
    rw [fy, ahead_eq hvp]
    congr 1
    simp only [toReal, vlen] at *
    linear_combination -2 * (p.y.real - a.y.real) * hcs'

/-- Two points of a line through `A`, as far apart as their parameters. -/
theorem close_param {q : Vec2 Double} {F : Vec2 ℝ} {ax ay c s A B e g : ℝ} (c1 : |c| ≤ 1) (s1 : |s| ≤ 1)
    (qx : |q.x.real - (ax + A * c)| ≤ g) (qy : |q.y.real - (ay + A * s)| ≤ g) (fx : F.x = ax + B * c) (fy : F.y = ay + B * s)
    (h : |A - B| + g ≤ e) : CloseTo e q F := by
  have one : ∀ x f a c : ℝ, |c| ≤ 1 → |x - (a + A * c)| ≤ g → f = a + B * c → |x - f| ≤ e := by
    intro x f a c hc hx hf
    have t := abs_sub_le x (a + A * c) f
    rw [hf, show a + A * c - (a + B * c) = (A - B) * c by ring, abs_mul] at t
    have := mul_le_mul_of_nonneg_left hc (abs_nonneg (A - B))
    rw [hf]
    linarith
  exact ⟨one _ _ _ _ c1 qx fx, one _ _ _ _ s1 qy fy⟩

/-- **C94** `Ray(a, v).project(p)` never raises; it is the nearest point of the ray up to `M / 2 ^ 44` if `p` is not behind the
start, the start itself if `p` is behind by more than EPSILON (and that error), and in between at most EPSILON (and that error)
from the nearest point. -/
theorem C94_ray_project (eps : Double) (he : 1 / 2 ^ 500 ≤ eps.real) (he1 : eps.real ≤ 1 / 2) (a v p : Vec2 Double)
    (hv : FiniteVec v) (M : ℝ) (hM : M ≤ 2 ^ 500) (ha : Within M a) (hp : Within M p) (l : Ray Double)
    (h : Ray.new eps a v = .ok l) (F : Vec2 ℝ) (hF : Nearest (OnRay (toReal a) (toReal v)) (toReal p) F) :
    ∃ q, l.project eps p = .ok q ∧ CloseTo (eps.real + (M / 2 ^ 44 + 1 / 2 ^ 490)) q F ∧
      (0 ≤ ahead (toReal a) (toReal v) (toReal p) → CloseTo (M / 2 ^ 44 + 1 / 2 ^ 490) q F) ∧
      (ahead (toReal a) (toReal v) (toReal p) ≤ -(eps.real + (M / 2 ^ 44 + 1 / 2 ^ 490)) → q = a ∧ F = toReal a) := by
  obtain ⟨hd, hn, ha'⟩ := new_ray he he1 hv h
  have hvp : 0 < vlen (toReal v) := hd.pos
  have ep := (eps_small he).1
  have M0 : 0 ≤ M := (abs_nonneg _).trans ha.1
  obtain ⟨fx, fy⟩ := nearest_ray hvp hF
  have hcs := vunit hvp
  have c1 := unit_comp hcs
  have s1 : |(toReal v).y / vlen (toReal v)| ≤ 1 :=
    unit_comp (c := (toReal v).y / vlen (toReal v)) (s := (toReal v).x / vlen (toReal v)) (by linarith)
  obtain ⟨w, hw, wd, wx, wy⟩ := near_along ep.le he1 hcs (hd.vec.mono (by norm_num)) ha hp hM
    (ahead (toReal a) (toReal v) (toReal p)) (ahead_eq hvp)
  have hdef : l.project eps p = if w.dot l.direction > -eps then .ok (w + a) else .ok a := by
    simp only [Ray.project, Vec2.copy_fl, ha', hw, bind, Except.bind, pure, Except.pure]
  have hgt : (w.dot l.direction > -eps) ↔ -eps.real < (w.dot l.direction).real := by rw [← real_neg]; exact real_lt.symm
  have t1 := slack44 M0 (k := 485) (by norm_num)
  have t2 := slackη' (k := 45) (by norm_num)
  have uM : 0 ≤ uR * M := mul_nonneg uR_pos.le M0
  have hη0 := ηR_pos
  have hg : 485 * (uR * M) + 45 * ηR ≤ M / 2 ^ 44 + 1 / 2 ^ 490 := add_le_add t1 t2
  clear hM t1 t2
  generalize M / 2 ^ 44 + 1 / 2 ^ 490 = g at *
  have hFa : ahead (toReal a) (toReal v) (toReal p) ≤ 0 → F = toReal a := by
    intro h
    rw [max_eq_right h] at fx fy
    exact Vec2.ext (by rw [fx]; ring) (by rw [fy]; ring)
  have axa : ∀ K : ℝ, 0 ≤ K → |a.x.real - ((toReal a).x + 0 * ((toReal v).x / vlen (toReal v)))| ≤ K := by
    intro K hK; rw [show a.x.real - ((toReal a).x + 0 * ((toReal v).x / vlen (toReal v))) = 0 by simp [toReal], abs_zero]
    exact hK
  have aya : ∀ K : ℝ, 0 ≤ K → |a.y.real - ((toReal a).y + 0 * ((toReal v).y / vlen (toReal v)))| ≤ K := by
    intro K hK; rw [show a.y.real - ((toReal a).y + 0 * ((toReal v).y / vlen (toReal v))) = 0 by simp [toReal], abs_zero]
    exact hK
  generalize ahead (toReal a) (toReal v) (toReal p) = A at *
  obtain ⟨w1, w2⟩ := abs_le.mp wd
  rw [hdef]
  by_cases hc : w.dot l.direction > -eps
  · rw [if_pos hc]
    have hc' := hgt.mp hc
    refine ⟨_, rfl, ?_, fun h0 => ?_, fun h0 => ?_⟩
    · refine close_param c1 s1 wx wy fx fy ?_
      rcases le_total 0 A with h | h
      · rw [max_eq_left h, sub_self, abs_zero]; linarith
      · rw [max_eq_right h, sub_zero, abs_of_nonpos h]; linarith
    · refine close_param c1 s1 wx wy fx fy ?_
      rw [max_eq_left h0, sub_self, abs_zero]; linarith
    · exfalso; linarith
  · rw [if_neg hc]
    have hc' : (w.dot l.direction).real ≤ -eps.real := not_lt.mp (fun h => hc (hgt.mpr h))
    have hA : |0 - max A 0| + 0 ≤ 340 * (uR * M) + 30 * ηR := by
      rw [zero_sub, abs_neg, abs_of_nonneg (le_max_right _ _), add_zero]
      exact max_le (by linarith) (by linarith)
    refine ⟨_, rfl, ?_, fun h0 => ?_, fun h0 => ⟨rfl, hFa (by linarith)⟩⟩
    · exact close_param c1 s1 (axa 0 le_rfl) (aya 0 le_rfl) fx fy (hA.trans (by linarith))
    · exact close_param c1 s1 (axa 0 le_rfl) (aya 0 le_rfl) fx fy (hA.trans (by linarith))

/-- The decision of `project` on a segment. -/
theorem seg_project {eps : Double} {l : LineSegment Double} {p : Vec2 Double} {c s k M A : ℝ} (h0 : 0 < eps.real)
    (he : eps.real ≤ 1 / 2) (hcs : c * c + s * s = 1) (hd : NearVec 8 c s l.direction) (hk : 0 ≤ k) (hkM : k ≤ 3 / 2 * M)
    (hl : |l.length.real - k| ≤ 31 / 10 * uR * k) (ha : Within M l.anchor) (hp : Within M p) (hM : M ≤ 2 ^ 500)
    (hA : A = (p.x.real - l.anchor.x.real) * c + (p.y.real - l.anchor.y.real) * s) {g : ℝ}
    (hg : 500 * (uR * M) + uR * eps.real + 50 * ηR ≤ g) (F : Vec2 ℝ) (fx : F.x = l.anchor.x.real + min (max A 0) k * c)
    (fy : F.y = l.anchor.y.real + min (max A 0) k * s) :
    ∃ q, l.project eps p = .ok q ∧ CloseTo (eps.real + g) q F ∧ (0 ≤ A → A ≤ k → CloseTo g q F) ∧
      (A ≤ -(eps.real + g) → q = l.anchor) ∧ (k + eps.real + g ≤ A → q = l.end' ∧ CloseTo g q F) := by
  have c1 := unit_comp hcs
  have s1 : |s| ≤ 1 := unit_comp (c := s) (s := c) (by linarith)
  have hu := uR_pos
  have hu' := uR_small
  have hη := ηR_small
  have hη0 := ηR_pos
  have M0 : 0 ≤ M := (abs_nonneg _).trans ha.1
  have uM : 0 ≤ uR * M := mul_nonneg hu.le M0
  have uM' : uR * M ≤ 1 / 1000 * M := mul_le_mul_of_nonneg_right hu' M0
  have ue : 0 ≤ uR * eps.real := mul_nonneg hu.le h0.le
  have uk : uR * k ≤ uR * (3 / 2 * M) := mul_le_mul_of_nonneg_left hkM hu.le
  have ex : |l.end'.x.real - (l.anchor.x.real + k * c)| ≤ 22 * uR * M + 4 * ηR := end_coord c1 hd.1 hk hkM hl ha.1 hM
  have ey : |l.end'.y.real - (l.anchor.y.real + k * s)| ≤ 22 * uR * M + 4 * ηR := end_coord s1 hd.2 hk hkM hl ha.2 hM
  have hl' : |l.length.real - k| ≤ 47 / 10 * (uR * M) := hl.trans (by linarith)
  have hT := add_near (eb := 0) (b := eps) (B := eps.real) hl' (by simp)
    (by rw [abs_of_nonneg (by linarith)] : |k + eps.real| ≤ k + eps.real) (room hM (by linarith))
  obtain ⟨w, hw, wd, wx, wy⟩ := near_along h0.le he hcs hd ha hp hM A hA
  have hdef : l.project eps p = if w.dot l.direction ≤ -eps then .ok l.anchor
      else if w.dot l.direction ≥ l.length + eps then .ok l.end' else .ok (w + l.anchor) := by
    simp only [LineSegment.project, Vec2.copy_fl, hw, bind, Except.bind, pure, Except.pure]
  have hle : (w.dot l.direction ≤ -eps) ↔ (w.dot l.direction).real ≤ -eps.real := by rw [← real_neg]; exact real_le.symm
  have hge : (w.dot l.direction ≥ l.length + eps) ↔ (l.length + eps).real ≤ (w.dot l.direction).real := real_le.symm
  obtain ⟨w1, w2⟩ := abs_le.mp wd
  obtain ⟨T1, T2⟩ := abs_le.mp hT
  clear hM wd hT
  have cl : ∀ q : Vec2 Double, ∀ B e δ : ℝ, |q.x.real - (l.anchor.x.real + B * c)| ≤ e →
      |q.y.real - (l.anchor.y.real + B * s)| ≤ e → |B - min (max A 0) k| + e ≤ δ → CloseTo δ q F :=
    fun q B e δ hx hy h => close_param c1 s1 hx hy fx fy h
  have clampA : 0 ≤ A → A ≤ k → min (max A 0) k = A := fun h h' => by rw [max_eq_left h, min_eq_left h']
  have clamp0 : A ≤ 0 → min (max A 0) k = 0 := fun h => by rw [max_eq_right h, min_eq_left hk]
  have clampk : k ≤ A → min (max A 0) k = k := fun h => by rw [max_eq_left (hk.trans h), min_eq_right h]
  have uke : uR * (k + eps.real) ≤ 3 / 2 * (uR * M) + uR * eps.real := by linarith
  rw [hdef]
  by_cases hc1 : w.dot l.direction ≤ -eps
  · rw [if_pos hc1]
    have hc := hle.mp hc1
    have hself : ∀ δ : ℝ, g ≤ δ → CloseTo δ l.anchor F := by
      intro δ hδ
      refine cl _ 0 0 δ (by simp) (by simp) ?_
      rcases le_total A 0 with h | h
      · rw [clamp0 h]; simp; linarith
      · rcases le_total A k with h' | h'
        · rw [clampA h h', zero_sub, abs_neg, abs_of_nonneg h]; linarith
        · rw [clampk h', zero_sub, abs_neg, abs_of_nonneg hk]; linarith
    refine ⟨_, rfl, hself _ (by linarith), fun _ _ => hself _ le_rfl, fun _ => rfl, fun h => ?_⟩
    exfalso; linarith
  · rw [if_neg hc1]
    have hc := not_le.mp (fun h => hc1 (hle.mpr h))
    by_cases hc2 : w.dot l.direction ≥ l.length + eps
    · rw [if_pos hc2]
      have hc' := hge.mp hc2
      have hend : ∀ δ : ℝ, g ≤ δ → CloseTo δ l.end' F := by
        intro δ hδ
        refine cl _ k (22 * uR * M + 4 * ηR) δ ex ey ?_
        rcases le_total A 0 with h | h
        · rw [clamp0 h, sub_zero, abs_of_nonneg hk]; linarith
        · rcases le_total A k with h' | h'
          · rw [clampA h h', abs_of_nonneg (by linarith)]; linarith
          · rw [clampk h', sub_self, abs_zero]; linarith
      exact ⟨_, rfl, hend _ (by linarith), fun _ _ => hend _ le_rfl, fun h => by exfalso; linarith,
        fun _ => ⟨rfl, hend _ le_rfl⟩⟩
    · rw [if_neg hc2]
      have hc' := not_le.mp (fun h => hc2 (hge.mpr h))
      refine ⟨_, rfl, ?_, fun h h' => ?_, fun h => by exfalso; linarith, fun h => by exfalso; linarith⟩
      · refine cl _ A _ _ wx wy ?_
        rcases le_total A 0 with h | h
        · rw [clamp0 h, sub_zero, abs_of_nonpos h]; linarith
        · rcases le_total A k with h' | h'
          · rw [clampA h h', sub_self, abs_zero]; linarith
          · rw [clampk h', abs_of_nonneg (by linarith)]; linarith
      · refine cl _ A _ _ wx wy ?_
        rw [clampA h h', sub_self, abs_zero]; linarith

/-- **C94** `LineSegment(a, v).project(p)` never raises; it is at most EPSILON (and the error `(M + EPSILON) / 2 ^ 44`) from the
nearest point of the segment. Unless the vector is so short that its length is computed as zero, it is that point up to the
error if `p` is not beyond an end, the start itself if `p` is behind it by more than EPSILON (and the error), and the `end` of
the segment if `p` is beyond that by as much. -/
theorem C94_segment_project (eps : Double) (he : 1 / 2 ^ 500 ≤ eps.real) (he1 : eps.real ≤ 1 / 2) (a v p : Vec2 Double)
    (M : ℝ) (hM : M ≤ 2 ^ 500) (ha : Within M a) (hv : Within M v) (hp : Within M p) (l : LineSegment Double)
    (h : LineSegment.new eps a v = .ok l) (F : Vec2 ℝ)
    (hF : Nearest (OnSeg (toReal a) ⟨(toReal a).x + (toReal v).x, (toReal a).y + (toReal v).y⟩) (toReal p) F)
    (g : ℝ) (hgd : g = (M + eps.real) / 2 ^ 44 + 1 / 2 ^ 490) :
    ∃ q, l.project eps p = .ok q ∧ CloseTo (eps.real + g) q F ∧ (1 / 2 ^ 490 ≤ vlen (toReal v) →
      (0 ≤ ahead (toReal a) (toReal v) (toReal p) → ahead (toReal a) (toReal v) (toReal p) ≤ vlen (toReal v) →
        CloseTo g q F) ∧
      (ahead (toReal a) (toReal v) (toReal p) ≤ -(eps.real + g) → q = a ∧ F = toReal a) ∧
      (vlen (toReal v) + eps.real + g ≤ ahead (toReal a) (toReal v) (toReal p) → q = l.end' ∧ CloseTo g q F)) := by
  have M0 : 0 ≤ M := (abs_nonneg _).trans ha.1
  have ep := (eps_small he).1
  have hfin : FiniteVec v := by
    have : (2 : ℝ) ^ 500 < 2 ^ 1024 := pow_lt_real (by norm_num)
    exact ⟨finite_of (hM.trans_lt this) hv.1, finite_of (hM.trans_lt this) hv.2⟩
  obtain ⟨ha', hn, hl, hc⟩ := new_segment he he1 hfin h
  have uM : 0 ≤ uR * M := mul_nonneg uR_pos.le M0
  have ue : 0 ≤ uR * eps.real := mul_nonneg uR_pos.le ep.le
  have hη0 := ηR_pos
  have hθ := θR_pos
  have hηθ := ηR_θR
  have sθ := slackθ
  have hg : 500 * (uR * M) + uR * eps.real + 4 * θR ≤ g := by
    have := slack44 (M := M + eps.real) (by linarith) (k := 512) le_rfl
    rw [hgd]
    clear hgd hM he
    linarith
  clear hgd sθ
  rcases hc with ⟨h0, hdir, hL⟩ | ⟨h0, hdir⟩
  · have hvp : 0 < vlen (toReal v) := hdir.pos
    obtain ⟨fx, fy⟩ := nearest_seg hvp hF
    obtain ⟨q, hq, q1, q2, q3, q4⟩ := seg_project (l := l) (k := vlen (toReal v)) ep he1 (vunit hvp)
      (hdir.vec.mono (by norm_num)) hvp.le (norm_within hv.1 hv.2) (by rw [hl]; exact hL) (by rw [ha']; exact ha) hp hM
      (A := ahead (toReal a) (toReal v) (toReal p)) (by rw [ha']; exact ahead_eq hvp) (g := g)
      (by clear hM he; linarith) F (by rw [ha']; exact fx) (by rw [ha']; exact fy)
    refine ⟨q, hq, q1, fun _ => ⟨q2, fun h => ⟨by rw [q3 h, ha'], ?_⟩, q4⟩⟩
    have h3 : ahead (toReal a) (toReal v) (toReal p) ≤ 0 := by clear hM he; linarith
    rw [max_eq_right h3, min_eq_left hvp.le] at fx fy
    exact Vec2.ext (by rw [fx]; ring) (by rw [fy]; ring)
  · have hshort : vlen (toReal v) ≤ 3 * θR := by
      have h5 : (2 : ℝ) ^ 500 ≤ 2 ^ 510 := pow_le_real (by norm_num)
      have := length_double v (hv.1.trans (hM.trans h5)) (hv.2.trans (hM.trans h5))
      rw [h0, real_zero] at this
      have h1 := (abs_le.mp this).1
      have hr := Real.sqrt_nonneg (v.x.real * v.x.real + v.y.real * v.y.real)
      have h2 := mul_le_mul_of_nonneg_right uR_small hr
      clear h5 hM he
      show √(v.x.real * v.x.real + v.y.real * v.y.real) ≤ _
      linarith
    have hu1 : (1 : ℝ) * 1 + 0 * 0 = 1 := by norm_num
    have hs1 : √((1 : ℝ) * 1 + 0 * 0) = 1 := by rw [hu1]; exact Real.sqrt_one
    have hvec := hdir.vec.mono (k' := 8) (by norm_num)
    rw [hs1, div_one, div_one] at hvec
    obtain ⟨q, hq, q1, -⟩ := seg_project (l := l) (k := 0) (c := 1) (s := 0) ep he1 hu1 hvec le_rfl (by linarith)
      (by rw [hl, h0, real_zero]; simp) (by rw [ha']; exact ha) hp hM rfl (g := g - 3 * θR)
      (by clear hM he; linarith) (toReal a)
      (by rw [ha', min_eq_right (le_max_right _ _)]; simp [toReal]) (by rw [ha', min_eq_right (le_max_right _ _)]; simp [toReal])
    refine ⟨q, hq, ?_, fun hlong => ?_⟩
    · obtain ⟨⟨t, t0, t1, fx, fy⟩, -⟩ := hF
      have vx : |(toReal v).x| ≤ vlen (toReal v) := abs_le_norm _ _
      have vy : |(toReal v).y| ≤ vlen (toReal v) := by
        have := abs_le_norm (toReal v).y (toReal v).x
        rwa [add_comm] at this
      have one : ∀ x f b z : ℝ, |x - b| ≤ eps.real + (g - 3 * θR) → f = b + t * (b + z - b) → |z| ≤ vlen (toReal v) →
          |x - f| ≤ eps.real + g := by
        intro x f b z hx hf hz
        have tt := abs_sub_le x b f
        have e : |b - f| ≤ 3 * θR := by
          rw [hf, show b - (b + t * (b + z - b)) = -(t * z) by ring, abs_neg, abs_mul, abs_of_nonneg t0]
          have := mul_le_mul t1 hz (abs_nonneg _) zero_le_one
          linarith
        linarith
      exact ⟨one _ _ _ _ q1.1 fx vx, one _ _ _ _ q1.2 fy vy⟩
    · exfalso
      have sθ := slackθ
      have := hlong.trans hshort
      clear hM he hlong
      linarith

omit [PyMath Double] [SqrtOk] in
theorem gap_param {a p F G : Vec2 ℝ} {c s t t' : ℝ} (hcs : c * c + s * s = 1) (hx : F.x = a.x + t * c)
    (hy : F.y = a.y + t * s) (hx' : G.x = a.x + t' * c) (hy' : G.y = a.y + t' * s)
    (h : t * t - 2 * t * ((p.x - a.x) * c + (p.y - a.y) * s) ≤ t' * t' - 2 * t' * ((p.x - a.x) * c + (p.y - a.y) * s)) :
    gap p F ≤ gap p G := by
  have e : ∀ t : ℝ, (p.x - (a.x + t * c)) * (p.x - (a.x + t * c)) + (p.y - (a.y + t * s)) * (p.y - (a.y + t * s)) =
      (p.x - a.x) * (p.x - a.x) + (p.y - a.y) * (p.y - a.y) +
        (t * t - 2 * t * ((p.x - a.x) * c + (p.y - a.y) * s)) := by
    intro t; linear_combination t * t * hcs
  simp only [gap, vlen]
  rw [hx, hy, hx', hy', e, e]
  exact Real.sqrt_le_sqrt (by linarith)

omit [PyMath Double] [SqrtOk] in
/-- The nearest points that the theorems speak of exist. -/
theorem C94_nearest (a v p : Vec2 ℝ) (hv : 0 < vlen v) :
    (∃ F, Nearest (OnLine a v) p F) ∧ (∃ F, Nearest (OnRay a v) p F) ∧
    ∃ F, Nearest (OnSeg a ⟨a.x + v.x, a.y + v.y⟩) p F := by
  have hcs := vunit hv
  have hA := ahead_eq (a := a) (p := p) hv
  refine ⟨⟨⟨a.x + ahead a v p * (v.x / vlen v), a.y + ahead a v p * (v.y / vlen v)⟩,
      ⟨ahead a v p / vlen v, by simp only; ring, by simp only; ring⟩, ?_⟩,
    ⟨⟨a.x + max (ahead a v p) 0 * (v.x / vlen v), a.y + max (ahead a v p) 0 * (v.y / vlen v)⟩,
      ⟨max (ahead a v p) 0 / vlen v, by positivity, by simp only; ring, by simp only; ring⟩, ?_⟩,
    ⟨⟨a.x + min (max (ahead a v p) 0) (vlen v) * (v.x / vlen v), a.y + min (max (ahead a v p) 0) (vlen v) * (v.y / vlen v)⟩,
      ⟨min (max (ahead a v p) 0) (vlen v) / vlen v, ?_, by rw [div_le_one hv]; exact min_le_right _ _,
        by simp only; ring, by simp only; ring⟩, ?_⟩⟩
  · rintro G ⟨t, hx, hy⟩
    refine gap_param hcs rfl rfl (t' := t * vlen v) (by rw [hx]; field_simp) (by rw [hy]; field_simp) ?_
    rw [← hA]
    nlinarith [mul_self_nonneg (t * vlen v - ahead a v p)]
  · rintro G ⟨t, t0, hx, hy⟩
    refine gap_param hcs rfl rfl (t' := t * vlen v) (by rw [hx]; field_simp) (by rw [hy]; field_simp) ?_
    rw [← hA]
    have q0 : 0 ≤ t * vlen v := by positivity
    generalize t * vlen v = τ at *
    rcases le_total 0 (ahead a v p) with h | h
    · rw [max_eq_left h]; nlinarith [mul_self_nonneg (τ - ahead a v p)]
    · rw [max_eq_right h]
      have := mul_nonpos_of_nonneg_of_nonpos q0 h
      nlinarith [mul_self_nonneg τ]
  · have : 0 ≤ min (max (ahead a v p) 0) (vlen v) := le_min (le_max_right _ _) hv.le
    positivity
  · rintro G ⟨t, t0, t1, hx, hy⟩
    refine gap_param hcs rfl rfl (t' := t * vlen v) (by rw [hx]; field_simp; ring) (by rw [hy]; field_simp; ring) ?_
    rw [← hA]
    have q0 : 0 ≤ t * vlen v := by positivity
    have q1 : t * vlen v ≤ vlen v := mul_le_of_le_one_left hv.le t1
    generalize t * vlen v = τ at *
    rcases le_total 0 (ahead a v p) with h | h
    · rw [max_eq_left h]
      rcases le_total (ahead a v p) (vlen v) with h' | h'
      · rw [min_eq_left h']; nlinarith [mul_self_nonneg (τ - ahead a v p)]
      · rw [min_eq_right h']
        have h2 : 0 ≤ (vlen v - τ) * (ahead a v p - vlen v) := mul_nonneg (by linarith) (by linarith)
        nlinarith [mul_self_nonneg (vlen v - τ)]
    · rw [max_eq_right h, min_eq_left hv.le]
      have := mul_nonpos_of_nonneg_of_nonpos q0 h
      nlinarith [mul_self_nonneg τ]

/-- A case: the line through the origin towards `(3, 4)` and the point `(7, 1)`, whose foot is `(3, 4)`: the computed projection
exists, and its coordinates are within `2 ^ -40` of it; those of the reflection are within `2 ^ -40` of `(-1, 7)`. -/
example : ∃ l, Line.new (dbl (1 / 100000)) (dvec 0 0) (dvec 3 4) = .ok l ∧
    (∃ q, l.project (dbl (1 / 100000)) (dvec 7 1) = .ok q ∧ CloseTo (1 / 2 ^ 40) q ⟨3, 4⟩) ∧
    CloseTo (1 / 2 ^ 40) (l.reflect (dvec 7 1)) ⟨-1, 7⟩ := by
  have n0 : (dbl 0).real = 0 := by simpa using dbl_int 0 (by norm_num)
  have n1 : (dbl 1).real = 1 := by simpa using dbl_int 1 (by norm_num)
  have n3 : (dbl 3).real = 3 := by simpa using dbl_int 3 (by norm_num)
  have n4 : (dbl 4).real = 4 := by simpa using dbl_int 4 (by norm_num)
  have n7 : (dbl 7).real = 7 := by simpa using dbl_int 7 (by norm_num)
  obtain ⟨h1, h2⟩ := dbl_eps
  have l5 : vlen (toReal (dvec 3 4)) = 5 := by
    rw [vlen_def]; simp only [dvec, n3, n4]
    rw [show (3 : ℝ) * 3 + 4 * 4 = 5 * 5 by norm_num, Real.sqrt_mul_self (by norm_num)]
  have he : 1 / 2 ^ 500 ≤ (dbl (1 / 100000)).real := (inv_pow_le (show 17 ≤ 500 by norm_num)).trans h1
  have he1 : (dbl (1 / 100000)).real ≤ 1 / 2 := h2.trans (by norm_num)
  have p7 : (8 : ℝ) ≤ 2 ^ 500 := by
    calc (8 : ℝ) = 2 ^ 3 := by norm_num
      _ ≤ 2 ^ 500 := pow_le_real (by norm_num)
  have hf : FiniteVec (dvec 3 4) := by
    constructor
    · exact finite_of (M := 2 ^ 3) (pow_lt_real (by norm_num)) (by show |(dbl 3).real| ≤ _; rw [n3]; norm_num)
    · exact finite_of (M := 2 ^ 3) (pow_lt_real (by norm_num)) (by show |(dbl 4).real| ≤ _; rw [n4]; norm_num)
  have w0 : Within 8 (dvec 0 0) := by
    constructor <;> (show |(dbl 0).real| ≤ 8; rw [n0]; norm_num)
  have w7 : Within 8 (dvec 7 1) := by
    constructor
    · show |(dbl 7).real| ≤ 8; rw [n7]; norm_num
    · show |(dbl 1).real| ≤ 8; rw [n1]; norm_num
  have e0 : toReal (dvec 0 0) = ⟨0, 0⟩ := by simp only [toReal, dvec, n0]
  have e3 : toReal (dvec 3 4) = ⟨3, 4⟩ := by simp only [toReal, dvec, n3, n4]
  have e7 : toReal (dvec 7 1) = ⟨7, 1⟩ := by simp only [toReal, dvec, n7, n1]
  obtain ⟨⟨l, hl⟩, -⟩ := (C78_constructors (dbl (1 / 100000)) he he1 (dvec 0 0) (dvec 3 4) hf).1
    (by
      rw [l5]
      have : (dbl (1 / 100000)).real * (1 + 1 / 2 ^ 50) ≤ 1 / 2 * 2 := by
        refine mul_le_mul he1 ?_ ?_ (by norm_num) <;> norm_num
      linarith)
    (by
      rw [l5]
      calc (5 : ℝ) ≤ 2 ^ 3 := by norm_num
        _ ≤ 2 ^ 510 := pow_le_real (by norm_num))
  have hN : Nearest (OnLine (toReal (dvec 0 0)) (toReal (dvec 3 4))) (toReal (dvec 7 1)) ⟨3, 4⟩ := by
    have hv : 0 < vlen (toReal (dvec 3 4)) := by rw [l5]; norm_num
    obtain ⟨F, hF⟩ := (C94_nearest (toReal (dvec 0 0)) (toReal (dvec 3 4)) (toReal (dvec 7 1)) hv).1
    obtain ⟨fx, fy⟩ := nearest_line hv hF
    have : F = ⟨3, 4⟩ := by
      refine Vec2.ext ?_ ?_
      · rw [fx, ahead, l5, e0, e3, e7]; norm_num
      · rw [fy, ahead, l5, e0, e3, e7]; norm_num
    rwa [this] at hF
  have tol : (8 : ℝ) / 2 ^ 44 + 1 / 2 ^ 490 ≤ 1 / 2 ^ 40 := by
    have := inv_pow_le (show 44 ≤ 490 by norm_num)
    refine (add_le_add le_rfl this).trans ?_
    norm_num
  have mono : ∀ q F, CloseTo (8 / 2 ^ 44 + 1 / 2 ^ 490) q F → CloseTo (1 / 2 ^ 40) q F :=
    fun q F h => ⟨h.1.trans tol, h.2.trans tol⟩
  refine ⟨l, hl, ?_, ?_⟩
  · obtain ⟨q, hq, hc⟩ := C94_line_project _ he he1 _ _ _ hf 8 p7 w0 w7 l hl _ hN
    exact ⟨q, hq, mono _ _ hc⟩
  · have := C94_line_reflect _ he he1 _ _ _ hf 8 p7 w0 w7 l hl _ hN
    rw [e7] at this
    have h2 := mono _ _ this
    rwa [show (2 : ℝ) * 3 - 7 = -1 by norm_num, show (2 : ℝ) * 4 - 1 = 7 by norm_num] at h2

end Planar
