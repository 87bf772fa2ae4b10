import Verif.Spec.MapLines
import Verif.Lemmas.FloatProject
import Verif.Lemmas.FloatAbsorb
import Verif.Props.FloatAffine
import Verif.Props.FloatPoints
/- Transforming points known up to an error, and the vector between two of them. -/
namespace Planar
open Spec
set_option linter.unusedSectionVars false

/-- The underflow part of the error of `apply`. -/
noncomputable def τR : ℝ := 1 / 2 ^ 1072
theorem τR_pos : 0 ≤ τR := by unfold τR; positivity

theorem apply_near {T : Affine Double} {P : Vec2 Double} {p : Vec2 ℝ} {B e N : ℝ} (hT : WithinT B T) (hP : CloseTo e P p)
    (hx : |p.x| ≤ N) (hy : |p.y| ≤ N) (heN : e ≤ N) (hb : B * (4 * N + 1) ≤ 2 ^ 1000) :
    CloseTo (2 * (B * e) + 4 * uR * (B * (4 * N + 1)) + τR) (T.apply P) (mapPt T p) := by
  obtain ⟨ha, hb1, hc, hd, he, hf⟩ := hT
  have B0 : 0 ≤ B := (abs_nonneg _).trans ha
  have bx : |P.x.real| ≤ 2 * N := by have := abs_sub_abs_le_abs_sub P.x.real p.x; have := hP.1; linarith
  have by' : |P.y.real| ≤ 2 * N := by have := abs_sub_abs_le_abs_sub P.y.real p.y; have := hP.2; linarith
  have size : ∀ s t r : ℝ, |s| ≤ B → |t| ≤ B → |r| ≤ B → |P.x.real * s| + |P.y.real * t| + |r| ≤ B * (4 * N + 1) := by
    intro s t r hs ht hr
    rw [abs_mul, abs_mul]
    have h1 := mul_le_mul bx hs (abs_nonneg _) ((abs_nonneg _).trans bx)
    have h2 := mul_le_mul by' ht (abs_nonneg _) ((abs_nonneg _).trans by')
    linarith
  have s1 := size _ _ _ ha hd hc
  have s2 := size _ _ _ hb1 he hf
  obtain ⟨h1, h2⟩ := C79_apply T P (s1.trans hb) (s2.trans hb)
  have hu : 1 / 2 ^ 51 = 4 * uR := by unfold uR; norm_num
  have hu0 : 0 ≤ 4 * uR := by have := uR_pos; linarith
  rw [hu] at h1 h2
  change |(T.apply P).x.real - (image T P).x| ≤ 4 * uR * (imageSize T P).x + τR at h1
  change |(T.apply P).y.real - (image T P).y| ≤ 4 * uR * (imageSize T P).y + τR at h2
  have m1 : 4 * uR * (imageSize T P).x ≤ 4 * uR * (B * (4 * N + 1)) := mul_le_mul_of_nonneg_left s1 hu0
  have m2 : 4 * uR * (imageSize T P).y ≤ 4 * uR * (B * (4 * N + 1)) := mul_le_mul_of_nonneg_left s2 hu0
  have move : ∀ s t r : ℝ, |s| ≤ B → |t| ≤ B →
      |P.x.real * s + P.y.real * t + r - (p.x * s + p.y * t + r)| ≤ 2 * (B * e) := by
    intro s t r hs ht
    rw [show P.x.real * s + P.y.real * t + r - (p.x * s + p.y * t + r) = (P.x.real - p.x) * s + (P.y.real - p.y) * t by ring]
    refine (abs_add_le _ _).trans ?_
    rw [abs_mul, abs_mul]
    have h1 := mul_le_mul hP.1 hs (abs_nonneg _) ((abs_nonneg _).trans hP.1)
    have h2 := mul_le_mul hP.2 ht (abs_nonneg _) ((abs_nonneg _).trans hP.2)
    linarith
  have v1 : |(image T P).x - (mapPt T p).x| ≤ 2 * (B * e) := move _ _ _ ha hd
  have v2 : |(image T P).y - (mapPt T p).y| ≤ 2 * (B * e) := move _ _ _ hb1 he
  have t1 := abs_sub_le (T.apply P).x.real (image T P).x (mapPt T p).x
  have t2 := abs_sub_le (T.apply P).y.real (image T P).y (mapPt T p).y
  clear hb
  exact ⟨by linarith, by linarith⟩

/-- The images of two points and the vector between them. -/
theorem pair_near {T : Affine Double} {P Q : Vec2 Double} {p q : Vec2 ℝ} {B M X : ℝ} (hT : WithinT B T) (M0 : 0 ≤ M)
    (hX : X = B * (M + 1)) (hb : X ≤ 2 ^ 500)
    (hP : CloseTo (80 * uR * (M + 1)) P p) (hQ : CloseTo (80 * uR * (M + 1)) Q q) (px : |p.x| ≤ 2 * (M + 1))
    (py : |p.y| ≤ 2 * (M + 1)) (qx : |q.x| ≤ 2 * (M + 1)) (qy : |q.y| ≤ 2 * (M + 1)) :
    CloseTo (200 * (uR * X) + τR) (T.apply P) (mapPt T p) ∧ CloseTo (200 * (uR * X) + τR) (T.apply Q) (mapPt T q) ∧
    CloseTo (415 * (uR * X) + 3 * τR) (T.apply Q - T.apply P) (mapVec T ⟨q.x - p.x, q.y - p.y⟩) ∧
    Within (6 * X + 3 * τR) (T.apply P) ∧ Within (6 * X + 3 * τR) (T.apply Q) := by
  have B0 : 0 ≤ B := (abs_nonneg _).trans hT.1
  have hu := uR_pos
  have hu' : uR ≤ 1 / 100000 := by unfold uR; norm_num
  have hτ := τR_pos
  have hτ1 : τR ≤ 1 / 1000 := by
    unfold τR
    refine (inv_pow_le (show 10 ≤ 1072 by norm_num)).trans (by norm_num)
  have M1 : 0 ≤ M + 1 := by linarith
  have X0 : 0 ≤ X := by rw [hX]; exact mul_nonneg B0 M1
  have uM : uR * (M + 1) ≤ 1 / 100000 * (M + 1) := mul_le_mul_of_nonneg_right hu' M1
  have uX : uR * X ≤ 1 / 100000 * X := mul_le_mul_of_nonneg_right hu' X0
  have uX0 : 0 ≤ uR * X := mul_nonneg hu.le X0
  have hBX : B ≤ X := by rw [hX]; nlinarith
  have big : B * (4 * (2 * (M + 1)) + 1) ≤ 9 * X := by rw [hX] at *; linarith
  have room1 : 9 * X ≤ 2 ^ 1000 := by
    have h1 : (2 : ℝ) ^ 1000 = 2 ^ 500 * 2 ^ 500 := by rw [← pow_add]
    have h2 : (16 : ℝ) ≤ 2 ^ 500 := by
      calc (16 : ℝ) = 2 ^ 4 := by norm_num
        _ ≤ _ := pow_le_real (by norm_num)
    rw [h1]
    clear h1
    generalize (2 : ℝ) ^ 500 = G at *
    nlinarith
  have e80 : 80 * uR * (M + 1) ≤ 2 * (M + 1) := by linarith
  have eB : 2 * (B * (80 * uR * (M + 1))) + 4 * uR * (B * (4 * (2 * (M + 1)) + 1)) + τR ≤ 200 * (uR * X) + τR := by
    have h1 : B * (80 * uR * (M + 1)) = 80 * (uR * X) := by rw [hX]; ring
    have h2 := mul_le_mul_of_nonneg_left big (by linarith : 0 ≤ 4 * uR)
    clear hb room1
    linarith
  have hp := apply_near hT hP px py e80 (big.trans room1)
  have hq := apply_near hT hQ qx qy e80 (big.trans room1)
  have p1 : CloseTo (200 * (uR * X) + τR) (T.apply P) (mapPt T p) := ⟨hp.1.trans eB, hp.2.trans eB⟩
  have q1 : CloseTo (200 * (uR * X) + τR) (T.apply Q) (mapPt T q) := ⟨hq.1.trans eB, hq.2.trans eB⟩
  have size : ∀ s t r x y : ℝ, |s| ≤ B → |t| ≤ B → |r| ≤ B → |x| ≤ 2 * (M + 1) → |y| ≤ 2 * (M + 1) →
      |x * s + y * t + r| ≤ 5 * X := by
    intro s t r x y hs ht hr hx hy
    have h1 := mul_le_mul hx hs (abs_nonneg _) (by linarith)
    have h2 := mul_le_mul hy ht (abs_nonneg _) (by linarith)
    have h3 := abs_add_le (x * s + y * t) r
    have h4 := abs_add_le (x * s) (y * t)
    rw [abs_mul, abs_mul] at h4
    have h5 : 2 * (M + 1) * B = 2 * X := by rw [hX]; ring
    linarith
  have near : ∀ (z : Double) (w : ℝ), |z.real - w| ≤ 200 * (uR * X) + τR → |w| ≤ 5 * X → |z.real| ≤ 6 * X + 3 * τR := by
    intro z w h1 h2
    have := abs_sub_abs_le_abs_sub z.real w
    clear hb room1
    linarith
  obtain ⟨ta, tb, tc, td, te, tf⟩ := hT
  have sizeP : |(mapPt T p).x| ≤ 5 * X ∧ |(mapPt T p).y| ≤ 5 * X :=
    ⟨size _ _ _ _ _ ta td tc px py, size _ _ _ _ _ tb te tf px py⟩
  have sizeQ : |(mapPt T q).x| ≤ 5 * X ∧ |(mapPt T q).y| ≤ 5 * X :=
    ⟨size _ _ _ _ _ ta td tc qx qy, size _ _ _ _ _ tb te tf qx qy⟩
  have diff : ∀ (a b : Double) (A C : ℝ), |a.real - A| ≤ 200 * (uR * X) + τR → |b.real - C| ≤ 200 * (uR * X) + τR →
      |A| ≤ 5 * X → |C| ≤ 5 * X → |(b - a).real - (C - A)| ≤ 415 * (uR * X) + 3 * τR := by
    intro a b A C h1 h2 h3 h4
    have h5 : |C - A| ≤ 10 * X := (abs_sub _ _).trans (by linarith)
    have r : 10 * X + (200 * (uR * X) + τR) + (200 * (uR * X) + τR) ≤ 2 ^ 1023 := by
      refine room hb ?_
      clear hb room1
      linarith
    have := sub_near h2 h1 h5 r
    clear hb room1 r
    linarith
  have dm : mapVec T ⟨q.x - p.x, q.y - p.y⟩ = ⟨(mapPt T q).x - (mapPt T p).x, (mapPt T q).y - (mapPt T p).y⟩ := by
    refine Vec2.ext ?_ ?_ <;> (simp only [mapVec, mapPt]; ring)
  refine ⟨p1, q1, ?_, ?_, ?_⟩
  · rw [dm]
    exact ⟨diff _ _ _ _ p1.1 q1.1 sizeP.1 sizeQ.1, diff _ _ _ _ p1.2 q1.2 sizeP.2 sizeQ.2⟩
  · exact ⟨near _ _ p1.1 sizeP.1, near _ _ p1.2 sizeP.2⟩
  · exact ⟨near _ _ q1.1 sizeQ.1, near _ _ q1.2 sizeQ.2⟩

/-- The unit vector along a vector that is known up to `δ`. -/
theorem unit_near {x y x' y' δ : ℝ} (hx : |x' - x| ≤ δ) (hy : |y' - y| ≤ δ) (hL : 0 < √(x * x + y * y))
    (hL' : 0 < √(x' * x' + y' * y')) :
    |x' / √(x' * x' + y' * y') - x / √(x * x + y * y)| ≤ 3 * δ / √(x * x + y * y) := by
  have h1 := norm_lip x' y' x y
  have h2 := abs_le_norm x' y'
  generalize √(x * x + y * y) = L at *
  generalize √(x' * x' + y' * y') = l at *
  have e : x' / l - x / L = (x' - x) / L + x' / l * ((L - l) / L) := by field_simp; ring
  rw [e]
  refine (abs_add_le _ _).trans ?_
  rw [abs_mul, abs_div, abs_div, abs_div, abs_of_pos hL, abs_of_pos hL']
  have q1 : |x'| / l ≤ 1 := (div_le_one hL').mpr h2
  have q2 : |L - l| / L ≤ 2 * δ / L := by
    refine div_le_div_of_nonneg_right ?_ hL.le
    rw [abs_sub_comm]; linarith
  have q3 : |x' - x| / L ≤ δ / L := div_le_div_of_nonneg_right hx hL.le
  have q4 : |x'| / l * (|L - l| / L) ≤ 1 * (|L - l| / L) := mul_le_mul_of_nonneg_right q1 (by positivity)
  have : 3 * δ / L = δ / L + 2 * δ / L := by ring
  linarith

theorem vlen_near {v : Vec2 Double} {W : Vec2 ℝ} {δ : ℝ} (h : CloseTo δ v W) : |vlen (toReal v) - vlen W| ≤ 2 * δ := by
  have := norm_lip v.x.real v.y.real W.x W.y
  have h1 := h.1
  have h2 := h.2
  simp only [vlen, toReal]
  linarith

theorem dir_near {n v : Vec2 Double} {W : Vec2 ℝ} {δ : ℝ} (h : CloseTo δ v W) (hW : 0 < vlen W)
    (hn : NearDir v.x.real v.y.real n) : CloseTo (3 * δ / vlen W + 6 * uR) n (dirOf W) := by
  have hu := uR_pos
  have hη := ηR_small
  have hη0 := ηR_pos
  have b1 : |v.x.real / √(v.x.real * v.x.real + v.y.real * v.y.real)| ≤ 1 := unit_comp (unit_of_div hn.pos)
  have b2 : |v.y.real / √(v.x.real * v.x.real + v.y.real * v.y.real)| ≤ 1 :=
    unit_comp (s := v.x.real / √(v.x.real * v.x.real + v.y.real * v.y.real)) (by have := unit_of_div hn.pos; linarith)
  have u1 := unit_near h.1 h.2 hW hn.pos
  have u2 := unit_near h.2 h.1 (by rw [add_comm]; exact hW) (by rw [add_comm]; exact hn.pos)
  rw [add_comm (v.y.real * v.y.real), add_comm (W.y * W.y)] at u2
  have px := hn.px
  have py := hn.py
  have m1 := mul_le_mul_of_nonneg_left b1 hu.le
  have m2 := mul_le_mul_of_nonneg_left b2 hu.le
  constructor
  · have t := abs_sub_le n.x.real (v.x.real / √(v.x.real * v.x.real + v.y.real * v.y.real)) (dirOf W).x
    change _ ≤ _ + |v.x.real / √(v.x.real * v.x.real + v.y.real * v.y.real) - W.x / √(W.x * W.x + W.y * W.y)| at t
    change _ ≤ 3 * δ / √(W.x * W.x + W.y * W.y) + 6 * uR
    linarith
  · have t := abs_sub_le n.y.real (v.y.real / √(v.x.real * v.x.real + v.y.real * v.y.real)) (dirOf W).y
    change _ ≤ _ + |v.y.real / √(v.x.real * v.x.real + v.y.real * v.y.real) - W.y / √(W.x * W.x + W.y * W.y)| at t
    change _ ≤ 3 * δ / √(W.x * W.x + W.y * W.y) + 6 * uR
    linarith

variable [PyMath Double] [SqrtOk]

/-- The `direction` setter does not depend on what the object was before. -/
theorem setDirection_same {eps : Double} {v : Vec2 Double} {s s' : Lin Double} (h : s.setDirection eps v = (.ok (), s'))
    (t : Lin Double) : t.setDirection eps v = (.ok (), s') := by
  unfold Lin.setDirection at *
  revert h
  cases v.copy.normalized eps with
  | error e => intro h; cases h
  | ok d =>
    simp only
    split
    · intro h; cases h
    · intro h; exact h

/-- A vector long enough: every object gets the same new direction. -/
theorem setDirection_far {eps : Double} (he : 1 / 2 ^ 500 ≤ eps.real) (he1 : eps.real ≤ 1 / 2) {v : Vec2 Double}
    (hv : FiniteVec v) (h : eps.real * (1 + 1 / 2 ^ 50) ≤ vlen (toReal v)) (h' : vlen (toReal v) ≤ 2 ^ 510) :
    ∃ n, NearDir v.x.real v.y.real n ∧ (∀ s : Lin Double, s.setDirection eps v = (.ok (), ⟨n, ⟨n.y, -n.x⟩⟩)) ∧
      v.length ≠ 0 ∧ |v.length.real - vlen (toReal v)| ≤ 31 / 10 * uR * vlen (toReal v) := by
  obtain ⟨s', h1, -⟩ := (C78_direction eps he he1 ⟨v, v⟩ v hv).2.2.1 h h'
  rcases setDirection_cases eps ⟨v, v⟩ v hv he he1 with ⟨h2, -⟩ | ⟨hl, -, hlen, n, hn, h2⟩
  · rw [h1] at h2; cases h2
  · refine ⟨n, hn, fun s => setDirection_same h2 s, ?_, hlen⟩
    intro h0
    rw [h0] at hl
    have := real_lt.mpr hl
    have ep := (eps_small he).1
    rw [real_zero] at this
    clear he h'
    linarith

theorem setDirection_near {eps : Double} (he : 1 / 2 ^ 500 ≤ eps.real) (he1 : eps.real ≤ 1 / 2) {v : Vec2 Double}
    (hv : FiniteVec v) (h : vlen (toReal v) ≤ eps.real * (1 - 1 / 2 ^ 50)) (s : Lin Double) :
    s.setDirection eps v = (.error .valueError, s) := (C78_direction eps he he1 s v hv).2.1 h

theorem finite_within {M : ℝ} {v : Vec2 Double} (hM : M ≤ 2 ^ 1023) (h : Within M v) : FiniteVec v := by
  have : (2 : ℝ) ^ 1023 < 2 ^ 1024 := pow_lt_real (by norm_num)
  exact ⟨finite_of (hM.trans_lt this) h.1, finite_of (hM.trans_lt this) h.2⟩

/-- What the three shapes need to know about the vector `v` that was computed for the exact vector `W`. -/
theorem long_or_short {eps : Double} (he : 1 / 2 ^ 500 ≤ eps.real) (he1 : eps.real ≤ 1 / 2) {v : Vec2 Double} {W : Vec2 ℝ}
    {δ g X : ℝ} (h : CloseTo δ v W) (hδ : δ ≤ g) (hW : |W.x| ≤ 10 * X) (hW' : |W.y| ≤ 10 * X) (hX : X ≤ 2 ^ 500)
    (hgX : g ≤ X + 1 / 4) :
    (eps.real * (1 + 1 / 2 ^ 49) + 2 * g ≤ vlen W →
      ∃ n, CloseTo (3 * g / vlen W + 1 / 2 ^ 50) n (dirOf W) ∧ NearDir v.x.real v.y.real n ∧
        (∀ s : Lin Double, s.setDirection eps v = (.ok (), ⟨n, ⟨n.y, -n.x⟩⟩)) ∧ v.length ≠ 0 ∧ 0 < vlen (toReal v) ∧
        |v.length.real - vlen (toReal v)| ≤ 31 / 10 * uR * vlen (toReal v)) ∧
    (vlen W ≤ eps.real * (1 - 1 / 2 ^ 49) - 2 * g → ∀ s : Lin Double, s.setDirection eps v = (.error .valueError, s)) := by
  have ep := (eps_small he).1
  have hlen := abs_le.mp (vlen_near h)
  have wv : Within (11 * X + 1 / 4) v := by
    have h1 := h.1
    have h2 := h.2
    have t1 := abs_sub_abs_le_abs_sub v.x.real W.x
    have t2 := abs_sub_abs_le_abs_sub v.y.real W.y
    clear hX
    exact ⟨by linarith, by linarith⟩
  have X0 : 0 ≤ X := by
    have := abs_nonneg W.x
    clear hX
    linarith
  have hfin : FiniteVec v := finite_within (room hX (by clear hX; linarith)) wv
  have δ0 : 0 ≤ δ := (abs_nonneg _).trans h.1
  have r510 : 17 * X + 1 ≤ 2 ^ 510 := pow_room hX (by linarith) le_rfl
  have hvl : vlen (toReal v) ≤ 17 * X + 1 := by
    have := norm_within wv.1 wv.2
    refine le_trans this ?_
    clear hX r510
    linarith
  clear hX
  constructor
  · intro hl
    have h1 : eps.real * (1 + 1 / 2 ^ 50) ≤ vlen (toReal v) := by
      have : eps.real * (1 + 1 / 2 ^ 50) ≤ eps.real * (1 + 1 / 2 ^ 49) := mul_le_mul_of_nonneg_left (by norm_num) ep.le
      clear r510 he
      linarith
    obtain ⟨n, hn, hs, h0, hlen'⟩ := setDirection_far he he1 hfin h1 (hvl.trans r510)
    have hp : 0 < eps.real * (1 + 1 / 2 ^ 49) := mul_pos ep (by norm_num)
    have W0 : 0 < vlen W := by clear r510 he; linarith
    have hd := dir_near h W0 hn
    have e : 3 * δ / vlen W + 6 * uR ≤ 3 * g / vlen W + 1 / 2 ^ 50 := by
      refine add_le_add (div_le_div_of_nonneg_right (by linarith) W0.le) ?_
      unfold uR; norm_num
    exact ⟨n, ⟨hd.1.trans e, hd.2.trans e⟩, hn, hs, h0, hn.pos, hlen'⟩
  · intro hs s
    refine setDirection_near he he1 hfin ?_ s
    have : eps.real * (1 - 1 / 2 ^ 49) ≤ eps.real * (1 - 1 / 2 ^ 50) := mul_le_mul_of_nonneg_left (by norm_num) ep.le
    clear r510 he
    linarith

end Planar
