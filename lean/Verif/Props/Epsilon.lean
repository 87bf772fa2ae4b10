import Verif.Model.Epsilon
import Verif.Props.PolyState
import Verif.Props.Line
import Verif.Lemmas.Sort
/- Property C85: `set_epsilon` in the middle of a program. -/
set_option linter.unusedSectionVars false
namespace Planar
open Spec Polygon
variable {K : Type} [LinearOrder K] [Add K] [Sub K] [Mul K] [Div K] [Neg K] [Zero K] [One K] [RoundedArith K]

/-! ### larger EPSILON, looser comparisons -/

theorem eps2_mono {e e' : K} (h0 : 0 ≤ e) (h : e ≤ e') : eps2 e ≤ eps2 e' := by
  have h1 := f_mul_le e e e' h0 h
  have h2 := f_mul_le e' e e' (h0.trans h) h
  rw [f_mul_comm e' e] at h2
  exact h1.trans h2

theorem vec_almost_mono {e e' : K} (h0 : 0 ≤ e) (h : e ≤ e') {u v : Vec2 K} (hu : u.almostEquals e v = true) :
    u.almostEquals e' v = true := by
  simp only [Vec2.almostEquals, decide_eq_true_eq] at hu ⊢
  exact hu.trans_le (eps2_mono h0 h)

theorem vec_null_mono {e e' : K} (h0 : 0 ≤ e) (h : e ≤ e') {u : Vec2 K} (hu : u.isNull e = true) : u.isNull e' = true := by
  simp only [Vec2.isNull, decide_eq_true_eq] at hu ⊢
  exact hu.trans_le (eps2_mono h0 h)

/-- **C85** raising EPSILON never makes two things different that were almost equal, nor a null vector, a rectilinear, conformal,
orthonormal, degenerate or identity transform cease to be one. -/
theorem C85_looser {e e' : K} (h0 : 0 ≤ e) (h : e ≤ e') :
    (∀ u v : Vec2 K, u.almostEquals e v = true → u.almostEquals e' v = true) ∧
    (∀ v : Vec2 K, v.isNull e = true → v.isNull e' = true) ∧
    (∀ s t : Vecs K, Vec2Array.almostEquals e s t = true → Vec2Array.almostEquals e' s t = true) ∧
    (∀ b c : Box K, b.almostEquals e c = true → b.almostEquals e' c = true) ∧
    (∀ S T : Affine K, S.almostEquals e T = true → S.almostEquals e' T = true) ∧
    (∀ T : Affine K, (T.isRectilinear e = true → T.isRectilinear e' = true) ∧ (T.isConformal e = true → T.isConformal e' = true) ∧
      (T.isOrthonormal e = true → T.isOrthonormal e' = true) ∧ (T.isDegenerate e = true → T.isDegenerate e' = true) ∧
      ∀ b, T.isIdentity e b = true → T.isIdentity e' b = true) := by
  have aff : ∀ S T : Affine K, S.almostEquals e T = true → S.almostEquals e' T = true := by
    intro S T
    have key : ∀ x : K, ¬ x ≥ e → ¬ x ≥ e' := fun x hx hx' => hx (h.trans hx')
    unfold Affine.almostEquals
    intro hst
    split_ifs at hst with h1 h2 h3 h4 h5 h6
    simp only [key _ h1, key _ h2, key _ h3, key _ h4, key _ h5, key _ h6, if_false]
  have lt : ∀ x : K, x < e → x < e' := fun x hx => hx.trans_le h
  have conf : ∀ T : Affine K, T.isConformal e = true → T.isConformal e' = true := by
    intro T
    simp only [Affine.isConformal, decide_eq_true_eq]
    exact lt _
  refine ⟨fun u v => vec_almost_mono h0 h, fun v => vec_null_mono h0 h, ?_, ?_, aff, fun T => ⟨?_, conf T, ?_, ?_, ?_⟩⟩
  · intro s t
    simp only [Vec2Array.almostEquals, Bool.and_eq_true, List.all_eq_true]
    exact fun ⟨h1, h2⟩ => ⟨h1, fun ab hab => vec_almost_mono h0 h (h2 ab hab)⟩
  · intro b c
    simp only [Box.almostEquals, Bool.and_eq_true]
    exact fun ⟨h1, h2⟩ => ⟨vec_almost_mono h0 h h1, vec_almost_mono h0 h h2⟩
  · simp only [Affine.isRectilinear, Bool.or_eq_true, Bool.and_eq_true, decide_eq_true_eq]
    exact Or.imp (fun h => ⟨lt _ h.1, lt _ h.2⟩) fun h => ⟨lt _ h.1, lt _ h.2⟩
  · simp only [Affine.isOrthonormal, Bool.and_eq_true, decide_eq_true_eq]
    exact fun h => ⟨⟨conf T h.1.1, lt _ h.1.2⟩, lt _ h.2⟩
  · simp only [Affine.isDegenerate, decide_eq_true_eq]
    exact lt _
  · intro b
    simp only [Affine.isIdentity, Bool.or_eq_true]
    exact Or.imp id (aff T _)

section Lines
variable [PyMath K]

/-- **C85** raising EPSILON: a line, ray or segment contains more points, and fewer are found to its left, to its right, behind
or ahead of a line; lines, rays and segments that were almost equal stay so. -/
theorem C85_looser_lines {e e' : K} (h0 : 0 ≤ e) (h : e ≤ e') :
    (∀ (l : Line K) p, (l.containsPoint e p = true → l.containsPoint e' p = true) ∧ (l.pointLeft e' p = true → l.pointLeft e p = true) ∧
      (l.pointRight e' p = true → l.pointRight e p = true)) ∧
    (∀ (r : Ray K) p, (r.containsPoint e p = true → r.containsPoint e' p = true) ∧ (r.pointBehind e' p = true → r.pointBehind e p = true)) ∧
    (∀ (s : LineSegment K) p, (s.containsPoint e p = true → s.containsPoint e' p = true) ∧
      (s.pointBehind e' p = true → s.pointBehind e p = true) ∧ (s.pointAhead e' p = true → s.pointAhead e p = true)) ∧
    (∀ l m : Line K, l.almostEquals e m = true → l.almostEquals e' m = true) ∧
    (∀ l m : Ray K, l.almostEquals e m = true → l.almostEquals e' m = true) ∧
    (∀ l m : LineSegment K, l.almostEquals e m = true → l.almostEquals e' m = true) := by
  have lt : ∀ x : K, x < e → x < e' := fun x hx => hx.trans_le h
  have ge : ∀ x : K, x ≥ e' → x ≥ e := fun x hx => h.trans hx
  have le : ∀ x : K, x ≤ -e' → x ≤ -e := fun x hx => hx.trans (f_neg_le e e' h)
  refine ⟨fun l p => ⟨?_, ?_, ?_⟩, fun l p => ⟨?_, ?_⟩, fun l p => ⟨?_, ?_, ?_⟩, fun l m => ?_, fun l m => ?_, fun l m => ?_⟩
  · simp only [Line.containsPoint, decide_eq_true_eq]; exact lt _
  · simp only [Line.pointLeft, decide_eq_true_eq]; exact le _
  · simp only [Line.pointRight, decide_eq_true_eq]; exact ge _
  · simp only [Ray.containsPoint, decide_eq_true_eq]; exact lt _
  · simp only [Ray.pointBehind, decide_eq_true_eq]; exact le _
  · simp only [LineSegment.containsPoint, decide_eq_true_eq]; exact lt _
  · simp only [LineSegment.pointBehind, decide_eq_true_eq]; exact le _
  · simp only [LineSegment.pointAhead, decide_eq_true_eq]
    exact fun hx => le_trans (f_add_le _ _ _ h) hx
  · simp only [Line.almostEquals, Bool.and_eq_true, decide_eq_true_eq]
    exact fun ⟨h1, h2⟩ => ⟨lt _ h1, vec_almost_mono h0 h h2⟩
  · simp only [Ray.almostEquals, Bool.and_eq_true]
    exact fun ⟨h1, h2⟩ => ⟨vec_almost_mono h0 h h1, vec_almost_mono h0 h h2⟩
  · simp only [LineSegment.almostEquals, Bool.and_eq_true]
    exact fun ⟨h1, h2⟩ => ⟨vec_almost_mono h0 h h1, vec_almost_mono h0 h h2⟩

/-! ### lines do not remember EPSILON -/

theorem zero_isNull {e : K} (h : 0 < eps2 e) : (Vec2.null : Vec2 K).isNull e = true := by
  simp only [Vec2.isNull, Vec2.length2, Vec2.null, decide_eq_true_eq, Vec2.mk'_fl, f_mul_zero, f_add_zero]
  exact h

theorem setDirection_eps {e e' : K} (h0 : 0 ≤ e) (h : e ≤ e') (hp : 0 < eps2 e') {s t : Lin K} {v : Vec2 K}
    (hs : s.setDirection e' v = (.ok (), t)) : s.setDirection e v = (.ok (), t) := by
  unfold Lin.setDirection at hs ⊢
  rw [Vec2.copy_fl] at hs ⊢
  unfold Vec2.normalized at hs ⊢
  by_cases hL : v.length > e'
  · simp only [hL, if_true, lt_of_le_of_lt h hL] at hs ⊢
    generalize (do let x ← pydiv v.x v.length; let y ← pydiv v.y v.length; return (⟨x, y⟩ : Vec2 K)) = r at hs ⊢
    rcases r with er | d
    · exact hs
    · simp only at hs ⊢
      by_cases hn : d.isNull e' = true
      · rw [hn] at hs; simp at hs
      · have : ¬ d.isNull e = true := fun hc => hn (vec_null_mono h0 h hc)
        simp only [hn, this] at hs ⊢
        exact hs
  · simp only [hL, if_false, zero_isNull hp, if_true] at hs
    simp at hs

theorem setNormal_eps {e e' : K} (h0 : 0 ≤ e) (h : e ≤ e') (hp : 0 < eps2 e') {s t : Lin K} {v : Vec2 K}
    (hs : s.setNormal e' v = (.ok (), t)) : s.setNormal e v = (.ok (), t) := by
  unfold Lin.setNormal at hs ⊢
  rw [Vec2.copy_fl] at hs ⊢
  unfold Vec2.normalized at hs ⊢
  by_cases hL : v.length > e'
  · simp only [hL, if_true, lt_of_le_of_lt h hL] at hs ⊢
    generalize (do let x ← pydiv v.x v.length; let y ← pydiv v.y v.length; return (⟨x, y⟩ : Vec2 K)) = r at hs ⊢
    rcases r with er | d
    · exact hs
    · simp only at hs ⊢
      by_cases hn : d.isNull e' = true
      · rw [hn] at hs; simp at hs
      · have : ¬ d.isNull e = true := fun hc => hn (vec_null_mono h0 h hc)
        simp only [hn, this] at hs ⊢
        exact hs
  · simp only [hL, if_false, zero_isNull hp, if_true] at hs
    simp at hs

theorem ofDirection_eps {e e' : K} (h0 : 0 ≤ e) (h : e ≤ e') (hp : 0 < eps2 e') {l : Lin K} {v : Vec2 K}
    (hl : Lin.ofDirection e' v = .ok l) : Lin.ofDirection e v = .ok l := by
  unfold Lin.ofDirection at hl ⊢
  rcases hr : Lin.setDirection e' ⟨v, v⟩ v with ⟨er | u, t⟩
  · rw [hr] at hl; simp at hl
  · rw [hr] at hl; rw [setDirection_eps h0 h hp hr]; exact hl

theorem ofNormal_eps {e e' : K} (h0 : 0 ≤ e) (h : e ≤ e') (hp : 0 < eps2 e') {l : Lin K} {v : Vec2 K}
    (hl : Lin.ofNormal e' v = .ok l) : Lin.ofNormal e v = .ok l := by
  unfold Lin.ofNormal at hl ⊢
  rcases hr : Lin.setNormal e' ⟨v, v⟩ v with ⟨er | u, t⟩
  · rw [hr] at hl; simp at hl
  · rw [hr] at hl; rw [setNormal_eps h0 h hp hr]; exact hl

theorem setVector_eps {e e' : K} (h0 : 0 ≤ e) (h : e ≤ e') (hp : 0 < eps2 e') {s t : LineSegment K} {v : Vec2 K}
    (hs : s.setVector e' v = (.ok (), t)) : s.setVector e v = (.ok (), t) := by
  unfold LineSegment.setVector at hs ⊢
  simp only at hs ⊢
  split_ifs at hs ⊢ with hc
  · rcases hr : s.toLin.setDirection e' v.copy with ⟨er | u, t'⟩
    · rw [hr] at hs; simp at hs
    · rw [hr] at hs; rw [setDirection_eps h0 h hp hr]; exact hs
  · rcases hr : s.toLin.setDirection e' ⟨1, 0⟩ with ⟨er | u, t'⟩
    · rw [hr] at hs; simp at hs
    · rw [hr] at hs; rw [setDirection_eps h0 h hp hr]; exact hs

/-- **C85** what a constructor or an assignment accepts under one EPSILON it accepts under every smaller one, and the object is the
same: lines, rays and segments keep nothing of the EPSILON they were made with. -/
theorem C85_lines {e e' : K} (h0 : 0 ≤ e) (h : e ≤ e') (hp : 0 < eps2 e') :
    (∀ p d (l : Line K), Line.new e' p d = .ok l → Line.new e p d = .ok l) ∧
    (∀ n o (l : Line K), Line.fromNormal e' n o = .ok l → Line.fromNormal e n o = .ok l) ∧
    (∀ p d (l : Ray K), Ray.new e' p d = .ok l → Ray.new e p d = .ok l) ∧
    (∀ p v (l : LineSegment K), LineSegment.new e' p v = .ok l → LineSegment.new e p v = .ok l) ∧
    (∀ n o a b (l : LineSegment K), LineSegment.fromNormal e' n o a b = .ok l → LineSegment.fromNormal e n o a b = .ok l) ∧
    (∀ (l m : Line K) v, (l.setDirection e' v = (.ok (), m) → l.setDirection e v = (.ok (), m)) ∧
      (l.setNormal e' v = (.ok (), m) → l.setNormal e v = (.ok (), m))) ∧
    (∀ (l m : Ray K) v, (l.setDirection e' v = (.ok (), m) → l.setDirection e v = (.ok (), m)) ∧
      (l.setNormal e' v = (.ok (), m) → l.setNormal e v = (.ok (), m))) ∧
    (∀ (l m : LineSegment K) v, (l.setDirection e' v = (.ok (), m) → l.setDirection e v = (.ok (), m)) ∧
      (l.setNormal e' v = (.ok (), m) → l.setNormal e v = (.ok (), m)) ∧ (l.setVector e' v = (.ok (), m) → l.setVector e v = (.ok (), m)) ∧
      (l.setEnd e' v = (.ok (), m) → l.setEnd e v = (.ok (), m))) := by
  refine ⟨fun p d l hl => ?_, fun n o l hl => ?_, fun p d l hl => ?_, fun p v l hl => ?_, fun n o a b l hl => ?_,
    fun l m v => ⟨fun hl => ?_, fun hl => ?_⟩, fun l m v => ⟨fun hl => ?_, fun hl => ?_⟩,
    fun l m v => ⟨fun hl => ?_, fun hl => ?_, setVector_eps h0 h hp, setVector_eps h0 h hp⟩⟩
  · unfold Line.new at hl ⊢
    rcases hr : Lin.ofDirection e' d with er | t
    · rw [hr] at hl; cases hl
    · rw [hr] at hl; rw [ofDirection_eps h0 h hp hr]; exact hl
  · unfold Line.fromNormal at hl ⊢
    rcases hr : Lin.ofNormal e' n with er | t
    · rw [hr] at hl; cases hl
    · rw [hr] at hl; rw [ofNormal_eps h0 h hp hr]; exact hl
  · unfold Ray.new at hl ⊢
    rcases hr : Lin.ofDirection e' d with er | t
    · rw [hr] at hl; cases hl
    · rw [hr] at hl; rw [ofDirection_eps h0 h hp hr]; exact hl
  · unfold LineSegment.new at hl ⊢
    rcases hr : LineSegment.setVector e' ⟨⟨v, v⟩, p, 0⟩ v with ⟨er | u, t⟩
    · rw [hr] at hl; simp at hl
    · rw [hr] at hl; rw [setVector_eps h0 h hp hr]; exact hl
  · unfold LineSegment.fromNormal at hl ⊢
    rcases hr : Lin.ofNormal e' n with er | t
    · rw [hr] at hl; cases hl
    · rw [hr] at hl; rw [ofNormal_eps h0 h hp hr]; exact hl
  all_goals
    first
    | (unfold Line.setDirection at hl ⊢
       rcases hr : l.toLin.setDirection e' v with ⟨er | u, t⟩
       · rw [hr] at hl; simp at hl
       · rw [hr] at hl; rw [setDirection_eps h0 h hp hr]; exact hl)
    | (unfold Line.setNormal at hl ⊢
       rcases hr : l.toLin.setNormal e' v with ⟨er | u, t⟩
       · rw [hr] at hl; simp at hl
       · rw [hr] at hl; rw [setNormal_eps h0 h hp hr]; exact hl)
    | (unfold Ray.setDirection at hl ⊢
       rcases hr : l.toLin.setDirection e' v with ⟨er | u, t⟩
       · rw [hr] at hl; simp at hl
       · rw [hr] at hl; rw [setDirection_eps h0 h hp hr]; exact hl)
    | (unfold Ray.setNormal at hl ⊢
       rcases hr : l.toLin.setNormal e' v with ⟨er | u, t⟩
       · rw [hr] at hl; simp at hl
       · rw [hr] at hl; rw [setNormal_eps h0 h hp hr]; exact hl)
    | (unfold LineSegment.setDirection at hl ⊢
       rcases hr : l.toLin.setDirection e' v with ⟨er | u, t⟩
       · rw [hr] at hl; simp at hl
       · rw [hr] at hl; rw [setDirection_eps h0 h hp hr]; exact hl)
    | (unfold LineSegment.setNormal at hl ⊢
       rcases hr : l.toLin.setNormal e' v with ⟨er | u, t⟩
       · rw [hr] at hl; simp at hl
       · rw [hr] at hl; rw [setNormal_eps h0 h hp hr]; exact hl)

/-- **C85** `from_points` under two values of EPSILON, when both accept the points: the same object. -/
theorem C85_from_points {e e' : K} (h0 : 0 ≤ e) (h1 : 0 ≤ e') (hp : 0 < eps2 e) (hp' : 0 < eps2 e') (ps : List (Vec2 K)) :
    (∀ l m : Line K, Line.fromPoints e ps = .ok l → Line.fromPoints e' ps = .ok m → l = m) ∧
    (∀ l m : Ray K, Ray.fromPoints e ps = .ok l → Ray.fromPoints e' ps = .ok m → l = m) ∧
    (∀ l m : LineSegment K, LineSegment.fromPoints e ps = .ok l → LineSegment.fromPoints e' ps = .ok m → l = m) := by
  wlog hle : e ≤ e' generalizing e e'
  · obtain ⟨a, b, c⟩ := this h1 h0 hp' hp (le_of_not_ge hle)
    exact ⟨fun l m hl hm => (a m l hm hl).symm, fun l m hl hm => (b m l hm hl).symm, fun l m hl hm => (c m l hm hl).symm⟩
  refine ⟨fun l m hl hm => ?_, fun l m hl hm => ?_, fun l m hl hm => ?_⟩
  · unfold Line.fromPoints at hl hm
    rcases hf : firstTwoDistinct ps with er | ⟨a, b, r⟩
    · rw [hf] at hl; cases hl
    rw [hf] at hl hm
    simp only [bind, Except.bind] at hl hm
    rcases hr : Lin.ofDirection e' (b - a) with er | t
    · rw [hr] at hm; cases hm
    rw [ofDirection_eps h0 hle hp' hr] at hl
    rw [hr] at hm
    simp only [pure, Except.pure] at hl hm
    split_ifs at hl hm
    exact (Except.ok.inj hl).symm.trans (Except.ok.inj hm)
  · unfold Ray.fromPoints at hl hm
    rcases hf : firstTwoDistinct ps with er | ⟨a, b, r⟩
    · rw [hf] at hl; cases hl
    rw [hf] at hl hm
    simp only [bind, Except.bind] at hl hm
    rcases hr : Lin.ofDirection e' (b - a) with er | t
    · rw [hr] at hm; cases hm
    rw [ofDirection_eps h0 hle hp' hr] at hl
    rw [hr] at hm
    simp only [pure, Except.pure] at hl hm
    split_ifs at hl hm
    exact (Except.ok.inj hl).symm.trans (Except.ok.inj hm)
  · unfold LineSegment.fromPoints at hl hm
    rcases ps with _ | ⟨p0, ps⟩
    · cases hl
    simp only at hl hm
    by_cases hc : (LineSegment.furthestLoop p0.copy ps 0 p0.copy != p0.copy) = true
    · simp only [hc, if_true] at hl hm
      rcases hr : LineSegment.setVector e' ⟨⟨p0.copy, p0.copy⟩, p0.copy, 0⟩ (LineSegment.furthestLoop p0.copy ps 0 p0.copy - p0.copy) with ⟨er | u, t⟩
      · rw [hr] at hm; cases hm
      rw [setVector_eps h0 hle hp' hr] at hl
      rw [hr] at hm
      dsimp only at hl hm
      split_ifs at hl hm
      exact (Except.ok.inj hl).symm.trans (Except.ok.inj hm)
    · rw [Bool.not_eq_true] at hc
      simp only [hc, Bool.false_eq_true, if_false] at hl hm
      rcases hr : Lin.setDirection e' ⟨p0.copy, p0.copy⟩ ⟨1, 0⟩ with ⟨er | u, t⟩
      · rw [hr] at hm; cases hm
      rw [setDirection_eps h0 hle hp' hr] at hl
      rw [hr] at hm
      simp only at hl hm
      split_ifs at hl hm
      exact (Except.ok.inj hl).symm.trans (Except.ok.inj hm)
end Lines

/-! ### polygons -/

theorem contains_eps {s : Polygon K} (h : s.verts.length ≠ 3 ∨ s.triTest ≠ none) (e e' : K) (p : PyPoint K) :
    s.containsPoint e p = s.containsPoint e' p := by
  unfold containsPoint
  by_cases h3 : s.verts.length = 3
  · simp only [h3, if_true]
    unfold pnpTriangle
    rcases ht : s.triTest with _ | c
    · simp [h3, ht] at h
    · rfl
  · simp only [h3, if_false]

theorem polyRun_eps {s : Polygon K} (h : s.verts.length ≠ 3 ∨ s.triTest ≠ none) (e e' : K) (o : PolyOp K) : o.run e s = o.run e' s := by
  cases o with
  | contains p => show (s.containsPoint e p).2 = (s.containsPoint e' p).2; rw [contains_eps h e e' p]
  | _ => rfl

/-- **C85** a polygon with four or more vertices, in any state: `set_epsilon` makes no difference to it. Whatever is done to it and
whenever EPSILON is changed, it ends as if EPSILON had never been touched, and its answers are the same under every EPSILON. -/
theorem C85_polygon (s : Polygon K) (h : s.verts.length ≠ 3) (e e' : K) (ops : List (EpsOp K)) :
    (EpsOp.run (e, s) ops).2 = s.after e' (EpsOp.only ops) ∧
    ∀ e1 e2 p, ((EpsOp.run (e, s) ops).2.containsPoint e1 p).1 = ((EpsOp.run (e, s) ops).2.containsPoint e2 p).1 := by
  have key : (EpsOp.run (e, s) ops).2 = s.after e' (EpsOp.only ops) ∧ (EpsOp.run (e, s) ops).2.verts.length ≠ 3 := by
    induction ops generalizing s e with
    | nil => exact ⟨rfl, h⟩
    | cons o ops ih =>
      cases o with
      | setEpsilon x => exact ih s h x
      | op o =>
        have hr : (o.run e s).verts.length ≠ 3 := by rw [run_length e s o]; exact h
        have := ih (o.run e s) hr e
        refine ⟨this.1.trans ?_, this.2⟩
        rw [polyRun_eps (Or.inl h) e e' o]
        rfl
  exact ⟨key.1, fun e1 e2 p => by rw [contains_eps (Or.inl key.2) e1 e2 p]⟩

theorem inv_other_eps {s : Polygon K} {e : K} (h : Inv e s) (ht : s.triTest = none) (e' : K) : Inv e' s :=
  ⟨h.short, h.long, h.centroid, h.bbox, fun c hc => absurd (ht.symm.trans hc) (by simp), h.minR2, h.maxR2⟩

/-- The invariant under one of the values EPSILON has had. -/
theorem inv_epsRun (ops : List (EpsOp K)) : ∀ (e : K) (s : Polygon K) (used : List K), e ∈ used → (∃ x ∈ used, Inv x s) →
    (∃ x ∈ used ++ EpsOp.values ops, Inv x (EpsOp.run (e, s) ops).2) := by
  induction ops with
  | nil =>
    rintro e s used - ⟨x, hx, hi⟩
    exact ⟨x, List.mem_append_left _ hx, hi⟩
  | cons o ops ih =>
    rintro e s used he ⟨x, hx, hi⟩
    cases o with
    | setEpsilon y =>
      obtain ⟨z, hz, hi'⟩ := ih y s (used ++ [y]) (by simp) ⟨x, List.mem_append_left _ hx, hi⟩
      exact ⟨z, by simpa [EpsOp.values] using hz, hi'⟩
    | op o =>
      have step : ∃ x ∈ used, Inv x (o.run e s) := by
        rcases ht : s.triTest with _ | c
        · exact ⟨e, he, (inv_run (inv_other_eps hi ht e) o).1⟩
        · refine ⟨x, hx, ?_⟩
          rw [polyRun_eps (Or.inr (by rw [ht]; simp)) e x o]
          exact (inv_run hi o).1
      exact ih e (o.run e s) used he step

/-- **C85** a polygon built without declared flags, triangle or not: after any history of reads, edits and calls of `set_epsilon`,
is_convex, is_simple, centroid, bounding_box and tangents_to_point are those of a fresh polygon with the current vertices. -/
theorem C85_reads (vs : List (Vec2 K)) (e : K) (ops : List (EpsOp K)) :
    let s := (EpsOp.run (e, Polygon.fromPoints vs) ops).2
    let f := Polygon.fromPoints s.verts
    s.isConvex.1 = f.isConvex.1 ∧ s.isSimple.1 = f.isSimple.1 ∧ s.getCentroid.1 = f.getCentroid.1 ∧
    s.boundingBox.1 = f.boundingBox.1 ∧ ∀ p, (s.tangentsToPoint p).1 = (f.tangentsToPoint p).1 := by
  intro s f
  obtain ⟨x, -, hs⟩ := inv_epsRun ops e (Polygon.fromPoints vs) [e] (by simp) ⟨e, by simp, inv_fromPoints e vs⟩
  have hf : Inv x f := inv_fromPoints x s.verts
  exact ⟨(inv_isConvex hs).1.trans (inv_isConvex hf).1.symm, (inv_isSimple hs).1.trans (inv_isSimple hf).1.symm,
    (inv_getCentroid hs).1.trans (inv_getCentroid hf).1.symm,
    (inv_boundingBox hs).1.trans (inv_boundingBox hf).1.symm, fun p => (inv_tangents hs p).2.2⟩

/-- What a triangle test keeps does not depend on the EPSILON under which it was made. -/
theorem closure_eps {e e' : K} {vs : List (Vec2 K)} {c : TriClosure K} (h : triangleClosure e vs = .ok (some c)) :
    triangleClosure e' vs = .ok (some c) ∨ triangleClosure e' vs = .ok none ∧
      ∃ u ∈ vs, ∃ v ∈ vs, u ≠ v ∧ (u - v).isNull e' = true := by
  have hperm := pySorted_perm (yxLt (K := K)) vs
  unfold triangleClosure at h ⊢
  rcases hs : pySorted yxLt vs with _ | ⟨lo, _ | ⟨mid, _ | ⟨hi, _ | ⟨z, l⟩⟩⟩⟩ <;> rw [hs] at h hperm
  · cases h
  · cases h
  · cases h
  · simp only at h ⊢
    by_cases hn : ((lo - mid).isNull e || (hi - mid).isNull e) = true
    · rw [hn] at h; simp at h
    · by_cases hd : ((lo - mid).length2 * (hi - mid).length2 - (lo - mid).dot (hi - mid) * (lo - mid).dot (hi - mid) == 0) = true
      · simp [hn, hd] at h
      · by_cases hn' : ((lo - mid).isNull e' || (hi - mid).isNull e') = true
        · right
          simp only [hn', if_true, true_and]
          have zero : ∀ a : K, a - a = 0 := f_sub_self
          have hz : ∀ u : Vec2 K, u - u = ⟨0, 0⟩ := fun u => by
            show (⟨u.x - u.x, u.y - u.y⟩ : Vec2 K) = _
            rw [zero, zero]
          have ne : lo ≠ mid ∧ hi ≠ mid := by
            constructor
            · rintro rfl
              apply hd
              rw [hz]
              simp only [Vec2.length2, Vec2.dot, f_mul_zero, f_zero_mul, f_add_zero, f_sub_self, beq_self_eq_true]
            · rintro rfl
              apply hd
              rw [hz]
              simp only [Vec2.length2, Vec2.dot, f_mul_zero, f_zero_mul, f_add_zero, f_sub_self, beq_self_eq_true]
          have m1 : lo ∈ vs := hperm.mem_iff.mp (by simp)
          have m2 : mid ∈ vs := hperm.mem_iff.mp (by simp)
          have m3 : hi ∈ vs := hperm.mem_iff.mp (by simp)
          rcases (Bool.or_eq_true _ _).mp hn' with hx | hx
          · exact ⟨lo, m1, mid, m2, ne.1, hx⟩
          · exact ⟨hi, m3, mid, m2, ne.2, hx⟩
        · left
          simp only [hn, hn', hd] at h ⊢
          exact h
  · cases h

theorem epsRun_length (ops : List (EpsOp K)) : ∀ w : K × Polygon K, (EpsOp.run w ops).2.verts.length = w.2.verts.length := by
  induction ops with
  | nil => intro w; rfl
  | cons o ops ih =>
    intro w
    refine (ih (EpsOp.step w o)).trans ?_
    cases o with
    | setEpsilon x => rfl
    | op o => exact run_length w.1 w.2 o

/-- **C85** a triangle built without declared flags, after any history of reads, edits and calls of `set_epsilon`: it contains what a
fresh triangle with its vertices contains under the current EPSILON; or, if two of its vertices are now closer than EPSILON, so that
a fresh triangle would contain nothing, what a fresh triangle contained under an earlier EPSILON of the history. -/
theorem C85_triangle (vs : List (Vec2 K)) (h3 : vs.length = 3) (e : K) (ops : List (EpsOp K)) :
    let w := EpsOp.run (e, Polygon.fromPoints vs) ops
    let f := Polygon.fromPoints w.2.verts
    (∀ p, (w.2.containsPoint w.1 p).1 = (f.containsPoint w.1 p).1) ∨
    (∃ u ∈ w.2.verts, ∃ v ∈ w.2.verts, u ≠ v ∧ (u - v).isNull w.1 = true) ∧
      (∀ p, (f.containsPoint w.1 p).1 = .ok false) ∧
      ∃ x ∈ e :: EpsOp.values ops, ∀ p, (w.2.containsPoint w.1 p).1 = (f.containsPoint x p).1 := by
  intro w f
  have hl : w.2.verts.length = 3 := (epsRun_length ops _).trans h3
  obtain ⟨x, hx, hi⟩ := inv_epsRun ops e (Polygon.fromPoints vs) [e] (by simp) ⟨e, by simp, inv_fromPoints e vs⟩
  change Inv x w.2 at hi
  have hw : ∀ y p, w.2.containsPoint y p = w.2.pnpTriangle y p := fun y p => by simp only [containsPoint, hl, if_true]
  have hfv : f.verts.length = 3 := hl
  have hf : ∀ y p, (f.containsPoint y p).1 = match triangleClosure y w.2.verts with
      | .error e => .error e
      | .ok none => .ok false
      | .ok (some c) => TriClosure.run c p := by
    intro y p
    have ht : f.triTest = none := by
      show (cleared w.2.verts none).triTest = none
      simp only [cleared, ite_self]
    simp only [containsPoint, hfv, if_true, pnpTriangle, ht]
    show (match triangleClosure y w.2.verts with
      | .error e => (.error e, f)
      | .ok none => (.ok false, f)
      | .ok (some c) => (TriClosure.run c p, { f with triTest := some c }) : Py Bool × Polygon K).1 = _
    rcases triangleClosure y w.2.verts with er | (_ | c) <;> rfl
  rcases ht : w.2.triTest with _ | c
  · left
    intro p
    rw [hf, hw]
    unfold pnpTriangle
    rw [ht]
    simp only
    rcases triangleClosure w.1 w.2.verts with er | (_ | c) <;> rfl
  · have hc := (hi.tri c ht).2
    have run : ∀ p, (w.2.containsPoint w.1 p).1 = TriClosure.run c p := by
      intro p
      rw [hw]
      unfold pnpTriangle
      rw [ht]
    rcases closure_eps (e' := w.1) hc with h | ⟨h, hn⟩
    · left
      intro p
      rw [run, hf, h]
    · right
      refine ⟨hn, fun p => by rw [hf, h], x, by simpa using hx, fun p => by rw [run, hf, hc]⟩

/-- What the history says of a point at its end, and what a fresh polygon with the same vertices says. -/
def epsAnswers (e : ℚ) (vs : List (Vec2 ℚ)) (ops : List (EpsOp ℚ)) (p : Vec2 ℚ) : Option Bool × Option Bool :=
  let w := EpsOp.run (e, Polygon.fromPoints vs) ops
  ((w.2.containsPoint w.1 (.vec p)).1.toOption, ((Polygon.fromPoints w.2.verts).containsPoint w.1 (.vec p)).1.toOption)

/-- **C85** the exception is real: a triangle tested before `set_epsilon(10)` goes on answering True, a fresh one answers False. -/
theorem C85_stale :
    epsAnswers (1/100000) [⟨0, 0⟩, ⟨4, 0⟩, ⟨0, 3⟩] [.op (.contains (.vec ⟨1, 1⟩)), .setEpsilon 10] ⟨1, 1⟩ = (some true, some false) := by
  decide +kernel

/-- An edit of a vertex, or never having been tested, and the two agree. -/
example : epsAnswers (1/100000) [⟨0, 0⟩, ⟨4, 0⟩, ⟨0, 3⟩] [.setEpsilon 10] ⟨1, 1⟩ = (some false, some false) ∧
    epsAnswers (1/100000) [⟨0, 0⟩, ⟨4, 0⟩, ⟨0, 3⟩] [.op (.contains (.vec ⟨1, 1⟩)), .setEpsilon 10, .op (.setItem 0 ⟨0, 0⟩)] ⟨1, 1⟩ = (some false, some false) ∧
    epsAnswers 10 [⟨0, 0⟩, ⟨4, 0⟩, ⟨0, 3⟩] [.op (.contains (.vec ⟨1, 1⟩)), .setEpsilon (1/100)] ⟨1, 1⟩ = (some true, some true) := by
  decide +kernel

/-- The hypotheses of C85_looser and C85_lines are met by 1/100000 and 1/100. -/
example : (0:ℚ) ≤ 1/100000 ∧ (1/100000 : ℚ) ≤ 1/100 ∧ 0 < eps2 (1/100 : ℚ) := by unfold eps2; decide +kernel

end Planar
