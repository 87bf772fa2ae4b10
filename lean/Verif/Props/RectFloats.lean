import Verif.Lemmas.RectSim
import Verif.Spec.Double
import Verif.Props.FloatGrid
/-
C75: polygons with horizontal and vertical edges in floating point. Whatever the coordinates, rounding does not change the
answers about such a polygon (with slanted edges it does).
-/
set_option linter.unusedSectionVars false
namespace Planar
open Spec

variable {F : Type} [Field F] [LinearOrder F] [IsStrictOrderedRing F] {R : Rounding F}

/-- Reading a flag or the bounding box, asking for a point or for tangents. (Reading the centroid, which divides, is left
out.) -/
def PlainRead {K : Type} : PolyOp K → Prop
  | .setItem _ _ => False
  | .imul _ => False
  | .centroid => False
  | _ => True

/-- The floating point object and the exact object answer alike: vertices, flags, bounding box, containment of any
point. -/
def SameAnswers (eps : Fl R) (eps' : F) (f : Polygon (Fl R)) (x : Polygon F) : Prop :=
  x.verts = f.verts.map Vec2.exact ∧ f.isConvex.1 = x.isConvex.1 ∧ f.isSimple.1 = x.isSimple.1 ∧
  x.boundingBox.1 = f.boundingBox.1.map Box.exact ∧
  ∀ p, (f.containsPoint eps p).1 = (x.containsPoint eps' p.exact).1

theorem RSim.answers (eps : Fl R) (eps' : F) {s : Polygon (Fl R)} {t : Polygon F} (hS : RSim s t)
    (ops : List (PolyOp (Fl R))) (hops : ∀ op ∈ ops, PlainRead op) :
    SameAnswers eps eps' (s.after eps ops) (t.after eps' (ops.map PolyOp.exact)) := by
  have key : ∀ (ops : List (PolyOp (Fl R))), (∀ op ∈ ops, PlainRead op) → ∀ s t, RSim s t →
      RSim (s.after eps ops) (t.after eps' (ops.map PolyOp.exact)) := by
    intro ops
    induction ops with
    | nil => intro _ s t h; exact h
    | cons op ops ih =>
      intro h s t hS
      have hop := h op List.mem_cons_self
      refine ih (fun o ho => h o (List.mem_cons_of_mem _ ho)) _ _ ?_
      cases op with
      | setItem i v => exact hop.elim
      | imul T => exact hop.elim
      | isConvex => exact (rsim_isConvex hS).2
      | isSimple => exact (rsim_isSimple hS).2
      | centroid => exact hop.elim
      | boundingBox => exact (rsim_boundingBox hS).2
      | contains p => exact (rsim_contains hS eps eps' p p.exact p.toVec_exact).2
      | tangents p => exact rsim_tangents hS p p.exact
  have hE := key ops hops s t hS
  exact ⟨hE.verts, (rsim_isConvex hE).1.symm, (rsim_isSimple hE).1.symm, (rsim_boundingBox hE).1,
    fun p => (rsim_contains hE eps eps' p p.exact p.toVec_exact).1.symm⟩

/-- **C75** For every rounding (so for binary floating point numbers of any precision), every polygon with at least four
vertices and only horizontal and vertical edges, none of them shorter than one (unless the rounding is without underflow),
any declared flags and any history of reads and queries: the flags, the bounding box and the containment of any point
whatever are those computed without any rounding. -/
theorem C75_queries (eps : Fl R) (eps' : F) (vs : List (Vec2 (Fl R))) (h4 : 4 ≤ vs.length)
    (hr : Rectilinear vs) (hu : NoUnderflow R ∨ LongEdges vs) (convex simple : Option Bool) (ops : List (PolyOp (Fl R))) (hops : ∀ op ∈ ops, PlainRead op) :
    ∃ s t, Polygon.new vs convex simple = .ok s ∧ Polygon.new (vs.map Vec2.exact) convex simple = .ok t ∧
      SameAnswers eps eps' (s.after eps ops) (t.after eps' (ops.map PolyOp.exact)) := by
  obtain ⟨s, t, hs, ht, hS⟩ := rsim_new (good_of_rectilinear hr hu) h4 convex simple
  exact ⟨s, t, hs, ht, hS.answers eps eps' ops hops⟩

/-- **C75** after a change: whatever the object was before (in any state, with any edges), once a vertex assignment or
an in-place transform has left a polygon with only horizontal and vertical edges, its answers are those that a new
polygon with these vertices gives without any rounding. -/
theorem C75_changed (eps : Fl R) (eps' : F) (s s' : Polygon (Fl R))
    (hch : (∃ i v, s.setItem i v = (.ok (), s')) ∨ ∃ T, s' = s.imul T)
    (h4 : 4 ≤ s'.verts.length) (hr : Rectilinear s'.verts) (hu : NoUnderflow R ∨ LongEdges s'.verts) (ops : List (PolyOp (Fl R))) (hops : ∀ op ∈ ops, PlainRead op) :
    ∃ t, Polygon.new (s'.verts.map Vec2.exact) = .ok t ∧
      SameAnswers eps eps' (s'.after eps ops) (t.after eps' (ops.map PolyOp.exact)) := by
  obtain ⟨vs, o, rfl⟩ : ∃ vs o, s' = Polygon.cleared vs o := by
    rcases hch with ⟨i, v, h⟩ | ⟨T, rfl⟩
    · unfold Polygon.setItem at h
      split at h
      · cases h
      · cases h; exact ⟨_, _, rfl⟩
    · exact ⟨_, _, rfl⟩
  have hS := rsim_cleared (R := R) (good_of_rectilinear hr hu) h4 o none
  refine ⟨_, ?_, hS.answers eps eps' ops hops⟩
  have hm2 : (vs.map Vec2.exact).map Vec2.copy = vs.map Vec2.exact := List.map_id'' Vec2.copy_fl _
  have hl : ¬ vs.length < 3 := by simp only [Polygon.cleared] at h4; omega
  have hl3 : vs.length > 3 := by simp only [Polygon.cleared] at h4; omega
  unfold Polygon.new
  simp only [Polygon.cleared, hm2, List.length_map, hl, if_false]

/-- **C75** So a new polygon with only horizontal and vertical edges contains a point, in floating point, exactly when the
winding number of its edges around the point, computed exactly, is not zero; -/
theorem C75_winding (eps : Fl R) (vs : List (Vec2 (Fl R))) (h4 : 4 ≤ vs.length) (hr : Rectilinear vs)
    (hu : NoUnderflow R ∨ LongEdges vs) (p : PyPoint (Fl R)) :
    ∃ s, Polygon.new vs = .ok s ∧ (s.containsPoint eps p).1 = .ok (winding (vs.map Vec2.exact) p.toVec.exact != 0) := by
  obtain ⟨s, t, hs, ht, h⟩ := C75_queries eps 1 vs h4 hr hu none none [] (by simp)
  refine ⟨s, hs, ?_⟩
  obtain ⟨t', ht', _, hw⟩ := C48_winding_new (1 : F) (vs.map Vec2.exact) (by simpa using h4) p.exact
  rw [ht] at ht'
  cases ht'
  rw [PyPoint.toVec_exact] at hw
  rw [← hw]
  exact h.2.2.2.2 p

/-- and such polygons tile without gaps and overlaps: when one (with winding numbers 0 and `σ` only) is cut along a
horizontal or vertical chord, each point of it is in exactly one of the parts and every other point in none, in floating
point. -/
theorem C75_tiles (eps : Fl R) (a b : Vec2 (Fl R)) (l m : List (Vec2 (Fl R))) (hl : 2 ≤ l.length)
    (hm : 2 ≤ m.length) (hr : Rectilinear (a :: l ++ b :: m)) (hab : Axis a b) (p : PyPoint (Fl R)) (σ : Int) (hσ : σ ≠ 0)
    (hu : ∀ vs ∈ [a :: l ++ b :: m, a :: l ++ [b], b :: m ++ [a]], NoUnderflow R ∨ LongEdges vs)
    (hw : ∀ vs ∈ [a :: l ++ b :: m, a :: l ++ [b], b :: m ++ [a]],
      winding (vs.map Vec2.exact) p.toVec.exact = 0 ∨ winding (vs.map Vec2.exact) p.toVec.exact = σ) :
    ∃ whole left right, Polygon.new (a :: l ++ b :: m) = .ok whole ∧ Polygon.new (a :: l ++ [b]) = .ok left ∧
      Polygon.new (b :: m ++ [a]) = .ok right ∧
      ((whole.containsPoint eps p).1 = .ok true ↔
        Xor ((left.containsPoint eps p).1 = .ok true) ((right.containsPoint eps p).1 = .ok true)) ∧
      ¬ ((left.containsPoint eps p).1 = .ok true ∧ (right.containsPoint eps p).1 = .ok true) := by
  obtain ⟨c1, c2⟩ := edges_chain hr
  have e1 : a :: l ++ b :: m = (a :: l ++ [b]) ++ m := by simp
  have hA : Rectilinear (a :: l ++ [b]) := by
    refine edges_of_chain ?_ ?_
    · rw [e1] at c1; exact (List.isChain_append.mp c1).1
    · intro x hx y hy
      have : x = b := by rw [List.getLast?_append] at hx; simpa using hx.symm
      have : y = a := by simpa using hy.symm
      subst x y; exact axis_symm hab
  have hB : Rectilinear (b :: m ++ [a]) := by
    refine edges_of_chain ?_ ?_
    · refine List.isChain_append.mpr ⟨(List.isChain_append.mp c1).2.1, .singleton a, ?_⟩
      intro x hx y hy
      refine c2 x ?_ y ?_
      · rw [List.getLast?_append, Option.mem_def.mp hx]; rfl
      · simpa using hy
    · intro x hx y hy
      have : x = a := by rw [List.getLast?_append] at hx; simpa using hx.symm
      have : y = b := by simpa using hy.symm
      subst x y; exact hab
  obtain ⟨s1, h1, w1⟩ := C75_winding eps (a :: l ++ b :: m) (by simp; omega) hr (hu _ (.head _)) p
  obtain ⟨s2, h2, w2⟩ := C75_winding eps (a :: l ++ [b]) (by simp; omega) hA (hu _ (.tail _ (.head _))) p
  obtain ⟨s3, h3, w3⟩ := C75_winding eps (b :: m ++ [a]) (by simp; omega) hB (hu _ (.tail _ (.tail _ (.head _)))) p
  refine ⟨s1, s2, s3, h1, h2, h3, ?_⟩
  have g1 := hw _ (.head _)
  have g2 := hw _ (.tail _ (.head _))
  have g3 := hw _ (.tail _ (.tail _ (.head _)))
  have hc : winding ((a :: l ++ b :: m).map Vec2.exact) p.toVec.exact =
      winding ((a :: l ++ [b]).map Vec2.exact) p.toVec.exact + winding ((b :: m ++ [a]).map Vec2.exact) p.toVec.exact := by
    simpa using C54_chord a.exact b.exact (l.map Vec2.exact) (m.map Vec2.exact) p.toVec.exact
  rw [w1, w2, w3]
  simp only [Except.ok.injEq, bne_iff_ne, xor_def]
  generalize winding ((a :: l ++ b :: m).map Vec2.exact) p.toVec.exact = w at *
  generalize winding ((a :: l ++ [b]).map Vec2.exact) p.toVec.exact = w1 at *
  generalize winding ((b :: m ++ [a]).map Vec2.exact) p.toVec.exact = w2 at *
  constructor
  · constructor
    · intro _; omega
    · rintro (⟨_, _⟩ | ⟨_, _⟩) <;> omega
  · omega

/-- An answer as a value that can be compared. -/
private def ans (r : Py Bool) : Option Bool := match r with | .ok b => some b | .error _ => none

private theorem of_ans {r : Py Bool} {b : Bool} (h : ans r = some b) : r = .ok b := by
  cases r with
  | ok c => simp only [ans, Option.some.injEq] at h; rw [h]
  | error e => cases h

/-- Slanted edges: cut along a slanted chord, in double precision, the two parts may both contain a point, or neither of
them, although the point is inside the polygon. (Without rounding exactly one part contains it, C54.) -/
theorem C75_slanted_contrast :
    ∃ (l m : List (Vec2 Double)) (a b p a' b' p' : Vec2 Double) (eps : Double), 2 ≤ l.length ∧ 2 ≤ m.length ∧
      (((Polygon.fromPoints (a :: l ++ b :: m)).containsPoint eps (.vec p)).1 = .ok true ∧
        ((Polygon.fromPoints (a :: l ++ [b])).containsPoint eps (.vec p)).1 = .ok true ∧
        ((Polygon.fromPoints (b :: m ++ [a])).containsPoint eps (.vec p)).1 = .ok true) ∧
      ((Polygon.fromPoints (a' :: l ++ b' :: m)).containsPoint eps (.vec p')).1 = .ok true ∧
        ((Polygon.fromPoints (a' :: l ++ [b'])).containsPoint eps (.vec p')).1 = .ok false ∧
        ((Polygon.fromPoints (b' :: m ++ [a'])).containsPoint eps (.vec p')).1 = .ok false := by
  refine ⟨[dvec 20000000000 (-20000000000), dvec 20000000000 20000000000],
    [dvec (-20000000000) 20000000000, dvec (-20000000000) (-20000000000)],
    dvec 9397894890 (-7576918122), dvec 611928980 5907167688, dvec 5588068049 (-1729862423),
    dvec (-9268282974) (-4190709754), dvec 5005711470 (-2312130976), dvec 91754950 (-2958849347),
    (dbl (1 / 100000)), by decide, by decide, ⟨?_, ?_, ?_⟩, ?_, ?_, ?_⟩ <;> exact of_ans (by decide +kernel)

/-- Tiny edges: a square with sides `2 ^ -600` does not contain its centre, in double precision (the products underflow),
although the centre and the corners are floats. -/
theorem C75_tiny_contrast :
    let sq := [dvec 0 0, dvec (2 ^ (-600 : ℤ)) 0, dvec (2 ^ (-600 : ℤ)) (2 ^ (-600 : ℤ)), dvec 0 (2 ^ (-600 : ℤ))]
    let centre := dvec (2 ^ (-601 : ℤ)) (2 ^ (-601 : ℤ))
    Rectilinear sq ∧ centre.x.val = 2 ^ (-601 : ℤ) ∧
      ((Polygon.fromPoints sq).containsPoint (dbl (1 / 100000)) (.vec centre)).1 = .ok false ∧
      ((Polygon.fromPoints (sq.map Vec2.exact)).containsPoint (1 / 100000) (.vec centre.exact)).1 = .ok true := by
  refine ⟨?_, by decide +kernel, of_ans (by decide +kernel), of_ans (by decide +kernel)⟩
  intro e he
  simp only [edges, edgesFrom, List.getLast?_cons_cons, List.getLast?_singleton, List.mem_cons,
    List.not_mem_nil, or_false] at he
  rcases he with rfl | rfl | rfl | rfl <;> (unfold Axis; decide +kernel)

/-! ### The hypotheses are met -/

/-- Roundings without underflow: floats with unbounded exponents. -/
example : NoUnderflow (ieee ℚ 52) := by
  intro x h
  rcases lt_trichotomy x 0 with hx | hx | hx
  · have h1 : roundTo 53 x = 0 := h
    rw [roundTo_neg hx] at h1
    have := roundPos_pos (F := ℚ) (p := 53) (by norm_num) (show 0 < -x by linarith); linarith
  · exact hx
  · have h1 : roundTo 53 x = 0 := h
    rw [roundTo_pos hx] at h1
    have := roundPos_pos (F := ℚ) (p := 53) (by norm_num) hx; linarith

/-- An L whose coordinates do not fit on any useful grid. -/
def ell : List (Vec2 Double) :=
  [dvec (1 / 10) (1 / 3), dvec (10 ^ 30) (1 / 3), dvec (10 ^ 30) (-12 / 7), dvec 5 (-12 / 7), dvec 5 (-10 ^ 20), dvec (1 / 10) (-10 ^ 20)]

example : 4 ≤ ell.length ∧ Rectilinear ell ∧ LongEdges ell := by
  refine ⟨by decide, ?_, by unfold LongEdges; decide +kernel⟩
  intro e he
  simp only [ell, edges, edgesFrom, List.getLast?_cons_cons, List.getLast?_singleton, List.mem_cons,
    List.not_mem_nil, or_false] at he
  rcases he with rfl | rfl | rfl | rfl | rfl | rfl <;> (unfold Axis; decide +kernel)

/-- Points near its edges are told apart. -/
example : ((Polygon.fromPoints ell).containsPoint (dbl (1 / 100000)) (.vec (dvec (1 / 10 + 1 / 10 ^ 15) 0))).1 = .ok true ∧
    ((Polygon.fromPoints ell).containsPoint (dbl (1 / 100000)) (.vec (dvec (1 / 10 - 1 / 10 ^ 15) 0))).1 = .ok false :=
  ⟨of_ans (by decide +kernel), of_ans (by decide +kernel)⟩

/-- `C75_changed`: a slanted quadrilateral becomes a rectangle by one assignment. -/
example : ∃ s', (Polygon.fromPoints [dvec 0 0, dvec 7 0, dvec 9 (4 / 3), dvec 0 (4 / 3)]).setItem 2 (dvec 7 (4 / 3)) = (.ok (), s') ∧
    4 ≤ s'.verts.length ∧ Rectilinear s'.verts := by
  refine ⟨_, rfl, by decide, ?_⟩
  intro e he
  have : e ∈ edges [dvec 0 0, dvec 7 0, (dvec 7 (4 / 3)).copy, dvec 0 (4 / 3)] := he
  simp only [edges, edgesFrom, List.getLast?_cons_cons, List.getLast?_singleton, List.mem_cons,
    List.not_mem_nil, or_false, Vec2.copy_fl] at this
  rcases this with rfl | rfl | rfl | rfl <;> (unfold Axis; decide +kernel)

/-- `C75_tiles`: a rectangle cut by the chord from (1/10, 0) to (1/10, 4/3), and a point on the chord. -/
example : ∀ vs ∈ [dvec (1 / 10) 0 :: [dvec 9 0, dvec 9 (4 / 3)] ++ dvec (1 / 10) (4 / 3) :: [dvec (-9) (4 / 3), dvec (-9) 0],
      dvec (1 / 10) 0 :: [dvec 9 0, dvec 9 (4 / 3)] ++ [dvec (1 / 10) (4 / 3)],
      dvec (1 / 10) (4 / 3) :: [dvec (-9) (4 / 3), dvec (-9) 0] ++ [dvec (1 / 10) 0]],
    winding (vs.map Vec2.exact) (dvec (1 / 10) (1 / 7)).exact = 0 ∨ winding (vs.map Vec2.exact) (dvec (1 / 10) (1 / 7)).exact = -1 := by
  decide +kernel

end Planar
