import Verif.Lemmas.WindNear
/- The chains of a polygon with rational vertices, and the test with them, do not change when the numbers are taken as reals. -/
set_option linter.unusedSectionVars false
namespace Planar
open Spec Polygon

/-- Both numbers of a pair as reals. -/
noncomputable def castPair (p : ℚ × ℚ) : ℝ × ℝ := (p.1, p.2)

/-- The running extremes as reals. -/
noncomputable def castExt (e : YExt ℚ) : YExt ℝ :=
  ⟨e.minY, e.maxY, e.minX, e.maxX, e.minI, e.maxI, e.leftI, e.rightI⟩

theorem yExtStep_cast (e : YExt ℚ) (iv : Nat × Vec2 ℚ) :
    yExtStep (castExt e) (iv.1, castVec iv.2) = castExt (yExtStep e iv) := by
  unfold yExtStep
  by_cases h1 : iv.2.y < e.minY <;> by_cases h2 : iv.2.y > e.maxY <;> by_cases h3 : iv.2.x < e.minX <;>
    by_cases h4 : iv.2.x > e.maxX <;>
    simp only [h1, h2, h3, h4, if_true, if_false] <;>
    simp only [gt_iff_lt] at h1 h2 h3 h4 <;>
    simp [castExt, castVec, h1, h2, h3, h4]

theorem nth_cast (vs : List (Vec2 ℚ)) (i : Int) : nth (vs.map castVec) i = castVec (nth vs i) := by
  unfold nth
  rw [pyGet_map]
  cases pyGet vs i
  · simp [Except.map, castVec, Vec2.null]
  · rfl

theorem yExtremes_cast (vs : List (Vec2 ℚ)) : yExtremes (vs.map castVec) = castExt (yExtremes vs) := by
  have key : ∀ (l : List (Nat × Vec2 ℚ)) (e : YExt ℚ),
      (l.map fun iv => (iv.1, castVec iv.2)).foldl yExtStep (castExt e) = castExt (l.foldl yExtStep e) := by
    intro l
    induction l with
    | nil => intro e; rfl
    | cons a l ih => intro e; simp only [List.map_cons, List.foldl_cons, yExtStep_cast, ih]
  unfold yExtremes
  simp only [nth_cast, List.length_map]
  rw [← key, List.zip_map_right]
  rfl

theorem upward_cast (pl : List (ℚ × ℚ)) : upward (pl.map castPair) = (upward pl).map castPair := by
  unfold upward
  rw [List.head?_map, List.getLast?_map]
  cases pl.head? <;> cases pl.getLast? <;> simp only [Option.map]
  rename_i a b
  have : (castPair a).1 > (castPair b).1 ↔ a.1 > b.1 := by simp only [castPair, gt_iff_lt, Rat.cast_lt]
  simp only [this]
  split
  · rw [List.map_reverse]
  · rfl

theorem splitYPolylines_cast (vs : List (Vec2 ℚ)) :
    splitYPolylines (vs.map castVec) = ((splitYPolylines vs).1.map castPair, (splitYPolylines vs).2.map castPair) := by
  unfold splitYPolylines
  rw [yExtremes_cast]
  have hyx : (vs.map castVec).map (fun v => (v.y, v.x)) = (vs.map fun v => (v.y, v.x)).map castPair := by
    simp only [List.map_map]; rfl
  simp only [hyx, castExt]
  split
  · split <;> simp only [← List.map_take, ← List.map_drop, ← List.map_append, upward_cast]
  · split <;> simp only [← List.map_take, ← List.map_drop, ← List.map_append, upward_cast]

theorem ptLt_cast (y : ℚ) (p : ℚ × ℚ) : ptLt (y : ℝ) (castPair p) = ptLt y p := by
  unfold ptLt castPair
  have h1 : ((y : ℝ) == (p.1 : ℝ)) = (y == p.1) := by
    by_cases h : y = p.1
    · simp [h]
    · have : (y : ℝ) ≠ p.1 := by exact_mod_cast h
      simp [h]
  simp only [h1, Rat.cast_lt]

theorem bisectLoop_cast (pl : List (ℚ × ℚ)) (y : ℚ) (lo hi : Nat) :
    bisectLoop (pl.map castPair) (y : ℝ) lo hi = bisectLoop pl y lo hi := by
  induction lo, hi using bisectLoop.induct pl y with
  | case1 lo hi h mid yx hyx hlt ih =>
    rw [bisectLoop, bisectLoop]
    simp only [h, dite_true, List.getElem?_map]
    rw [show pl[(lo + hi) / 2]? = some yx from hyx]
    simp only [Option.map_some, ptLt_cast, hlt, if_true]
    exact ih
  | case2 lo hi h mid yx hyx hlt ih =>
    rw [bisectLoop, bisectLoop]
    simp only [h, dite_true, List.getElem?_map]
    rw [show pl[(lo + hi) / 2]? = some yx from hyx]
    simp only [Option.map_some, ptLt_cast, hlt, if_false]
    exact ih
  | case3 lo hi h mid hn =>
    rw [bisectLoop, bisectLoop]
    simp only [h, dite_true, List.getElem?_map]
    rw [show pl[(lo + hi) / 2]? = none from hn]
    rfl
  | case4 lo hi h =>
    rw [bisectLoop, bisectLoop]
    simp only [h, dite_false]

theorem bisectRight_cast (pl : List (ℚ × ℚ)) (y : ℚ) : bisectRight (pl.map castPair) (y : ℝ) = bisectRight pl y := by
  unfold bisectRight
  rw [bisectLoop_cast, List.length_map]

theorem pnpYMonotone_cast (vs : List (Vec2 ℚ)) (p : Vec2 ℚ) :
    pnpYMonotone (splitYPolylines (vs.map castVec)) (castVec p) = pnpYMonotone (splitYPolylines vs) p := by
  rw [splitYPolylines_cast]
  generalize splitYPolylines vs = pls
  have turn : ∀ a b : ℚ × ℚ, (((castPair b).2 - (castPair a).2) * ((p.y : ℝ) - (castPair a).1) -
      ((p.x : ℝ) - (castPair a).2) * ((castPair b).1 - (castPair a).1) > 0) ↔
      ((b.2 - a.2) * (p.y - a.1) - (p.x - a.2) * (b.1 - a.1) > 0) := by
    intro a b
    simp only [castPair, gt_iff_lt]
    exact_mod_cast Iff.rfl
  unfold pnpYMonotone
  simp only [castVec, bisectRight_cast, List.length_map, pyGet_map]
  split
  · rfl
  · cases pyGet pls.1 ((bisectRight pls.1 p.y : Int) - 1) with
    | error e => rfl
    | ok a =>
      cases pyGet pls.1 (bisectRight pls.1 p.y : Int) with
      | error e => rfl
      | ok b =>
        simp only [Except.map, bind, Except.bind, turn]
        split
        · rfl
        · cases pyGet pls.2 ((bisectRight pls.2 p.y : Int) - 1) with
          | error e => rfl
          | ok c =>
            cases pyGet pls.2 (bisectRight pls.2 p.y : Int) with
            | error e => rfl
            | ok d => simp only [turn]

end Planar
