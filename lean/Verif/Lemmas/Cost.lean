import Verif.Model.Cost
import Verif.Lemmas.Sort
import Mathlib.Data.List.Basic
import Mathlib.Tactic.Linarith
import Mathlib.Data.List.Perm.Subperm
import Mathlib.Data.Nat.Log
/- The counted loops compute what the uncounted ones do, and the bounds on their steps. No law of arithmetic is used:
everything here holds for doubles, with NaN and infinities, as for exact numbers. -/
set_option linter.unusedSectionVars false
namespace Planar
open Counted
variable {K : Type}

@[simp] theorem ret_val {α : Type} (a : α) : (ret a).val = a := rfl
@[simp] theorem ret_steps {α : Type} (a : α) : (ret a).steps = 0 := rfl
@[simp] theorem tick_val {α : Type} (k : Nat) (c : Counted α) : (tick k c).val = c.val := rfl
@[simp] theorem tick_steps {α : Type} (k : Nat) (c : Counted α) : (tick k c).steps = c.steps + k := rfl
@[simp] theorem andThen_val {α β : Type} (c : Counted α) (f : α → Counted β) : (andThen c f).val = (f c.val).val := rfl
@[simp] theorem andThen_steps {α β : Type} (c : Counted α) (f : α → Counted β) :
    (andThen c f).steps = c.steps + (f c.val).steps := rfl

namespace Polygon

section Contains
variable [Add K] [Sub K] [Mul K] [Div K] [Zero K] [One K] [BEq K] [LT K] [LE K] [DecidableLT K] [DecidableLE K]

theorem bisectLoopC_val (pl : List (K × K)) (py : K) (lo hi : Nat) :
    (bisectLoopC pl py lo hi).val = bisectLoop pl py lo hi := by
  induction hd : hi - lo using Nat.strong_induction_on generalizing lo hi with
  | _ d ih =>
    unfold bisectLoopC bisectLoop
    split_ifs with h
    · simp only
      cases hm : pl[(lo + hi) / 2]? with
      | none => rfl
      | some yx =>
        simp only [tick_val]
        split_ifs
        · exact ih _ (by omega) _ _ rfl
        · exact ih _ (by omega) _ _ rfl
    · rfl

/-- Binary search in a list of length below `2^k` compares at most `k` times. -/
theorem bisectLoopC_steps (pl : List (K × K)) (py : K) (k : Nat) : ∀ lo hi : Nat, hi - lo < 2 ^ k →
    (bisectLoopC pl py lo hi).steps ≤ k := by
  induction k with
  | zero =>
    intro lo hi h
    unfold bisectLoopC
    rw [dif_neg (by simp at h; omega)]
    simp
  | succ k ih =>
    intro lo hi h
    have e : 2 ^ (k + 1) = 2 * 2 ^ k := by rw [Nat.pow_succ, Nat.mul_comm]
    rw [e] at h
    generalize 2 ^ k = m at h ih
    unfold bisectLoopC
    split_ifs with hl
    · simp only
      cases hm : pl[(lo + hi) / 2]? with
      | none => simp
      | some yx =>
        simp only [tick_steps]
        split_ifs
        · have := ih lo ((lo + hi) / 2) (by omega); omega
        · have := ih ((lo + hi) / 2 + 1) hi (by omega); omega
    · simp

theorem pnpYMonotoneC_val (pls : List (K × K) × List (K × K)) (p : Vec2 K) :
    (pnpYMonotoneC pls p).val = pnpYMonotone pls p := by
  unfold pnpYMonotoneC pnpYMonotone bisectRight
  simp only [andThen_val, bisectLoopC_val]
  split_ifs with h
  · rfl
  · cases h1 : pyGet pls.1 ((bisectLoop pls.1 p.y 0 pls.1.length : Int) - 1) with
    | error e => rfl
    | ok a =>
      cases h2 : pyGet pls.1 (bisectLoop pls.1 p.y 0 pls.1.length : Int) with
      | error e => rfl
      | ok b =>
        simp only [bind, Except.bind]
        split_ifs
        · rfl
        · simp only [andThen_val, bisectLoopC_val]; rfl

theorem pnpYMonotoneC_steps (pls : List (K × K) × List (K × K)) (p : Vec2 K) (k : Nat)
    (h1 : pls.1.length < 2 ^ k) (h2 : pls.2.length < 2 ^ k) : (pnpYMonotoneC pls p).steps ≤ 2 * k := by
  unfold pnpYMonotoneC
  have b1 := bisectLoopC_steps pls.1 p.y k 0 pls.1.length (by omega)
  have b2 := bisectLoopC_steps pls.2 p.y k 0 pls.2.length (by omega)
  simp only [andThen_steps]
  split_ifs
  · simp only [ret_steps]; omega
  · split
    · simp only [ret_steps]; omega
    · split
      · simp only [ret_steps]; omega
      · split_ifs
        · simp only [ret_steps]; omega
        · simp only [andThen_steps, ret_steps]; omega

theorem windLoopC_val (p : Vec2 K) (vs : List (Vec2 K)) : ∀ (v0 : Vec2 K) (w : Int),
    (windLoopC p vs v0 w).val = windLoop p vs v0 w := by
  induction vs with
  | nil => intro v0 w; rfl
  | cons v1 rest ih => intro v0 w; simp only [windLoopC, windLoop, tick_val, ih]

theorem windLoopC_steps (p : Vec2 K) (vs : List (Vec2 K)) : ∀ (v0 : Vec2 K) (w : Int),
    (windLoopC p vs v0 w).steps = vs.length := by
  induction vs with
  | nil => intro v0 w; rfl
  | cons v1 rest ih => intro v0 w; simp only [windLoopC, tick_steps, ih, List.length_cons]

theorem pnpWindingC_val (vs : List (Vec2 K)) (p : Vec2 K) : (pnpWindingC vs p).val = pnpWinding vs p := by
  simp only [pnpWindingC, pnpWinding, andThen_val, ret_val, windLoopC_val]

theorem pnpWindingC_steps (vs : List (Vec2 K)) (p : Vec2 K) : (pnpWindingC vs p).steps = vs.length := by
  simp only [pnpWindingC, andThen_steps, ret_steps, windLoopC_steps, Nat.add_zero]

theorem boxLoopC_val (qs : List (Vec2 K)) : ∀ acc : Vec2 K × Vec2 K,
    (boxLoopC qs acc).val = qs.foldl (fun (acc : Vec2 K × Vec2 K) q => Box.step acc.1 acc.2 q) acc := by
  induction qs with
  | nil => intro acc; rfl
  | cons q qs ih => intro acc; simp only [boxLoopC, tick_val, ih, List.foldl_cons]

theorem boxLoopC_steps (qs : List (Vec2 K)) : ∀ acc : Vec2 K × Vec2 K, (boxLoopC qs acc).steps = qs.length := by
  induction qs with
  | nil => intro acc; rfl
  | cons q qs ih => intro acc; simp only [boxLoopC, tick_steps, ih, List.length_cons]

theorem boxFromPointsC_val (ps : List (Vec2 K)) : (boxFromPointsC ps).val = Box.fromPoints ps := by
  cases ps with
  | nil => rfl
  | cons p ps => simp only [boxFromPointsC, Box.fromPoints, tick_val, andThen_val, ret_val, boxLoopC_val]

theorem boxFromPointsC_steps (ps : List (Vec2 K)) : (boxFromPointsC ps).steps = ps.length := by
  cases ps with
  | nil => rfl
  | cons p ps => simp only [boxFromPointsC, tick_steps, andThen_steps, ret_steps, boxLoopC_steps, List.length_cons, Nat.add_zero]

theorem boundingBoxC_val (s : Polygon K) : s.boundingBoxC.val = s.boundingBox := by
  unfold boundingBoxC boundingBox
  cases s.bbox with
  | some b => rfl
  | none =>
    simp only [andThen_val, ret_val, boxFromPointsC_val]
    rcases Box.fromPoints s.verts with e | b <;> rfl

theorem boundingBoxC_steps (s : Polygon K) : s.boundingBoxC.steps = if s.bbox.isSome then 0 else s.verts.length := by
  unfold boundingBoxC
  cases s.bbox with
  | some b => rfl
  | none => simp [boxFromPointsC_steps]

theorem pnpTriangleC_val (eps : K) (s : Polygon K) (p : PyPoint K) : (s.pnpTriangleC eps p).val = s.pnpTriangle eps p := by
  unfold pnpTriangleC pnpTriangle
  cases s.triTest with
  | some c => rfl
  | none =>
    simp only [tick_val]
    rcases triangleClosure eps s.verts with e | _ | c <;> rfl

theorem pnpTriangleC_steps (eps : K) (s : Polygon K) (p : PyPoint K) : (s.pnpTriangleC eps p).steps ≤ 4 := by
  unfold pnpTriangleC
  cases s.triTest with
  | some c => simp
  | none =>
    simp only [tick_steps]
    split <;> simp

/-- polygon.py:678-683: the answer of the radial shortcuts, if they give one. -/
def radialOf (s : Polygon K) (point : PyPoint K) : Py (Option Bool) :=
  match s.centroid with
  | none => .ok none
  | some c =>
    if s.verts.length > 4 then
      match c with
      | none => .error .typeError
      | some c =>
        let d2 := (c - point.toVec).length2
        if (match s.minR2 with | some r => decide (d2 < r) | none => false) then .ok (some true)
        else if (match s.maxR2 with | some r => decide (d2 > r) | none => false) then .ok (some false)
        else .ok none
    else .ok none

theorem containsPoint_radial (eps : K) (s : Polygon K) (p : PyPoint K) (h3 : s.verts.length ≠ 3) :
    s.containsPoint eps p = match radialOf s p with
    | .error e => (.error e, s)
    | .ok (some b) => (.ok b, s)
    | .ok none =>
      match s.yPolylines with
      | some pls => (pnpYMonotone pls p.toVec, s)
      | none =>
        if s.verts.length = 4 then (.ok (pnpWinding s.verts p.toVec), s)
        else match s.boundingBox with
          | (.error e, s) => (.error e, s)
          | (.ok b, s) =>
            if b.containsPoint p.toVec then (.ok (pnpWinding s.verts p.toVec), s)
            else (.ok false, s) := by
  unfold containsPoint
  simp only
  rw [if_neg h3]
  rfl

theorem containsPointC_radial (eps : K) (s : Polygon K) (p : PyPoint K) (h3 : s.verts.length ≠ 3) :
    s.containsPointC eps p = tick 1 (match radialOf s p with
    | .error e => ret (.error e, s)
    | .ok (some b) => ret (.ok b, s)
    | .ok none =>
      match s.yPolylines with
      | some pls => andThen (pnpYMonotoneC pls p.toVec) fun b => ret (b, s)
      | none =>
        if s.verts.length = 4 then andThen (pnpWindingC s.verts p.toVec) fun b => ret (.ok b, s)
        else andThen s.boundingBoxC fun r => match r with
          | (.error e, s) => ret (.error e, s)
          | (.ok b, s) =>
            if b.containsPoint p.toVec then andThen (pnpWindingC s.verts p.toVec) fun b => ret (.ok b, s)
            else ret (.ok false, s)) := by
  unfold containsPointC
  simp only
  rw [if_neg h3]
  rfl

theorem containsPointC_val (eps : K) (s : Polygon K) (p : PyPoint K) :
    (s.containsPointC eps p).val = s.containsPoint eps p := by
  by_cases h3 : s.verts.length = 3
  · unfold containsPointC containsPoint
    simp only
    rw [if_pos h3, if_pos h3]
    exact pnpTriangleC_val eps s p
  · rw [containsPointC_radial eps s p h3, containsPoint_radial eps s p h3, tick_val]
    rcases radialOf s p with e | _ | b
    · rfl
    · simp only
      cases s.yPolylines with
      | some pls => simp only [andThen_val, ret_val, pnpYMonotoneC_val]
      | none =>
        simp only
        split_ifs
        · simp only [andThen_val, ret_val, pnpWindingC_val]
        · simp only [andThen_val, boundingBoxC_val]
          rcases s.boundingBox with ⟨e | b, s'⟩
          · rfl
          · simp only
            split_ifs
            · simp only [andThen_val, ret_val, pnpWindingC_val]
            · rfl
    · rfl

end Contains

section Classify
variable [Add K] [Sub K] [Mul K] [Zero K] [One K] [BEq K] [LT K] [LE K] [DecidableLT K] [DecidableLE K]

theorem classifyLoopC_val (es : List (Vec2 K)) : ∀ (ld : Vec2 K) (lr : Int) (dc : Nat) (sg : Int) (n : Nat),
    (classifyLoopC es ld lr dc sg n).val = classifyLoop (es.filter Vec2.truthy) ld lr dc sg n := by
  induction es with
  | nil => intro ld lr dc sg n; rfl
  | cons e es ih =>
    intro ld lr dc sg n
    simp only [classifyLoopC, tick_val]
    by_cases he : e.truthy = true
    · simp only [he, if_true, List.filter_cons_of_pos he, classifyLoop]
      simp only [apply_ite Counted.val, ih, ret_val]
    · simp only [he, Bool.false_eq_true, if_false, ih]
      rw [List.filter_cons_of_neg he]

theorem classifyLoopC_steps (es : List (Vec2 K)) : ∀ (ld : Vec2 K) (lr : Int) (dc : Nat) (sg : Int) (n : Nat),
    (classifyLoopC es ld lr dc sg n).steps ≤ es.length := by
  induction es with
  | nil => intro ld lr dc sg n; simp [classifyLoopC]
  | cons e es ih =>
    intro ld lr dc sg n
    simp only [classifyLoopC, tick_steps, List.length_cons, Nat.add_le_add_iff_right]
    split_ifs <;> first | exact ih _ _ _ _ _ | simp

theorem classifyC_val (s : Polygon K) : s.classifyC.val = s.classify := by
  unfold classifyC classify classifyRun splitYPolylinesC
  simp only [andThen_val, classifyLoopC_val]
  split_ifs <;> rfl

theorem isConvexC_val (s : Polygon K) : s.isConvexC.val = s.isConvex := by
  unfold isConvexC isConvex
  cases s.convex with
  | some b => rfl
  | none => simp only [andThen_val, ret_val, classifyC_val]

theorem upward_length (pl : List (K × K)) : (upward pl).length = pl.length := by
  unfold upward
  split
  · split_ifs <;> simp
  · rfl

/-- The two polylines have at most `n + 2` entries between them, and at most `n + 1` each. -/
theorem splitYPolylines_length (vs : List (Vec2 K)) :
    (splitYPolylines vs).1.length + (splitYPolylines vs).2.length ≤ vs.length + 2 ∧
    (splitYPolylines vs).1.length ≤ vs.length + 1 ∧ (splitYPolylines vs).2.length ≤ vs.length + 1 := by
  unfold splitYPolylines
  simp only
  split_ifs <;> simp only [upward_length, List.length_append, List.length_drop, List.length_take, List.length_map] <;> omega

theorem classifyC_steps (s : Polygon K) : s.classifyC.steps ≤ 3 * s.verts.length + 2 := by
  unfold classifyC
  have h1 := classifyLoopC_steps (edgeVectors s.verts) (nth s.verts (-1) - nth s.verts (-2))
    (lexDir (nth s.verts (-1) - nth s.verts (-2))) 0 0 0
  have h2 : (edgeVectors s.verts).length = s.verts.length := by simp [edgeVectors]
  have h3 := (splitYPolylines_length s.verts).1
  simp only [andThen_steps]
  rw [apply_ite Counted.steps]
  simp only [splitYPolylinesC, andThen_steps, tick_steps, ret_steps]
  generalize (classifyLoopC (edgeVectors s.verts) (nth s.verts (-1) - nth s.verts (-2))
    (lexDir (nth s.verts (-1) - nth s.verts (-2))) 0 0 0).steps = a at *
  split_ifs <;> omega

theorem isConvexC_steps (s : Polygon K) :
    s.isConvexC.steps ≤ if s.convex.isSome then 0 else 3 * s.verts.length + 2 := by
  unfold isConvexC
  cases s.convex with
  | some b => simp
  | none => simpa using classifyC_steps s

theorem meetsOpenC_val (l : Nat) (p : SweepPt K) (os : List (SweepPt K)) : (meetsOpenC l p os).val = meetsOpen l p os := by
  induction os with
  | nil => rfl
  | cons o os ih =>
    simp only [meetsOpenC, tick_val, meetsOpen, List.any_cons] at ih ⊢
    split_ifs with h
    · simp only [ret_val, h, Bool.true_or]
    · rw [ih]; rw [Bool.not_eq_true] at h; simp only [h, Bool.false_or]

theorem meetsOpenC_steps (l : Nat) (p : SweepPt K) (os : List (SweepPt K)) : (meetsOpenC l p os).steps ≤ os.length := by
  induction os with
  | nil => simp [meetsOpenC]
  | cons o os ih =>
    simp only [meetsOpenC, tick_steps, List.length_cons]
    split_ifs
    · simp
    · omega

theorem sweepLoopC_val (l : Nat) (ps : List (SweepPt K)) : ∀ os : List (SweepPt K),
    (sweepLoopC l ps os).val = sweepLoop l ps os := by
  induction ps with
  | nil => intro os; rfl
  | cons p ps ih =>
    intro os
    simp only [sweepLoopC, sweepLoop, tick_val]
    split_ifs with h1 h2
    · exact ih _
    · simp only [andThen_val, meetsOpenC_val, h2, if_true, ret_val]
    · simp only [andThen_val, meetsOpenC_val, h2, Bool.false_eq_true, if_false, ih]

/-- The open segments have different numbers, all below `n`. -/
theorem sweepLoopC_steps (n l : Nat) (ps : List (SweepPt K)) : ∀ os : List (SweepPt K),
    (∀ p ∈ ps, p.index < n) → (∀ o ∈ os, o.index < n) → (os.map SweepPt.index).Nodup →
    (sweepLoopC l ps os).steps ≤ ps.length * n := by
  induction ps with
  | nil => intro os _ _ _; simp [sweepLoopC]
  | cons p ps ih =>
    intro os hp ho hn
    have hp0 : p.index < n := hp p (by simp)
    have hps : ∀ q ∈ ps, q.index < n := fun q hq => hp q (by simp [hq])
    simp only [sweepLoopC, tick_steps, List.length_cons, Nat.add_mul, Nat.one_mul]
    split_ifs with h1
    · have := ih (os.filter fun o => o.index != p.index) hps (fun o h => ho o (List.mem_of_mem_filter h))
        (hn.sublist (List.Sublist.map _ List.filter_sublist))
      omega
    · have hnew : p.index ∉ os.map SweepPt.index := by
        intro hm
        obtain ⟨o, ho1, ho2⟩ := List.mem_map.mp hm
        exact h1 (List.any_eq_true.mpr ⟨o, ho1, by simp [ho2]⟩)
      have hnd : ((os ++ [p]).map SweepPt.index).Nodup := by
        rw [List.map_append, List.map_singleton]
        exact List.nodup_append.mpr ⟨hn, by simp, by
          intro a ha b hb
          simp only [List.mem_singleton] at hb
          rw [hb]; exact fun e => hnew (e ▸ ha)⟩
      have hlt : ∀ o ∈ os ++ [p], o.index < n := by
        intro o h
        rcases List.mem_append.mp h with h | h
        · exact ho o h
        · rw [List.mem_singleton.mp h]; exact hp0
      have hlen : os.length + 1 ≤ n := by
        have hs : ((os ++ [p]).map SweepPt.index) ⊆ List.range n := by
          intro i hi
          obtain ⟨o, h, e⟩ := List.mem_map.mp hi
          rw [← e]; exact List.mem_range.mpr (hlt o h)
        have := (List.subperm_of_subset hnd hs).length_le
        simpa using this
      have hm := meetsOpenC_steps l p os
      simp only [andThen_steps]
      split_ifs
      · simp only [ret_steps]; omega
      · have := ih (os ++ [p]) hps hlt hnd
        omega

theorem sweepPoints_perm (vs : List (Vec2 K)) : (sweepPoints vs).length = 2 * vs.length ∧
    ∀ p ∈ sweepPoints vs, p.index < vs.length := by
  have hp : (sweepPoints vs).Perm _ := pySorted_perm _ _
  constructor
  · rw [hp.length_eq]; simp; omega
  · intro p h
    have h := hp.mem_iff.mp h
    simp only [List.mem_append, List.mem_map, List.mem_range] at h
    rcases h with ⟨i, hi, rfl⟩ | ⟨i, hi, rfl⟩ <;> exact hi

theorem checkSimpleC_val (vs : List (Vec2 K)) : (checkSimpleC vs).val = checkSimple vs := by
  simp only [checkSimpleC, checkSimple, tick_val, sweepLoopC_val]

theorem checkSimpleC_steps (vs : List (Vec2 K)) : (checkSimpleC vs).steps ≤
    2 * vs.length * vs.length + 2 * vs.length + sortCharge (2 * vs.length) := by
  have h := sweepLoopC_steps vs.length (vs.length - 1) (sweepPoints vs) [] (sweepPoints_perm vs).2 (by simp) (by simp)
  rw [(sweepPoints_perm vs).1] at h
  simp only [checkSimpleC, tick_steps]
  omega

theorem isSimpleC_val (s : Polygon K) : s.isSimpleC.val = s.isSimple := by
  unfold isSimpleC isSimple
  cases s.simple with
  | some b => rfl
  | none =>
    simp only [andThen_val]
    cases s.convex with
    | none =>
      simp only [classifyC_val]
      cases s.classify.simple with
      | some b => rfl
      | none => simp only [andThen_val, ret_val, checkSimpleC_val]
    | some c =>
      simp only [ret_val]
      cases s.simple with
      | some b => rfl
      | none => simp only [andThen_val, ret_val, checkSimpleC_val]

end Classify

section Centroid
variable [Add K] [Sub K] [Mul K] [Div K] [Zero K] [One K] [BEq K] [LT K] [LE K] [DecidableLT K] [DecidableLE K]

theorem centroidLoopC_val (a : Vec2 K) (vs : List (Vec2 K)) : ∀ (b cen : Vec2 K) (t : K),
    (centroidLoopC a vs b cen t).val = centroidLoop a vs b cen t := by
  induction vs with
  | nil => intro b cen t; rfl
  | cons c vs ih => intro b cen t; simp only [centroidLoopC, centroidLoop, tick_val, ih]

theorem centroidLoopC_steps (a : Vec2 K) (vs : List (Vec2 K)) : ∀ (b cen : Vec2 K) (t : K),
    (centroidLoopC a vs b cen t).steps = vs.length := by
  induction vs with
  | nil => intro b cen t; rfl
  | cons c vs ih => intro b cen t; simp only [centroidLoopC, tick_steps, ih, List.length_cons]

theorem computeCentroidC_val (vs : List (Vec2 K)) : (computeCentroidC vs).val = computeCentroid vs := by
  unfold computeCentroidC computeCentroid
  cases pyGet vs 0 with
  | error e => rfl
  | ok a =>
    cases pyGet vs 1 with
    | error e => rfl
    | ok b => simp only [andThen_val, ret_val, centroidLoopC_val, bind, Except.bind]

theorem computeCentroidC_steps (vs : List (Vec2 K)) : (computeCentroidC vs).steps ≤ vs.length - 2 := by
  unfold computeCentroidC
  cases pyGet vs 0 with
  | error e => simp
  | ok a =>
    cases pyGet vs 1 with
    | error e => simp
    | ok b => simp [centroidLoopC_steps]

theorem getCentroidC_val (s : Polygon K) : s.getCentroidC.val = s.getCentroid := by
  unfold getCentroidC getCentroid
  cases s.centroid with
  | some c => rfl
  | none =>
    simp only [andThen_val, isSimpleC_val]
    split_ifs
    · simp only [andThen_val, ret_val, computeCentroidC_val]
      rcases computeCentroid s.isSimple.2.verts with e | c <;> rfl
    · rfl

end Centroid

section Tangents
variable [Add K] [Sub K] [Mul K] [Zero K] [One K] [BEq K] [LT K] [LE K] [DecidableLT K] [DecidableLE K]

theorem tangentsLoopC_val (p : Vec2 K) (vs : List (Vec2 K)) : ∀ (v0 : Vec2 K) (t : K) (l r : Vec2 K),
    (tangentsLoopC p vs v0 t l r).val = tangentsLoop p vs v0 t l r := by
  induction vs with
  | nil => intro v0 t l r; rfl
  | cons v vs ih =>
    intro v0 t l r
    simp only [tangentsLoopC, tangentsLoop, tick_val, apply_ite Counted.val, ih]

theorem tangentsLoopC_steps (p : Vec2 K) (vs : List (Vec2 K)) : ∀ (v0 : Vec2 K) (t : K) (l r : Vec2 K),
    (tangentsLoopC p vs v0 t l r).steps = vs.length := by
  induction vs with
  | nil => intro v0 t l r; rfl
  | cons v vs ih =>
    intro v0 t l r
    simp only [tangentsLoopC, tick_steps, apply_ite Counted.steps, ih, List.length_cons, ite_self]

theorem ptTangentsC_val (vs : List (Vec2 K)) (p : Vec2 K) : (ptTangentsC vs p).val = ptTangents vs p := by
  unfold ptTangentsC ptTangents
  rcases pyGet vs 0 with e | a
  · rfl
  rcases pyGet vs (-2) with e | b
  · rfl
  rcases pyGet vs (-1) with e | c
  · rfl
  simp only [andThen_val, ret_val, tangentsLoopC_val, bind, Except.bind, pure, Except.pure]

theorem ptTangentsC_steps (vs : List (Vec2 K)) (p : Vec2 K) : (ptTangentsC vs p).steps ≤ vs.length := by
  unfold ptTangentsC
  rcases pyGet vs 0 with e | a
  · simp
  rcases pyGet vs (-2) with e | b
  · simp
  rcases pyGet vs (-1) with e | c
  · simp
  simp [tangentsLoopC_steps]

theorem leftTanLoopC_val (vs : List (Vec2 K)) (p : Vec2 K) (n : Nat) : ∀ a b : Int,
    (leftTanLoopC vs p n a b).val = leftTanLoop vs p n a b := by
  induction n with
  | zero => intro a b; rfl
  | succ n ih =>
    intro a b
    simp only [leftTanLoopC, leftTanLoop, tick_val]
    rcases pyGet vs ((a + b) / 2 + 1) with e | vc1
    · rfl
    rcases pyGet vs ((a + b) / 2) with e | vc
    · rfl
    rcases pyGet vs ((a + b) / 2 - 1) with e | vcm
    · rfl
    simp only [bind, Except.bind, pure, Except.pure, apply_ite Counted.val, ret_val]
    split_ifs with h
    · rfl
    rcases pyGet vs (a + 1) with e | va1
    · rfl
    rcases pyGet vs a with e | va
    · rfl
    simp only [apply_ite Counted.val, ih]

theorem leftTanLoopC_steps (vs : List (Vec2 K)) (p : Vec2 K) (n : Nat) : ∀ a b : Int,
    (leftTanLoopC vs p n a b).steps ≤ n := by
  induction n with
  | zero => intro a b; simp [leftTanLoopC]
  | succ n ih =>
    intro a b
    simp only [leftTanLoopC, tick_steps, Nat.add_le_add_iff_right]
    split
    · split_ifs
      · simp
      · split
        · split_ifs <;> exact ih _ _
        · simp
        · simp
    · simp
    · simp
    · simp

theorem rightTanLoopC_val (vs : List (Vec2 K)) (p : Vec2 K) (n : Nat) : ∀ a b : Int,
    (rightTanLoopC vs p n a b).val = rightTanLoop vs p n a b := by
  induction n with
  | zero => intro a b; rfl
  | succ n ih =>
    intro a b
    simp only [rightTanLoopC, rightTanLoop, tick_val]
    rcases pyGet vs ((a + b) / 2 + 1) with e | vc1
    · rfl
    rcases pyGet vs ((a + b) / 2) with e | vc
    · rfl
    rcases pyGet vs ((a + b) / 2 - 1) with e | vcm
    · rfl
    simp only [bind, Except.bind, pure, Except.pure, apply_ite Counted.val, ret_val]
    split_ifs with h
    · rfl
    rcases pyGet vs (a + 1) with e | va1
    · rfl
    rcases pyGet vs a with e | va
    · rfl
    simp only [apply_ite Counted.val, ih]

theorem rightTanLoopC_steps (vs : List (Vec2 K)) (p : Vec2 K) (n : Nat) : ∀ a b : Int,
    (rightTanLoopC vs p n a b).steps ≤ n := by
  induction n with
  | zero => intro a b; simp [rightTanLoopC]
  | succ n ih =>
    intro a b
    simp only [rightTanLoopC, tick_steps, Nat.add_le_add_iff_right]
    split
    · split_ifs
      · simp
      · split
        · split_ifs <;> exact ih _ _
        · simp
        · simp
    · simp
    · simp
    · simp

theorem leftTanC_val (vs : List (Vec2 K)) (p : Vec2 K) : (leftTanC vs p).val = leftTan vs p := by
  unfold leftTanC leftTan
  rcases pyGet vs 0 with e | a
  · rfl
  rcases pyGet vs (-1) with e | b
  · rfl
  rcases pyGet vs (-2) with e | c
  · rfl
  simp only [bind, Except.bind, pure, Except.pure, apply_ite Counted.val, ret_val, leftTanLoopC_val]

theorem rightTanC_val (vs : List (Vec2 K)) (p : Vec2 K) : (rightTanC vs p).val = rightTan vs p := by
  unfold rightTanC rightTan
  rcases pyGet vs 0 with e | a
  · rfl
  rcases pyGet vs (-1) with e | b
  · rfl
  rcases pyGet vs (-2) with e | c
  · rfl
  simp only [bind, Except.bind, pure, Except.pure, apply_ite Counted.val, ret_val, rightTanLoopC_val]

theorem leftTanC_steps (vs : List (Vec2 K)) (p : Vec2 K) : (leftTanC vs p).steps ≤ vs.length := by
  unfold leftTanC
  split
  · split_ifs
    · simp
    · exact leftTanLoopC_steps _ _ _ _ _
  all_goals simp

theorem rightTanC_steps (vs : List (Vec2 K)) (p : Vec2 K) : (rightTanC vs p).steps ≤ vs.length := by
  unfold rightTanC
  split
  · split_ifs
    · simp
    · exact rightTanLoopC_steps _ _ _ _ _
  all_goals simp

theorem tangentsToPointC_val (s : Polygon K) (p : Vec2 K) : (s.tangentsToPointC p).val = s.tangentsToPoint p := by
  unfold tangentsToPointC tangentsToPoint
  split_ifs with h
  · simp only [andThen_val, isConvexC_val]
    split_ifs
    · simp only [andThen_val, leftTanC_val]
      rcases leftTan s.isConvex.2.verts p with e | l
      · rfl
      simp only [bind, Except.bind]
      rcases pyGet s.isConvex.2.verts l with e | lv
      · rfl
      simp only [andThen_val, ret_val, rightTanC_val]
    · simp only [andThen_val, ret_val, ptTangentsC_val]
  · simp only [andThen_val, ret_val, ptTangentsC_val]

end Tangents
end Polygon

namespace Hull
variable [Add K] [Sub K] [Mul K] [Div K] [Neg K] [Zero K] [One K] [BEq K] [LT K] [LE K]
  [DecidableLT K] [DecidableLE K]

theorem popStackC_val (p : Vec2 K) (st : List (Vec2 K)) : (popStackC p st).val = popStack p st := by
  induction st with
  | nil => rfl
  | cons v1 st ih =>
    cases st with
    | nil => rfl
    | cons v0 rest =>
      simp only [popStackC, popStack]
      split_ifs
      · simpa using ih
      · rfl

/-- What is popped is gone. -/
theorem popStackC_steps (p : Vec2 K) (st : List (Vec2 K)) : (popStackC p st).steps + (popStack p st).length = st.length := by
  induction st with
  | nil => rfl
  | cons v1 st ih =>
    cases st with
    | nil => rfl
    | cons v0 rest =>
      simp only [popStackC, popStack]
      split_ifs
      · simp only [tick_steps, List.length_cons] at ih ⊢; omega
      · simp

theorem scanC_val (ps : List (Vec2 K)) : ∀ st : List (Vec2 K),
    (scanC ps st).val = ps.foldl (fun st p => p :: popStack p st) st := by
  induction ps with
  | nil => intro st; rfl
  | cons p ps ih => intro st; simp only [scanC, tick_val, andThen_val, popStackC_val, ih, List.foldl_cons]

/-- A point is pushed once and popped at most once. -/
theorem scanC_steps (ps : List (Vec2 K)) : ∀ st : List (Vec2 K), (scanC ps st).steps ≤ 2 * ps.length + st.length := by
  induction ps with
  | nil => intro st; simp [scanC]
  | cons p ps ih =>
    intro st
    have h1 := popStackC_steps p st
    have h2 := ih (p :: popStack p st)
    simp only [scanC, tick_steps, andThen_steps, popStackC_val, List.length_cons] at h2 ⊢
    omega

theorem sortPointsC_val (pts : List (Vec2 K)) (p0 p1 : Vec2 K) : (sortPointsC pts p0 p1).val = sortPoints pts p0 p1 := by
  simp only [sortPointsC, sortPoints, tick_val, andThen_val, ret_val, scanC_val]

theorem sortPointsC_steps (pts : List (Vec2 K)) (p0 p1 : Vec2 K) :
    (sortPointsC pts p0 p1).steps ≤ sortCharge pts.length + 2 * pts.length + 3 := by
  have h := scanC_steps (pySorted (fun a b => decide (lineOrder p0 p1 a < lineOrder p0 p1 b)) pts ++ [p1]) [p0]
  have hl := (pySorted_perm (fun a b => decide (lineOrder p0 p1 a < lineOrder p0 p1 b)) pts).length_eq
  simp only [List.length_append, hl, List.length_singleton] at h
  simp only [sortPointsC, tick_steps, andThen_steps, ret_steps]
  omega

theorem partitionPointsC_val (pts : List (Vec2 K)) (p0 p1 : Vec2 K) :
    (partitionPointsC pts p0 p1).val = partitionPoints pts p0 p1 := by
  induction hn : pts.length using Nat.strong_induction_on generalizing pts p0 p1 with
  | _ n ih =>
    subst hn
    unfold partitionPointsC partitionPoints
    rw [tick_val]
    cases (pts.foldl (furthestStep p0 (p1.x - p0.x) (p1.y - p0.y)) (-1, none)).2 with
    | none => rfl
    | some q =>
      simp only [andThen_val]
      have side : ∀ (l : List (Vec2 K)) (a b x : Vec2 K) (m : Nat) (_ : l.length ≤ m * 4 → 1 < l.length → l.length < pts.length),
          (if l.length ≤ 1 then tick 1 (ret (.ok (x :: l)))
            else if _h : l.length ≤ m * 4 ∧ 1 < l.length then partitionPointsC l a b
            else andThen (sortPointsC l a b) fun h => ret (.ok h) : Counted (Py (List (Vec2 K)))).val =
          (if l.length ≤ 1 then .ok (x :: l)
            else if _h : l.length ≤ m * 4 ∧ 1 < l.length then partitionPoints l a b
            else .ok (sortPoints l a b)) := by
        intro l a b x m h0
        split_ifs with h1 h2
        · rfl
        · exact ih _ (h0 h2.1 h2.2) _ _ _ rfl
        · simp only [andThen_val, ret_val, sortPointsC_val]
      generalize splitPoints pts q.copy p0 p1 = lr
      rw [side lr.1 p0 q.copy p0 _ (by omega)]
      have s2 := side lr.2 q.copy p1 q.copy (pts.length - lr.1.length - lr.2.length) (by omega)
      generalize hB : (if lr.2.length ≤ 1 then tick 1 (ret (.ok (q.copy :: lr.2)))
            else if _h : lr.2.length ≤ (pts.length - lr.1.length - lr.2.length) * 4 ∧ 1 < lr.2.length then
              partitionPointsC lr.2 q.copy p1
            else andThen (sortPointsC lr.2 q.copy p1) fun h => ret (.ok h) : Counted (Py (List (Vec2 K)))) = B at s2 ⊢
      have fin : ∀ h1 : List (Vec2 K), (B.andThen fun h2 => match h2 with
          | .error e => ret (.error e)
          | .ok h2 => ret (.ok (h1 ++ h2))).val =
          if lr.2.length ≤ 1 then (do
              let h2 ← (Except.ok (q.copy :: lr.2) : Py (List (Vec2 K)))
              pure (h1 ++ h2))
            else
              if _h : lr.2.length ≤ (pts.length - lr.1.length - lr.2.length) * 4 ∧ 1 < lr.2.length then (do
                let h2 ← partitionPoints lr.2 q.copy p1
                pure (h1 ++ h2))
              else (do
                let h2 ← (Except.ok (sortPoints lr.2 q.copy p1) : Py (List (Vec2 K)))
                pure (h1 ++ h2)) := by
        intro h1
        rw [andThen_val, s2]
        split_ifs
        · rfl
        · rcases partitionPoints lr.2 q.copy p1 with e | h2 <;> rfl
        · rfl
      by_cases c1 : lr.1.length ≤ 1
      · rw [if_pos c1, if_pos c1]
        exact fin _
      · rw [if_neg c1, if_neg c1]
        by_cases c2 : lr.1.length ≤ (pts.length - lr.1.length - lr.2.length) * 4 ∧ 1 < lr.1.length
        · rw [dif_pos c2, dif_pos c2]
          rcases partitionPoints lr.1 p0 q.copy with e | h1
          · rfl
          · exact fin _
        · rw [dif_neg c2, dif_neg c2]
          exact fin _

theorem quickHullC_val (order : List (Vec2 K) → List (Vec2 K)) (pts : List (Vec2 K)) :
    (quickHullC order pts).val = quickHull order pts := by
  unfold quickHullC quickHull
  cases pts with
  | nil => rfl
  | cons p ps =>
    simp only [tick_val]
    generalize extremes p (p :: ps) = lr
    generalize pySet order (List.filter (fun q => decide ((lr.2.x - lr.1.x) * (q.y - lr.1.y) -
      (q.x - lr.1.x) * (lr.2.y - lr.1.y) > 0)) (p :: ps)) [lr.1, lr.2] = U
    generalize pySet order (List.filter (fun q => !decide ((lr.2.x - lr.1.x) * (q.y - lr.1.y) -
      (q.x - lr.1.x) * (lr.2.y - lr.1.y) > 0)) (p :: ps)) [lr.1, lr.2] = L
    simp only [andThen_val]
    split_ifs
    · rfl
    · simp only [ret_val, andThen_val, partitionPointsC_val]
      rcases partitionPoints L lr.2 lr.1 with e | h2 <;> rfl
    · simp only [partitionPointsC_val]
      rcases partitionPoints U lr.1 lr.2 with e | h1 <;> rfl
    · simp only [partitionPointsC_val]
      rcases partitionPoints U lr.1 lr.2 with e | h1
      · rfl
      simp only [andThen_val, partitionPointsC_val]
      rcases partitionPoints L lr.2 lr.1 with e | h2 <;> rfl

theorem convexHullC_val (order : List (Vec2 K) → List (Vec2 K)) (pts : List (Vec2 K)) :
    (convexHullC order pts).val = convexHull order pts := by
  unfold convexHullC convexHull
  simp only [andThen_val, quickHullC_val]
  rcases quickHull order pts with e | h <;> rfl

end Hull
end Planar
