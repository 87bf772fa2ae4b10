import Mathlib.Algebra.Order.Ring.Unbundled.Rat
import Mathlib.Algebra.Field.Rat
import Mathlib.Tactic.IntervalCases
import Mathlib.Tactic.NormNum
import Verif.Lemmas.ThreadsMore
import Verif.Props.Cache
/- Property C96: reads of one object by several threads in any order, and reads that are interrupted. -/
set_option linter.unusedSectionVars false
namespace Planar
open Spec

section
variable {K : Type} [Add K] [Sub K] [Mul K] [Div K] [Zero K] [One K] [BEq K] [LT K] [LE K] [DecidableLT K] [DecidableLE K]

/-- **C96** the thread of an operation, when nothing else runs, returns the operation's answer and leaves the polygon the
operation leaves: the threads are the operations. -/
theorem C96_alone (eps : K) (s : Polygon K) (op : ReadOp K) :
    ((op.thread eps).alone (Shared.of s)).1 = op.answer eps s ∧
    ((op.thread eps).alone (Shared.of s)).2.view = op.toOp.run eps s := by
  have h := solo_read eps op
  have h1 := h.ans (Shared.of s) (Shared.of_fits s)
  have h2 := h.view (Shared.of s) (Shared.of_fits s)
  rw [Shared.of_view] at h1 h2
  exact ⟨h1, h2⟩

/-- **C96** no reading thread ever waits for another: after 24 accesses it has returned, whatever the others do or have
failed to finish. -/
theorem C96_wait_free (eps : K) (s : Polygon K) (ops : List (ReadOp K)) (sched : List Nat) (i : Nat) (hi : i < ops.length)
    (hc : 24 ≤ sched.count i) : ∃ a, ((startReads eps s ops).run sched).result i = some a := by
  refine System.result_of_within sched _ i 24 ((ops[i]).thread eps) ?_ (within_op eps _) hc
  unfold startReads
  simp [hi]

/-- **C96** in every order, and whatever has been interrupted: reads never change the vertices; `bounding_box`,
`tangents_to_point` of at most 20 vertices, `contains_point` of a triangle, and `is_convex` of a convex polygon return the
answer they give on their own. -/
theorem C96_always (eps : K) (s : Polygon K) (ops : List (ReadOp K)) (sched : List Nat) :
    ((startReads eps s ops).run sched).shared.view.verts = s.verts ∧
    ∀ i op a, ops[i]? = some op → ((startReads eps s ops).run sched).result i = some a →
      (op = .boundingBox ∨ (∃ p, op = .tangents p ∧ s.verts.length ≤ 20) ∨ (∃ p, op = .contains p ∧ s.verts.length = 3) ∨
        (op = .isConvex ∧ s.convex = none ∧ s.isConvex.1 = true)) → a = op.answer eps s := by
  have hs : (startReads eps s ops).AllSafe (Loose eps) (fun i a => ∀ op, ops[i]? = some op → (match op with
      | .isConvex => Cvx s.verts ∧ s.convex ≠ some false
      | .isSimple | .centroid => False
      | .boundingBox => True
      | .contains _ => s.verts.length = 3
      | .tangents _ => s.verts.length ≤ 20) → a = op.answer eps s) (Shared.of s) := by
    refine ⟨Loose.refl _, fun i t ht => ?_⟩
    unfold startReads at ht
    simp only [List.getElem?_map, Option.map_eq_some_iff] at ht
    obtain ⟨op, hop, rfl⟩ := ht
    refine Thread.Safe.imp (fine_read_op op (Shared.of s) (Loose.refl _)) fun a ha op' hop' h => ?_
    rw [hop] at hop'
    cases hop'
    have e : (Shared.of s).obj = s := by unfold Shared.of; cases s.yPolylines <;> rfl
    rw [Shared.of_view, e] at ha
    exact ha h
  have hr := hs.run (fun _ _ _ => Loose.trans) Loose.refl sched
  refine ⟨?_, fun i op a hop ha hk => ?_⟩
  · have e : (Shared.of s).obj = s := by unfold Shared.of; cases s.yPolylines <;> rfl
    have := hr.rel.verts
    rw [e] at this
    exact this
  · refine hr.result ha op hop ?_
    rcases hk with rfl | ⟨p, rfl, h⟩ | ⟨p, rfl, h⟩ | ⟨rfl, h, h'⟩
    · trivial
    · exact h
    · exact h
    · refine ⟨?_, by rw [h]; exact fun k => by cases k⟩
      unfold Polygon.isConvex at h'
      rw [h] at h'
      unfold Cvx
      simp only [Polygon.classify] at h'
      by_cases hd : (Polygon.classifyRun s.verts).dirChanges ≤ 2
      · refine ⟨?_, hd⟩
        simp only [hd, if_true] at h'
        cases hc : (Polygon.classifyRun s.verts).convex with
        | true => rfl
        | false => rw [hc] at h'; exact h'
      · simp [hd] at h'

/-- The threads of `ops` are safe next to each other. -/
theorem reads_safe (eps : K) (s : Polygon K) (ops : List (ReadOp K)) (cen : Prop) (hcen : ReadOp.centroid ∈ ops → cen)
    (hknown : s.convex ≠ none ∨ ((∀ op ∈ ops, ¬ op.needsConvex s.verts.length) ∧ ¬ cen)) :
    (startReads eps s ops).AllSafe (Grew eps True cen) (fun i a => ∀ op, ops[i]? = some op → a = op.answer eps s ∨
      (cen ∧ (∃ p, op = .contains p) ∧ a = op.answer eps (PolyOp.centroid.run eps s))) (Shared.of s) := by
  have e : (Shared.of s).obj = s := by unfold Shared.of; cases s.yPolylines <;> rfl
  refine ⟨Grew.refl _, fun i t ht => ?_⟩
  unfold startReads at ht
  simp only [List.getElem?_map, Option.map_eq_some_iff] at ht
  obtain ⟨op, hop, rfl⟩ := ht
  have hm : op ∈ ops := List.mem_of_getElem? hop
  refine Thread.Safe.imp (ok_read (s0 := Shared.of s) op ?_ (fun k => hcen (k ▸ hm)) (Shared.of s) (Grew.refl _)) fun a ha op' hop' => ?_
  · rw [e]
    exact hknown.imp id fun k => ⟨k.1 op hm, k.2⟩
  · rw [hop] at hop'
    cases hop'
    rw [Shared.of_view] at ha
    exact ha

/-- **C96** (partial: see the violations below) when it is known whether the polygon is convex, or no thread needs to know,
every order of the accesses gives every thread the answer it gives on its own, except that `contains_point` may answer as it
does after a `centroid` that another thread is reading. -/
theorem C96_any_order_partial (eps : K) (s : Polygon K) (ops : List (ReadOp K))
    (hknown : s.convex ≠ none ∨ ∀ op ∈ ops, ¬ op.needsConvex s.verts.length) (sched : List Nat) (i : Nat) (op : ReadOp K)
    (a : ReadAns K) (hop : ops[i]? = some op) (ha : ((startReads eps s ops).run sched).result i = some a) :
    a = op.answer eps s ∨
      ((∃ p, op = .contains p) ∧ ReadOp.centroid ∈ ops ∧ a = op.answer eps (PolyOp.centroid.run eps s)) := by
  have h := reads_safe eps s ops (ReadOp.centroid ∈ ops) id (hknown.imp id fun k => ⟨k, fun hm => k _ hm trivial⟩)
  rcases (h.run (fun _ _ _ => Grew.trans) Grew.refl sched).result ha op hop with h | ⟨h1, h2, h3⟩
  · exact .inl h
  · exact .inr ⟨h2, h1, h3⟩

/-- **C96** (partial) in other words: as if some of the operations, one after another, had run before. -/
theorem C96_as_if_in_turn_partial (eps : K) (s : Polygon K) (ops : List (ReadOp K))
    (hknown : s.convex ≠ none ∨ ∀ op ∈ ops, ¬ op.needsConvex s.verts.length) (sched : List Nat) (i : Nat) (op : ReadOp K)
    (a : ReadAns K) (hop : ops[i]? = some op) (ha : ((startReads eps s ops).run sched).result i = some a) :
    ∃ before : List (ReadOp K), (∀ o ∈ before, o ∈ ops) ∧ a = op.answer eps (s.after eps (before.map ReadOp.toOp)) := by
  rcases C96_any_order_partial eps s ops hknown sched i op a hop ha with h | ⟨-, h1, h2⟩
  · exact ⟨[], by simp, h⟩
  · exact ⟨[.centroid], by simpa using h1, h2⟩

/-- **C96** (partial) after threads have been stopped anywhere: an operation on its own then gives the answer it would have
given before, except that `contains_point` may answer as it does after a `centroid` that was being read. -/
theorem C96_interrupted_partial (eps : K) (s : Polygon K) (ops : List (ReadOp K)) (op : ReadOp K)
    (hknown : s.convex ≠ none ∨ ∀ o ∈ op :: ops, ¬ o.needsConvex s.verts.length) (sched : List Nat) :
    let later := ((op.thread eps).alone ((startReads eps s ops).run sched).shared).1
    later = op.answer eps s ∨
      ((∃ p, op = .contains p) ∧ ReadOp.centroid ∈ ops ∧ later = op.answer eps (PolyOp.centroid.run eps s)) := by
  have e : (Shared.of s).obj = s := by unfold Shared.of; cases s.yPolylines <;> rfl
  have hk : s.convex ≠ none ∨ ((∀ o ∈ op :: ops, ¬ o.needsConvex s.verts.length) ∧ ¬ ReadOp.centroid ∈ op :: ops) :=
    hknown.imp id fun k => ⟨k, fun hm => k _ hm trivial⟩
  have h := reads_safe eps s ops (ReadOp.centroid ∈ op :: ops) (List.mem_cons_of_mem _)
    (hk.imp id fun k => ⟨fun o ho => k.1 o (List.mem_cons_of_mem _ ho), k.2⟩)
  have hr := (h.run (fun _ _ _ => Grew.trans) Grew.refl sched).rel
  have := Thread.Safe.alone Grew.refl _ _ (ok_read (s0 := Shared.of s) op
    (by rw [e]; exact hk.imp id fun k => ⟨k.1 op (List.mem_cons_self ..), k.2⟩) (fun k => k ▸ List.mem_cons_self ..) _ hr)
  rw [Shared.of_view] at this
  rcases this with h | ⟨h1, ⟨p, h2⟩, h3⟩
  · exact .inl h
  · refine .inr ⟨⟨p, h2⟩, ?_, h3⟩
    rcases List.mem_cons.1 h1 with h | h
    · rw [h2] at h; cases h
    · exact h

/-- **C96** (partial) a way out: once `is_convex` has been read, with nothing else running, every order of any reads gives
every thread its answer on its own, except that `contains_point` may answer as it does after a `centroid` that another
thread is reading. -/
theorem C96_after_is_convex_partial (eps : K) (s : Polygon K) (ops : List (ReadOp K)) (sched : List Nat) (i : Nat) (op : ReadOp K)
    (a : ReadAns K) (hop : ops[i]? = some op)
    (ha : ((startReads eps (PolyOp.isConvex.run eps s) ops).run sched).result i = some a) :
    a = op.answer eps (PolyOp.isConvex.run eps s) ∨ ((∃ p, op = .contains p) ∧ ReadOp.centroid ∈ ops ∧
      a = op.answer eps (s.after eps [.isConvex, .centroid])) := by
  refine C96_any_order_partial eps _ ops (.inl ?_) sched i op a hop ha
  change s.isConvex.2.convex ≠ none
  unfold Polygon.isConvex
  cases h : s.convex with
  | some b => simp [h]
  | none => exact classify_convex s

end

section
variable {K : Type} [LinearOrder K] [Add K] [Sub K] [Mul K] [Div K] [Neg K] [Zero K] [One K] [RoundedArith K]
open AffObj

/-- The object is the transform `T` and its entries are right. -/
def GoodObj (eps : K) (T : Affine K) (b : Bool) (o : AffObj K) : Prop := o.T = T ∧ o.isIdObj = b ∧ Coherent eps o

theorem good_cached {V : Type} {eps : K} {T : Affine K} {b : Bool} {R : AffObj K → AffObj K → Prop}
    (hR : R = fun o o' => GoodObj eps T b o → GoodObj eps T b o') {look : AffObj K → Option V} {store : V → AffObj K → AffObj K}
    {compute : Thread (AffObj K) V} {v : V} (hl : ∀ o, GoodObj eps T b o → ∀ w, look o = some w → w = v)
    (hs : ∀ o, GoodObj eps T b o → GoodObj eps T b (store v o))
    (hc : ∀ o, GoodObj eps T b o → compute.Safe R (fun w => w = v) o) (o : AffObj K) (ho : GoodObj eps T b o) :
    (cachedThread look store compute).Safe R (fun w => w = v) o := by
  subst hR
  intro o1 h1
  have g1 := h1 ho
  refine ⟨id, ?_⟩
  change Thread.Safe _ _ (match look o1 with
    | some v => pure v
    | none => compute.bind fun v => (Thread.write (store v)).bind fun _ => pure v) o1
  cases h : look o1 with
  | some w => exact hl o1 g1 w h
  | none =>
    refine Thread.Safe.bind (R := fun o o' => GoodObj eps T b o → GoodObj eps T b o') (fun _ => id) (fun _ _ _ h g k => g (h k)) compute
      o1 (hc o1 g1) fun w o2 h2 hw => ?_
    subst hw
    exact fun o3 h3 => ⟨hs o3, rfl⟩

/-- **C96** the properties of a transform read by several threads: each read in every order, and after every interruption,
gives the value of a fresh computation. (`hist` may have run before.) -/
theorem C96_transform (eps : K) (T : Affine K) (b : Bool) (hist : List (Event K)) (hk : ∀ e ∈ hist, Event.keepsEps e)
    (props : List AffProp) (sched : List Nat) :
    let S := (⟨(run (eps, AffObj.fresh T b) hist).2, props.map (propThread eps)⟩ : System (AffObj K) (AffVal K)).run sched
    (∀ i p a, props[i]? = some p → S.result i = some a → a = freshValue eps T b p) ∧
    ∀ p, (S.shared.read eps p).1 = freshValue eps T b p := by
  intro S
  obtain ⟨R, hR⟩ : ∃ R : AffObj K → AffObj K → Prop, R = fun o o' => GoodObj eps T b o → GoodObj eps T b o' := ⟨_, rfl⟩
  have g0 : GoodObj eps T b (run (eps, AffObj.fresh T b) hist).2 :=
    ⟨(run_T hist _).1, (run_T hist _).2, (coherent_run hist (eps, AffObj.fresh T b) hk (coherent_fresh eps T b)).2⟩
  have store : ∀ (p : AffProp) (o o' : AffObj K), GoodObj eps T b o → o'.T = o.T → o'.isIdObj = o.isIdObj →
      cachedVal o' p = some (freshValue eps T b p) → (∀ q, q ≠ p → cachedVal o' q = cachedVal o q) → GoodObj eps T b o' := by
    intro p o o' g h1 h2 h3 h4
    refine ⟨h1.trans g.1, h2.trans g.2.1, fun q v hv => ?_⟩
    rw [h1, h2, g.1, g.2.1]
    by_cases hq : q = p
    · subst hq; rw [h3] at hv; exact (Option.some.inj hv).symm
    · rw [h4 q hq] at hv
      have := g.2.2 q v hv
      rwa [g.1, g.2.1] at this
  have conf : ∀ o, GoodObj eps T b o → (conformalThread eps).Safe R (fun w => w = T.isConformal eps) o := by
    refine good_cached hR (fun o g w hw => ?_) (fun o g => ?_) fun o g => ?_
    · have := g.2.2 .isConformal (.flag w) (by simp [cachedVal, hw])
      rw [g.1] at this
      exact AffVal.flag.inj this
    · exact store .isConformal o _ g rfl rfl rfl (fun q hq => by cases q <;> first | rfl | exact absurd rfl hq)
    · subst hR
      exact fun o' h' => ⟨id, by simp only [Thread.Safe]; rw [(h' g).1]⟩
  have det : ∀ o, GoodObj eps T b o → (detThread (K := K)).Safe R (fun w => w = T.determinant) o := by
    refine good_cached hR (fun o g w hw => ?_) (fun o g => ?_) fun o g => ?_
    · have := g.2.2 .determinant (.num w) (by simp [cachedVal, hw])
      rw [g.1] at this
      exact AffVal.num.inj this
    · exact store .determinant o _ g rfl rfl rfl (fun q hq => by cases q <;> first | rfl | exact absurd rfl hq)
    · subst hR
      exact fun o' h' => ⟨id, by simp only [Thread.Safe]; rw [(h' g).1]⟩
  have hrefl : ∀ o, R o o := by subst hR; exact fun _ => id
  have htr : ∀ o o' o'', R o o' → R o' o'' → R o o'' := by subst hR; exact fun _ _ _ h g k => g (h k)
  have all : ∀ p o, GoodObj eps T b o → (propThread eps p).Safe R (fun w => w = freshValue eps T b p) o := by
    intro p o g
    cases p with
    | determinant => exact Thread.Safe.bind hrefl htr _ _ (det o g) fun w _ _ hw => congrArg AffVal.num hw
    | isConformal => exact Thread.Safe.bind hrefl htr _ _ (conf o g) fun w _ _ hw => congrArg AffVal.flag hw
    | isIdentity =>
      refine Thread.Safe.bind hrefl htr _ _ (P := fun w => w = T.isIdentity eps b) ?_ fun w _ _ hw => congrArg AffVal.flag hw
      refine good_cached hR (fun o g w hw => ?_) (fun o g => ?_) (fun o g => ?_) o g
      · have := g.2.2 .isIdentity (.flag w) (by simp [cachedVal, hw])
        rw [g.1, g.2.1] at this
        exact AffVal.flag.inj this
      · exact store .isIdentity o _ g rfl rfl rfl (fun q hq => by cases q <;> first | rfl | exact absurd rfl hq)
      · subst hR
        exact fun o' h' => ⟨id, by simp only [Thread.Safe]; rw [(h' g).1, (h' g).2.1]⟩
    | isRectilinear =>
      refine Thread.Safe.bind hrefl htr _ _ (P := fun w => w = T.isRectilinear eps) ?_ fun w _ _ hw => congrArg AffVal.flag hw
      refine good_cached hR (fun o g w hw => ?_) (fun o g => ?_) (fun o g => ?_) o g
      · have := g.2.2 .isRectilinear (.flag w) (by simp [cachedVal, hw])
        rw [g.1] at this
        exact AffVal.flag.inj this
      · exact store .isRectilinear o _ g rfl rfl rfl (fun q hq => by cases q <;> first | rfl | exact absurd rfl hq)
      · subst hR
        exact fun o' h' => ⟨id, by simp only [Thread.Safe]; rw [(h' g).1]⟩
    | isOrthonormal =>
      refine Thread.Safe.bind hrefl htr _ _ (P := fun w => w = T.isOrthonormal eps) ?_ fun w _ _ hw => congrArg AffVal.flag hw
      refine good_cached hR (fun o g w hw => ?_) (fun o g => ?_) (fun o g => ?_) o g
      · have := g.2.2 .isOrthonormal (.flag w) (by simp [cachedVal, hw])
        rw [g.1] at this
        exact AffVal.flag.inj this
      · exact store .isOrthonormal o _ g rfl rfl rfl (fun q hq => by cases q <;> first | rfl | exact absurd rfl hq)
      · refine Thread.Safe.bind hrefl htr _ _ (conf o g) fun w o1 h1 hw => ?_
        subst hR hw
        exact fun o' h' => ⟨id, by simp only [Thread.Safe]; rw [(h' (h1 g)).1]; rfl⟩
    | isDegenerate =>
      refine Thread.Safe.bind hrefl htr _ _ (P := fun w => w = T.isDegenerate eps) ?_ fun w _ _ hw => congrArg AffVal.flag hw
      refine good_cached hR (fun o g w hw => ?_) (fun o g => ?_) (fun o g => ?_) o g
      · have := g.2.2 .isDegenerate (.flag w) (by simp [cachedVal, hw])
        rw [g.1] at this
        exact AffVal.flag.inj this
      · exact store .isDegenerate o _ g rfl rfl rfl (fun q hq => by cases q <;> first | rfl | exact absurd rfl hq)
      · refine Thread.Safe.bind hrefl htr _ _ (det o g) fun w o1 h1 hw => ?_
        subst hw
        rfl
  have hs : (⟨(run (eps, AffObj.fresh T b) hist).2, props.map (propThread eps)⟩ : System (AffObj K) (AffVal K)).AllSafe R
      (fun i a => ∀ p, props[i]? = some p → a = freshValue eps T b p) (run (eps, AffObj.fresh T b) hist).2 := by
    refine ⟨hrefl _, fun i t ht => ?_⟩
    simp only [List.getElem?_map, Option.map_eq_some_iff] at ht
    obtain ⟨p, hp, rfl⟩ := ht
    refine (all p _ g0).imp fun a ha q hq => ?_
    rw [hp] at hq
    cases hq
    exact ha
  have hr := hs.run htr hrefl sched
  refine ⟨fun i p a hp ha => hr.result ha p hp, fun p => ?_⟩
  have hrel := hr.rel
  rw [hR] at hrel
  have g := hrel g0
  have := coherent_value g.2.2 p
  rwa [g.1, g.2.1] at this

end

section violated

/-- A dart: not convex. -/
private def dart : Polygon ℚ := .fromPoints [⟨0, 0⟩, ⟨4, 0⟩, ⟨1, 1⟩, ⟨0, 4⟩]
/-- A convex polygon. -/
private def rhombus : Polygon ℚ := .fromPoints [⟨0, 0⟩, ⟨3, 2⟩, ⟨0, 4⟩, ⟨-3, 2⟩]

/-- A returned flag. -/
private def isFlag (b : Bool) : Option (ReadAns ℚ) → Bool
  | some (.flag (.ok c)) => c == b
  | _ => false

private theorem of_isFlag {b : Bool} {a : Option (ReadAns ℚ)} (h : isFlag b a = true) : a = some (.flag (.ok b)) := by
  match a with
  | none => cases h
  | some (.flag (.ok c)) =>
    have : c = b := by simpa [isFlag] using h
    rw [this]
  | some (.flag (.error e)) => cases h
  | some (.point _) => cases h
  | some (.box _) => cases h
  | some (.pair _) => cases h

/-- `contains_point` of a polygon with polylines, four vertices and no centroid. -/
private theorem contains_polylines (s : Polygon ℚ) (l r : List (ℚ × ℚ)) (p : Vec2 ℚ) (h1 : s.yPolylines = some (l, r))
    (h2 : s.verts.length = 4) : (ReadOp.contains (.vec p)).answer 0 s = .flag (Polygon.pnpYMonotone (l, r) p) := by
  change ReadAns.flag (s.containsPoint 0 (.vec p)).1 = _
  rw [contains_of, h2, if_neg (by decide), if_neg (by omega)]
  unfold restOf
  rw [h1]
  rfl

/-- **C96 violated** two threads ask whether a new dart is convex; one is told that it is. -/
theorem C96_race_violated : ReadOp.isConvex.answer 0 dart = .flag (.ok false) ∧
    ((startReads 0 dart [.isConvex, .isConvex]).run [0, 0, 1, 1]).result 1 = some (.flag (.ok true)) :=
  ⟨Option.some.inj (of_isFlag (by decide +kernel)), of_isFlag (by decide +kernel)⟩

/-- **C96 violated** `is_convex` is interrupted after two accesses (KeyboardInterrupt, say); from then on the dart is convex. -/
theorem C96_interrupted_violated : ReadOp.isConvex.answer 0 dart = .flag (.ok false) ∧
    ReadOp.isConvex.answer 0 ((startReads 0 dart [.isConvex]).run [0, 0]).shared.view = .flag (.ok true) :=
  ⟨Option.some.inj (of_isFlag (by decide +kernel)), Option.some.inj (of_isFlag (by decide +kernel))⟩

/-- **C96 violated** `is_convex` of a rhombus is interrupted after eleven accesses, before the lists it has stored are
reversed: from then on the rhombus does not contain its centre. -/
theorem C96_unreversed_violated : (ReadOp.contains (.vec ⟨0, 2⟩)).answer 0 rhombus = .flag (.ok true) ∧
    (ReadOp.contains (.vec ⟨0, 2⟩)).answer 0 ((startReads 0 rhombus [.isConvex]).run (List.replicate 11 0)).shared.view =
      .flag (.ok false) := by
  refine ⟨Option.some.inj (of_isFlag (by decide +kernel)), ?_⟩
  rw [contains_polylines _ [(4, 0), (2, -3), (0, 0)] [(0, 0), (2, 3), (4, 0)] ⟨0, 2⟩ (by decide +kernel) (by decide +kernel)]
  have hb : Polygon.bisectRight (K := ℚ) [(4, 0), (2, -3), (0, 0)] 2 = 0 := by
    unfold Polygon.bisectRight
    rw [Polygon.bisectLoop]; norm_num [Polygon.ptLt]
    rw [Polygon.bisectLoop]; norm_num [Polygon.ptLt]
    rw [Polygon.bisectLoop]; norm_num [Polygon.ptLt]
  unfold Polygon.pnpYMonotone
  simp only [hb]
  exact Option.some.inj (of_isFlag (by decide +kernel))

/-- **C96 violated** two threads ask whether a new dart is convex and both get the right answer, but the dart no longer
contains (1/2, 1/2). -/
theorem C96_permanent_violated :
    let S := (startReads 0 dart [.isConvex, .isConvex]).run
      ([1] ++ List.replicate 4 0 ++ [1] ++ List.replicate 4 0 ++ List.replicate 20 1 ++ List.replicate 25 0)
    S.result 0 = some (.flag (.ok false)) ∧ S.result 1 = some (.flag (.ok false)) ∧
    (ReadOp.contains (.vec ⟨1/2, 1/2⟩)).answer 0 dart = .flag (.ok true) ∧
    (ReadOp.contains (.vec ⟨1/2, 1/2⟩)).answer 0 S.shared.view = .flag (.ok false) := by
  refine ⟨of_isFlag (by decide +kernel), of_isFlag (by decide +kernel), Option.some.inj (of_isFlag (by decide +kernel)), ?_⟩
  rw [contains_polylines _ [(0, 0), (0, 4), (1, 1), (4, 0)] [(0, 0), (4, 0)] ⟨1/2, 1/2⟩ (by decide +kernel) (by decide +kernel)]
  have hb : Polygon.bisectRight (K := ℚ) [(0, 0), (0, 4), (1, 1), (4, 0)] (1/2) = 2 := by
    unfold Polygon.bisectRight
    rw [Polygon.bisectLoop]; norm_num [Polygon.ptLt]
    rw [Polygon.bisectLoop]; norm_num [Polygon.ptLt]
    rw [Polygon.bisectLoop]; norm_num [Polygon.ptLt]
  unfold Polygon.pnpYMonotone
  simp only [hb]
  exact Option.some.inj (of_isFlag (by decide +kernel))

/-- The hypotheses of `C96_any_order_partial` and `C96_wait_free` are met: three threads, taking turns, on a dart whose
convexity is known; all three return. -/
example : (∀ i < 3, ∃ a, ((startReads 0 { dart with convex := some false } [.centroid, .contains (.vec ⟨1, 1/2⟩), .isSimple]).run
      ((List.range 72).map (· % 3))).result i = some a) ∧ ({ dart with convex := some false } : Polygon ℚ).convex ≠ none := by
  refine ⟨fun i hi => C96_wait_free 0 _ _ _ i hi ?_, by decide⟩
  interval_cases i <;> decide

/-- The other way to meet the hypothesis: a new polygon and operations that do not need to know whether it is convex. -/
example : ∀ op ∈ [ReadOp.boundingBox, .contains (.vec ⟨1, 1/2⟩), .tangents ⟨9, 9⟩], ¬ op.needsConvex dart.verts.length := by
  intro op hop
  simp only [List.mem_cons, List.not_mem_nil, or_false] at hop
  rcases hop with rfl | rfl | rfl
  · exact id
  · exact id
  · exact fun h => absurd (show (4 : ℕ) > 20 from h) (by decide)

/-- `C96_always` for `is_convex`: a new convex polygon. -/
example : rhombus.convex = none ∧ rhombus.isConvex.1 = true := ⟨rfl, by decide +kernel⟩

end violated
end Planar
