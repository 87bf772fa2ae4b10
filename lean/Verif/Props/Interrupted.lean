import Mathlib.Algebra.Order.Ring.Unbundled.Rat
import Mathlib.Algebra.Field.Rat
import Mathlib.Tactic.NormNum
import Verif.Lemmas.Mutate
import Verif.Lemmas.TriLong
import Verif.Lemmas.ThreadsMore
import Verif.Spec.Interrupted
import Verif.Lemmas.Sort
import Verif.Props.Line
/- Property C97: assignments that are interrupted. -/
set_option linter.unusedSectionVars false
namespace Planar
open Spec Thread

section polygons
variable {K : Type} [LinearOrder K] [Add K] [Sub K] [Mul K] [Div K] [Neg K] [Zero K] [One K] [RoundedArith K]

theorem item_alone (s : Polygon K) (i : Int) (v : Vec2 K) : (Mutate.setItem i v).alone s = s.setItem i v := by
  unfold Mutate.setItem Polygon.setItem
  cases h : pySet s.verts i v.copy with
  | error e => simp only [Thread.alone, h]
  | ok vs => simp only [Thread.alone, h]; rw [Thread.alone_bind, Mutate.clear_alone]; rfl

/-- The whole loop of `*=`. -/
theorem imul_loop (s : Polygon K) (T : Affine K) {R : Polygon K → Prop} (hR : R s)
    (hturn : ∀ u : Polygon K, R u → ∀ vs : List (Vec2 K), vs.length = u.verts.length →
      R { u with verts := vs } ∧ (Mutate.clear : Thread (Polygon K) Unit).Stays R { u with verts := vs } ∧
      R ({ u with verts := vs } : Polygon K).clearCached) :
    (Mutate.imul T).Stays (fun u => R u ∧ ∃ j ≤ s.verts.length, u.verts = mixed T s.verts j) s ∧
    ((Mutate.imul T).alone s).2.verts = s.verts.map T.apply ∧
    ∃ u : Polygon K, R u ∧ ((Mutate.imul T).alone s).2 = u.clearCached := by
  have hfin : ∀ (u : Polygon K) (j : Nat), R u → j ≤ s.verts.length → u.verts = mixed T s.verts j →
      (Mutate.clear : Thread (Polygon K) Unit).Stays (fun u => R u ∧ ∃ j ≤ s.verts.length, u.verts = mixed T s.verts j) u := by
    intro u j hu hj hv
    have h1 := (hturn u hu u.verts rfl).2.1
    have h2 := Mutate.clear_verts u
    have both : ∀ (t : Thread (Polygon K) Unit) (w : Polygon K), t.Stays R w → t.Stays (fun w => w.verts = u.verts) w →
        t.Stays (fun u => R u ∧ ∃ j ≤ s.verts.length, u.verts = mixed T s.verts j) w := by
      intro t
      induction t with
      | done a => exact fun w h1 h2 => ⟨h1, j, hj, h2.trans hv⟩
      | act w n ih => exact fun w' h1 h2 => ⟨⟨h1.1, j, hj, h2.1.trans hv⟩, ih w' _ h1.2 h2.2⟩
    exact both _ _ h1 h2
  have hm0 : s.verts = mixed T s.verts 0 := by simp [mixed]
  unfold Mutate.imul
  by_cases hT : (T != Affine.identity) = true
  · simp only [hT, if_true]
    have hl := Mutate.each_stays T s hturn s.verts.length 0 (by omega) s hR hm0
    have hall : mixed T s.verts s.verts.length = s.verts.map T.apply := by simp [mixed]
    refine ⟨stays_read (Thread.Stays.bind _ _ hl.1 (hfin _ s.verts.length hl.2.1 le_rfl hl.2.2)), ?_, _, hl.2.1, ?_⟩
    · change ((((Thread.each (Mutate.imulTurn T) 0 s.verts.length).bind fun _ => Mutate.clear).alone s).2).verts = _
      rw [Thread.alone_bind, Mutate.clear_alone]
      exact hl.2.2.trans hall
    · change ((((Thread.each (Mutate.imulTurn T) 0 s.verts.length).bind fun _ => Mutate.clear).alone s).2) = _
      rw [Thread.alone_bind, Mutate.clear_alone]
  · have hid : T = Affine.identity := by simpa using hT
    simp only [hT]
    refine ⟨stays_read (hfin s 0 hR (Nat.zero_le _) hm0), ?_, s, hR, ?_⟩
    · change ((Mutate.clear.alone s).2).verts = _
      rw [Mutate.clear_alone, hid, Polygon.map_apply_identity]; rfl
    · change (Mutate.clear.alone s).2 = _
      rw [Mutate.clear_alone]

/-- Caches between those of `s` and empty ones. -/
theorem imul_cb (s : Polygon K) (T : Affine K) :
    (Mutate.imul T).Stays (fun u => Mutate.CB s u ∧ ∃ j ≤ s.verts.length, u.verts = mixed T s.verts j) s ∧
    ((Mutate.imul T).alone s).2.verts = s.verts.map T.apply ∧
    ∃ u : Polygon K, Mutate.CB s u ∧ ((Mutate.imul T).alone s).2 = u.clearCached := imul_loop s T (R := Mutate.CB s) (Mutate.CB.refl s) fun u hu vs hl =>
  ⟨hu.verts vs hl, Mutate.clear_cb _ (hu.verts vs hl), (hu.verts vs hl).clearCached⟩

theorem imul_alone (s : Polygon K) (T : Affine K) : (Mutate.imul T).alone s = ((), s.imul T) := by
  obtain ⟨-, h2, u, h3, h4⟩ := imul_cb s T
  refine Prod.ext rfl ?_
  rw [Polygon.imul_eq_cleared]
  have hv : u.verts = s.verts.map T.apply := by rw [← h2, h4]; rfl
  change ((Mutate.imul T).alone s).2 = _
  rw [h4]
  have hl : u.verts.length = s.verts.length := h3.1
  unfold Polygon.clearCached
  rw [hv]
  by_cases h : 3 < s.verts.length
  · have ht : u.triTest = s.triTest := by
      rcases h3.2.triTest with e | e
      · exact e
      · rw [e]; simp [Polygon.clearCached, Polygon.cleared, h]
    simp only [h, if_true, ht]
  · simp only [h, if_false]
    simp only [Polygon.cleared, List.length_map]
    have : ¬ s.verts.length > 3 := h
    simp [this]

/-- **C97** the threads are the operations: run to the end they return what the operation returns and leave what it leaves. -/
theorem C97_alone_polygon (s : Polygon K) :
    (∀ i v, (Mutate.setItem i v).alone s = s.setItem i v) ∧ (∀ T, (Mutate.imul T).alone s = ((), s.imul T)) :=
  ⟨item_alone s, imul_alone s⟩

/-- **C97** `stopped k` is what is left by a thread that is not scheduled again. -/
theorem C97_stopped {σ α : Type} (t : Thread σ α) (s : σ) (k : Nat) :
    (System.run ⟨s, [t]⟩ (List.replicate k 0)).shared = t.stopped k s := Thread.run_stopped t s k

/-- **C97** `poly[i] = v` interrupted: nothing has happened, or the vertex has been replaced and each cached value is as
before or as after the assignment. -/
theorem C97_item (s : Polygon K) (i : Int) (v : Vec2 K) (k : Nat) :
    let u := (Mutate.setItem i v).stopped k s
    u = s ∨ (u.verts = (s.setItem i v).2.verts ∧ s.CachesBetween (s.setItem i v).2 u) := by
  intro u
  cases hp : pySet s.verts i v.copy with
  | error e =>
    refine Thread.Stays.stopped (Q := fun u => u = s ∨ _) ?_ k
    unfold Mutate.setItem
    refine ⟨.inl rfl, ?_⟩
    simp only [hp]
    exact .inl rfl
  | ok vs =>
    have hl : vs.length = s.verts.length := by
      unfold pySet at hp
      cases hk : pyIndex s.verts.length i with
      | none => rw [hk] at hp; cases hp
      | some j => rw [hk] at hp; cases hp; simp
    have hf : (s.setItem i v).2 = ({ s with verts := vs } : Polygon K).clearCached := by
      unfold Polygon.setItem; rw [hp]
    rw [hf]
    refine Thread.Stays.stopped (Q := fun u => u = s ∨ (u.verts = _ ∧ _)) ?_ k
    unfold Mutate.setItem
    refine ⟨.inl rfl, ?_⟩
    simp only [hp]
    refine Thread.Stays.imp (Q := fun u => u.verts = vs ∧ Mutate.CB ({ s with verts := vs } : Polygon K) u) ?_ ?_
    · rintro u ⟨h1, h2⟩
      obtain ⟨h1', h2', h3, h4, h5, h6, h7, h8, h9, h10, h11, h12⟩ := h2.2
      exact .inr ⟨h1, h1', h2', h3, h4, h5, h6, h7, h8, h9, h10, h11, h12⟩
    · have both : ∀ (t : Thread (Polygon K) (Py Unit)) (w : Polygon K), t.Stays (fun u => u.verts = vs) w →
          t.Stays (Mutate.CB ({ s with verts := vs } : Polygon K)) w →
          t.Stays (fun u => u.verts = vs ∧ Mutate.CB ({ s with verts := vs } : Polygon K) u) w := by
        intro t
        induction t with
        | done a => exact fun w h1 h2 => ⟨h1, h2⟩
        | act w n ih => exact fun w' h1 h2 => ⟨⟨h1.1, h2.1⟩, ih w' _ h1.2 h2.2⟩
      have hb : ∀ (Q : Polygon K → Prop) (w : Polygon K), (Mutate.clear : Thread (Polygon K) Unit).Stays Q w → Q (Mutate.clear.alone w).2 →
          (Mutate.clear.bind fun _ => (Thread.done (Except.ok ()) : Thread (Polygon K) (Py Unit))).Stays Q w :=
        fun Q w h h' => Thread.Stays.bind _ _ h h'
      refine both _ _ (hb _ _ (Mutate.clear_verts _) ?_) (hb _ _ (Mutate.clear_cb _ (Mutate.CB.refl _)) ?_)
      · rw [Mutate.clear_alone]; rfl
      · rw [Mutate.clear_alone]; exact (Mutate.CB.refl _).clearCached

/-- **C97** `poly *= T` interrupted: the first vertices, up to some `j`, have been transformed and the others have not, and
each cached value is as before or as after the operation. -/
theorem C97_times (s : Polygon K) (T : Affine K) (k : Nat) :
    let u := (Mutate.imul T).stopped k s
    (∃ j ≤ s.verts.length, u.verts = mixed T s.verts j) ∧ s.CachesBetween (s.imul T) u := by
  intro u
  obtain ⟨h1, h2⟩ := (imul_cb s T).1.stopped k
  refine ⟨h2, ?_⟩
  obtain ⟨h1', h2', h3, h4, h5, h6, h7, h8, h9, h10, h11, h12⟩ := h1.2
  rw [Polygon.imul_eq_cleared]
  have hl : (s.verts.map T.apply).length = s.verts.length := by simp
  constructor <;> simp only [Polygon.cleared, hl]
  · exact h1'
  · exact h2'
  · exact h3
  · exact h4
  · exact h5
  · exact h6
  · exact h7
  · exact h8
  · exact h9
  · exact h10
  · exact h11
  · by_cases h : 3 < s.verts.length
    · rcases h12 with e | e
      · exact .inl e
      · refine .inl (e.trans ?_); simp [Polygon.clearCached, Polygon.cleared, h]
    · rcases h12 with e | e
      · exact .inl e
      · refine .inr (e.trans ?_); simp [Polygon.clearCached, Polygon.cleared, h]

/-- **C97** (partial: caches that are in use may survive, see the violation below) on a polygon with empty caches, an
interrupted `poly[i] = v` or `poly *= T` leaves at each point a polygon that is the same as a new one with its present
vertices. -/
theorem C97_fresh_partial (s : Polygon K) (h : s = .fromPoints s.verts) (k : Nat) :
    (∀ i v, (Mutate.setItem i v).stopped k s = .fromPoints ((Mutate.setItem i v).stopped k s).verts) ∧
    (∀ T, (Mutate.imul T).stopped k s = .fromPoints ((Mutate.imul T).stopped k s).verts) := by
  have h : Mutate.Fresh s := h
  refine ⟨fun i v => ?_, fun T => ?_⟩
  · refine Thread.Stays.stopped (Q := Mutate.Fresh) ?_ k
    unfold Mutate.setItem
    cases hp : pySet s.verts i v.copy with
    | error e => exact ⟨h, by simp only [hp]; exact h⟩
    | ok vs =>
      have hl : vs.length = s.verts.length := by
        unfold pySet at hp
        cases hk : pyIndex s.verts.length i with
        | none => rw [hk] at hp; cases hp
        | some j => rw [hk] at hp; cases hp; simp
      have hf := h.verts vs hl
      refine ⟨h, ?_⟩
      simp only [hp]
      refine Thread.Stays.bind _ _ ((Mutate.clear_fresh hf).imp fun u e => e ▸ hf) ?_
      rw [Mutate.clear_alone, hf.clearCached]
      exact hf
  · have := (imul_loop s T (R := Mutate.Fresh) h fun u hu vs hl => ⟨hu.verts vs hl,
      (Mutate.clear_fresh (hu.verts vs hl)).imp fun w e => e ▸ hu.verts vs hl, by rw [(hu.verts vs hl).clearCached]; exact hu.verts vs hl⟩).1
    exact (this.stopped k).1

theorem tri_of_between {s f u : Polygon K} (h : s.CachesBetween f u) (hl : u.verts.length = s.verts.length)
    (hs : TriLong s) (hf : TriLong f) (hlf : f.verts.length = s.verts.length) : TriLong u := by
  intro h3
  rcases h.triTest with e | e
  · rw [e]; exact hs (hl ▸ h3)
  · rw [e]; exact hf (by omega)

theorem setItem_length (s : Polygon K) (i : Int) (v : Vec2 K) : (s.setItem i v).2.verts.length = s.verts.length := by
  unfold Polygon.setItem pySet
  cases pyIndex s.verts.length i with
  | none => rfl
  | some k => simp [Polygon.clearCached, Polygon.cleared]

theorem stopped_item_tri {s : Polygon K} (hs : TriLong s) (i : Int) (v : Vec2 K) (k : Nat) :
    TriLong ((Mutate.setItem i v).stopped k s) := by
  rcases C97_item s i v k with e | ⟨h1, h2⟩
  · rw [e]; exact hs
  · exact tri_of_between h2 (by rw [h1, setItem_length]) hs (hs.setItem i v) (setItem_length s i v)

theorem stopped_times_tri {s : Polygon K} (hs : TriLong s) (T : Affine K) (k : Nat) : TriLong ((Mutate.imul T).stopped k s) := by
  obtain ⟨⟨j, -, h1⟩, h2⟩ := C97_times s T k
  exact tri_of_between h2 (by rw [h1, Mutate.mixed_length]) hs (hs.imul T) (by rw [Polygon.imul_verts]; simp)

theorem afterInterrupts_tri [PyMath K] {eps : K} {order} {s : Polygon K} (h : AfterInterrupts eps order s) : TriLong s := by
  induction h with
  | none s h => exact TriLong.reachable h
  | item s h i v k ih => exact stopped_item_tri ih i v k
  | times s h T k ih => exact stopped_times_tri ih T k
  | op s h o ih => exact ih.run eps o
  | reads s h ops sched ih =>
    have e : (Shared.of s).obj = s := by unfold Shared.of; cases s.yPolylines <;> rfl
    have hs : (startReads eps s ops).AllSafe (Loose eps) (fun _ _ => True) (Shared.of s) := by
      refine ⟨Loose.refl _, fun i t ht => ?_⟩
      unfold startReads at ht
      simp only [List.getElem?_map, Option.map_eq_some_iff] at ht
      obtain ⟨op, hop, rfl⟩ := ht
      exact Thread.Safe.imp (fine_read_op op (Shared.of s) (Loose.refl _)) fun _ _ => trivial
    have hr := (hs.run (fun _ _ _ => Loose.trans) Loose.refl sched).rel
    intro h3
    change ((startReads eps s ops).run sched).shared.obj.triTest = none
    have hv := hr.verts
    rw [e] at hv
    have h3' : 3 < s.verts.length := by
      have : 3 < ((startReads eps s ops).run sched).shared.obj.verts.length := h3
      rwa [hv] at this
    rcases hr.tri with h' | ⟨-, c, h2, -⟩
    · rw [h', e]; exact ih h3'
    · exfalso
      rw [e] at h2
      unfold Polygon.triangleClosure at h2
      have hlen : (pySorted Polygon.yxLt s.verts).length = s.verts.length := (pySorted_perm _ _).length_eq
      match hsort : pySorted Polygon.yxLt s.verts with
      | [] => rw [hsort] at h2; cases h2
      | [_] => rw [hsort] at h2; cases h2
      | [_, _] => rw [hsort] at h2; cases h2
      | [_, _, _] => rw [hsort] at hlen; simp at hlen; omega
      | _ :: _ :: _ :: _ :: _ => rw [hsort] at h2; cases h2

theorem cleared_tri (vs : List (Vec2 K)) (t : Option (TriClosure K)) (h : 3 < vs.length → t = none) :
    Polygon.cleared vs t = .fromPoints vs := by
  unfold Polygon.fromPoints Polygon.cleared
  by_cases h3 : vs.length > 3
  · simp [h h3]
  · simp [h3]

/-- **C97** whatever has been interrupted before, anywhere and how often, the next `poly[i] = v` or `poly *= T` that is not
interrupted leaves a polygon that is the same as a new one with the vertices it has then. -/
theorem C97_repair [PyMath K] (eps : K) (order) (u : Polygon K) (h : AfterInterrupts eps order u) :
    (∀ i v, (u.setItem i v).1 = .ok () → ∃ vs, pySet u.verts i v = .ok vs ∧ (u.setItem i v).2 = .fromPoints vs) ∧
    (∀ T, u.imul T = .fromPoints (u.verts.map T.apply)) := by
  have ht := afterInterrupts_tri h
  refine ⟨fun i v hok => ?_, fun T => ?_⟩
  · unfold Polygon.setItem at hok ⊢
    rw [Vec2.copy_fl] at hok ⊢
    cases hp : pySet u.verts i v with
    | error e => rw [hp] at hok; cases hok
    | ok vs =>
      refine ⟨vs, rfl, cleared_tri _ _ fun h3 => ht ?_⟩
      unfold pySet at hp
      cases hk : pyIndex u.verts.length i with
      | none => rw [hk] at hp; cases hp
      | some j => rw [hk] at hp; cases hp; simpa using h3
  · rw [Polygon.imul_eq_cleared]
    refine cleared_tri _ _ fun h3 => ?_
    have h3 : 3 < u.verts.length := by simpa using h3
    simp only [h3, if_true]
    exact ht h3

/-- **C97** an interrupted `poly[i] = v` can be done again: the outcome is that of an assignment that was not interrupted. -/
theorem C97_item_again [PyMath K] (eps : K) (order) (s : Polygon K) (h : AfterInterrupts eps order s) (i : Int) (v : Vec2 K) (k : Nat) :
    ((Mutate.setItem i v).stopped k s).setItem i v = s.setItem i v := by
  have ht := afterInterrupts_tri h
  have hu := stopped_item_tri ht i v k
  have hcase := C97_item s i v k
  generalize (Mutate.setItem i v).stopped k s = u at hu hcase
  rcases hcase with rfl | ⟨h1, h2⟩
  · rfl
  · unfold Polygon.setItem at h1 ⊢
    unfold pySet at h1 ⊢
    cases hk : pyIndex s.verts.length i with
    | none =>
      rw [hk] at h1
      have h1 : u.verts = s.verts := h1
      have h2 : s.CachesBetween s u := by
        unfold Polygon.setItem pySet at h2
        rw [hk] at h2
        exact h2
      rw [h1, hk]
      refine Prod.ext rfl ?_
      obtain ⟨a1, a2, a3, a4, a5, a6, a7, a8, a9, a10, a11, a12⟩ := h2
      cases u; cases s
      simp_all
    | some j =>
      rw [hk] at h1
      have h1 : u.verts = s.verts.set j v.copy := h1
      have hl : u.verts.length = s.verts.length := by rw [h1]; simp
      rw [hl, hk]
      refine Prod.ext rfl ?_
      simp only [h1, List.set_set]
      unfold Polygon.clearCached
      simp only
      rw [cleared_tri _ _ fun h3 => hu (by rw [hl]; simpa using h3), cleared_tri _ _ fun h3 => ht (by simpa using h3)]

/-- **C97** (partial) an interrupted `poly *= T` cannot: the vertices that had been transformed are transformed once more. -/
theorem C97_times_again_partial (s : Polygon K) (T : Affine K) (k : Nat) :
    ∃ j ≤ s.verts.length, (((Mutate.imul T).stopped k s).imul T).verts =
      ((s.verts.take j).map fun v => T.apply (T.apply v)) ++ (s.verts.drop j).map T.apply := by
  obtain ⟨⟨j, hj, h1⟩, -⟩ := C97_times s T k
  refine ⟨j, hj, ?_⟩
  rw [Polygon.imul_verts, h1, mixed, List.map_append, List.map_map]
  rfl

end polygons

section sequences
variable {K : Type} [LinearOrder K] [Add K] [Sub K] [Mul K] [Div K] [Neg K] [Zero K] [One K] [RoundedArith K]

theorem seq_each (T : Affine K) (s : Vecs K) (n i : Nat) (hn : i + n = s.length) :
    (Thread.each (Mutate.seqTurn T) i n).Stays (fun u => ∃ j ≤ s.length, u = mixed T s j) (mixed T s i) ∧
    ((Thread.each (Mutate.seqTurn T) i n).alone (mixed T s i)).2 = mixed T s s.length := by
  induction n generalizing i with
  | zero =>
    have : i = s.length := by omega
    subst this
    exact ⟨⟨_, le_rfl, rfl⟩, rfl⟩
  | succ n ih =>
    have hi : i < s.length := by omega
    have hg : (mixed T s i)[i]? = some s[i] := by rw [Mutate.mixed_get, List.getElem?_eq_getElem hi]
    have hset : (mixed T s i).set i (Vec2.mk' (s[i].x*T.a + s[i].y*T.d + T.c) (s[i].x*T.b + s[i].y*T.e + T.f)) = mixed T s (i + 1) :=
      Mutate.mixed_set T s i hi
    have IH := ih (i + 1) (by omega)
    have ha : (Mutate.seqTurn T i).alone (mixed T s i) = ((), mixed T s (i + 1)) := by
      unfold Mutate.seqTurn
      simp only [Thread.bind_eq, Thread.read, Thread.act_bind, Thread.done_bind, Thread.alone, id, hg, Thread.write, hset]
    rw [show Thread.each (Mutate.seqTurn T) i (n + 1) = (Mutate.seqTurn T i).bind fun _ => Thread.each (Mutate.seqTurn T) (i + 1) n from rfl,
      Thread.alone_bind, ha]
    refine ⟨Thread.Stays.bind _ _ ?_ (by rw [ha]; exact IH.1), IH.2⟩
    unfold Mutate.seqTurn
    refine stays_read ?_
    simp only [hg]
    exact ⟨⟨i, hi.le, rfl⟩, ⟨i + 1, hi, hset⟩⟩

theorem seq_stays (T : Affine K) (s : Vecs K) :
    (Mutate.itransform T).Stays (fun u => ∃ j ≤ s.length, u = mixed T s j) s ∧
    ((Mutate.itransform T).alone s).2 = s.map T.apply := by
  have hm0 : mixed T s 0 = s := by simp [mixed]
  have hall : mixed T s s.length = s.map T.apply := by simp [mixed]
  have h := seq_each T s s.length 0 (by omega)
  rw [hm0, hall] at h
  unfold Mutate.itransform
  by_cases hT : (T != Affine.identity) = true
  · simp only [hT, if_true]
    exact ⟨stays_read h.1, h.2⟩
  · have hid : T = Affine.identity := by simpa using hT
    simp only [hT]
    exact ⟨stays_read ⟨0, Nat.zero_le _, hm0.symm⟩, by rw [hid, Polygon.map_apply_identity]; rfl⟩

theorem replace_alone (f : Vecs K → Py (Vecs K)) (s : Vecs K) : (Mutate.replace f).alone s = Vec2Array.assign s (f s) := by
  unfold Mutate.replace
  simp only [Thread.bind_eq, Thread.pure_eq, Thread.read, Thread.act_bind, Thread.done_bind, Thread.alone, id, Vec2Array.assign]
  cases f s <;> rfl

/-- **C97** the threads of `seq *= T` (`T.itransform(seq)`), of `extend` and of the operators and methods of an array that
replace all vectors are these operations. -/
theorem C97_alone_sequence [PyMath K] (eps : K) (s : Vecs K) :
    (∀ T, (Mutate.itransform T).alone s = ((), T.itransform s)) ∧
    (∀ vs, (Mutate.extend vs).alone s = Vec2Array.extendRaw s vs) ∧
    (∀ o, (Mutate.replace fun s => Vec2Array.add s o).alone s = Vec2Array.iadd s o) ∧
    (∀ o, (Mutate.replace fun s => Vec2Array.sub s o).alone s = Vec2Array.isub s o) ∧
    (∀ o, (Mutate.replace fun s => Vec2Array.mul s o).alone s = Vec2Array.imul s o) ∧
    (∀ o, (Mutate.replace fun s => Vec2Array.truediv s o).alone s = Vec2Array.itruediv s o) ∧
    (∀ o, (Mutate.replace fun s => Vec2Array.floordiv s o).alone s = Vec2Array.ifloordiv s o) ∧
    (Mutate.replace fun s => Vec2Array.normalized eps s).alone s = Vec2Array.normalize eps s ∧
    (∀ lo hi, (Mutate.replace fun s => Vec2Array.clamped eps s lo hi).alone s = Vec2Array.clamp eps s lo hi) := by
  refine ⟨fun T => Prod.ext rfl ?_, fun vs => ?_, fun o => ?_, fun o => ?_, fun o => ?_, fun o => ?_, fun o => ?_, ?_, fun lo hi => ?_⟩
  · rw [(seq_stays T s).2]; exact (C19_itransform T s).1.symm
  · induction vs generalizing s with
    | nil => rfl
    | cons v vs ih =>
      unfold Mutate.extend Vec2Array.extendRaw
      cases h : Vec2Array.ofSeq v with
      | error e => rfl
      | ok w => exact ih (s ++ [w])
  all_goals rw [replace_alone]
  · cases o <;> simp only [Vec2Array.add, Vec2Array.iadd]
    · split <;> rfl
    · rfl
    · rfl
  · cases o <;> simp only [Vec2Array.sub, Vec2Array.isub]
    · split <;> rfl
    · rfl
    · rfl
  · cases o <;> simp only [Vec2Array.mul, Vec2Array.imul]
    · split <;> rfl
    · rfl
    · rfl
  · cases o <;> simp only [Vec2Array.truediv, Vec2Array.itruediv]
    split <;> rfl
  · cases o <;> simp only [Vec2Array.floordiv, Vec2Array.ifloordiv]
    split <;> rfl
  · unfold Vec2Array.normalized Vec2Array.normalize
    cases h : s.mapM (Vec2.normalized eps) <;> rfl
  · unfold Vec2Array.clamped Vec2Array.clamp
    split
    · rfl
    · cases h : s.mapM (fun v => v.clamped eps lo hi) <;> rfl

/-- **C97** `seq *= T` interrupted leaves a sequence of which the first points, up to some `j`, have been transformed;
`array.extend(vs)` one to which the first of the vectors have been appended; and the operators and methods that replace all
vectors (`f`) either the vectors as they were or all the new ones. -/
theorem C97_sequences (s : Vecs K) (k : Nat) :
    (∀ T, ∃ j ≤ s.length, (Mutate.itransform T).stopped k s = mixed T s j) ∧
    (∀ vs : List (Vec2 K), ∃ j ≤ vs.length, (Mutate.extend (vs.map fun v => [v.x, v.y])).stopped k s = s ++ vs.take j) ∧
    (∀ f, (Mutate.replace f).stopped k s = s ∨ f s = .ok ((Mutate.replace f).stopped k s)) := by
  refine ⟨fun T => (seq_stays T s).1.stopped k, fun vs => ?_, fun f => ?_⟩
  · have key : ∀ (vs : List (Vec2 K)) (s : Vecs K), (Mutate.extend (vs.map fun v => [v.x, v.y])).Stays
        (fun u => ∃ j ≤ vs.length, u = s ++ vs.take j) s := by
      intro vs
      induction vs with
      | nil => exact fun s => ⟨0, le_rfl, by simp⟩
      | cons v vs ih =>
        intro s
        have hv : Vec2Array.ofSeq [v.x, v.y] = .ok v := by
          change Except.ok v.copy = _
          rw [Vec2.copy_fl]
        rw [List.map_cons, Mutate.extend, hv]
        refine stays_write ⟨0, Nat.zero_le _, by simp⟩ ((ih (s ++ [v])).imp ?_)
        rintro u ⟨j, hj, rfl⟩
        exact ⟨j + 1, by simpa using hj, by simp⟩
    exact (key vs s).stopped k
  · refine Thread.Stays.stopped (Q := fun u => u = s ∨ f s = .ok u) ?_ k
    unfold Mutate.replace
    refine stays_read ?_
    change Thread.Stays _ (match f s with
      | .error e => Thread.done (.error e)
      | .ok s' => (Thread.write fun _ => s').bind fun _ => Thread.done (.ok ()) : Thread (Vecs K) (Py Unit)) s
    cases h : f s with
    | error e => exact .inl rfl
    | ok s' => exact ⟨.inl rfl, .inr rfl⟩

end sequences

section lines
variable {K : Type} [PyMath K] [Add K] [Sub K] [Mul K] [Div K] [Neg K] [Zero K] [One K] [BEq K]
  [LT K] [LE K] [DecidableLT K] [DecidableLE K]
open Mutate

/-- The result of the `direction` setter does not depend on the object. -/
theorem setDirection_result (eps : K) (l : Lin K) (v : Vec2 K) : (l.setDirection eps v).1 = ((⟨v, v⟩ : Lin K).setDirection eps v).1 := by
  unfold Lin.setDirection
  cases v.copy.normalized eps with
  | error e => rfl
  | ok d => simp only; split <;> rfl

theorem setNormal_result (eps : K) (l : Lin K) (v : Vec2 K) : (l.setNormal eps v).1 = ((⟨v, v⟩ : Lin K).setNormal eps v).1 := by
  unfold Lin.setNormal
  cases v.copy.normalized eps with
  | error e => rfl
  | ok d => simp only; split <;> rfl

variable {σ : Type} {put : (Lin K → Lin K) → σ → σ}

theorem direction_stops (hc : ∀ f g s, put f (put g s) = put (fun l => f (g l)) s) (hid : ∀ s, put (fun l => l) s = s)
    (eps : K) (v : Vec2 K) (s : σ) :
    (direction put eps v).Stays (fun u => u = s ∨ u = put (fun l => ⟨(l.setDirection eps v).2.direction, l.normal⟩) s ∨
      u = put (fun l => (l.setDirection eps v).2) s) s ∧
    (direction put eps v).alone s = (((⟨v, v⟩ : Lin K).setDirection eps v).1, put (fun l => (l.setDirection eps v).2) s) := by
  unfold direction Lin.setDirection
  cases v.copy.normalized eps with
  | error e => exact ⟨.inl rfl, by simp only [Thread.alone]; rw [hid]⟩
  | ok d =>
    simp only
    split
    · exact ⟨.inl rfl, by simp only [Thread.alone]; rw [hid]⟩
    · refine ⟨⟨.inl rfl, .inr (.inl rfl), .inr (.inr (hc _ _ _))⟩, ?_⟩
      change ((Except.ok (), put _ (put _ s)) : Py Unit × σ) = _
      rw [hc]

theorem normal_stops (hc : ∀ f g s, put f (put g s) = put (fun l => f (g l)) s) (hid : ∀ s, put (fun l => l) s = s)
    (eps : K) (v : Vec2 K) (s : σ) :
    (normal put eps v).Stays (fun u => u = s ∨ u = put (fun l => ⟨l.direction, (l.setNormal eps v).2.normal⟩) s ∨
      u = put (fun l => (l.setNormal eps v).2) s) s ∧
    (normal put eps v).alone s = (((⟨v, v⟩ : Lin K).setNormal eps v).1, put (fun l => (l.setNormal eps v).2) s) := by
  unfold normal Lin.setNormal
  cases v.copy.normalized eps with
  | error e => exact ⟨.inl rfl, by simp only [Thread.alone]; rw [hid]⟩
  | ok d =>
    simp only
    split
    · exact ⟨.inl rfl, by simp only [Thread.alone]; rw [hid]⟩
    · refine ⟨⟨.inl rfl, .inr (.inl rfl), .inr (.inr (hc _ _ _))⟩, ?_⟩
      change ((Except.ok (), put _ (put _ s)) : Py Unit × σ) = _
      rw [hc]

theorem setDirection_again (eps : K) (l : Lin K) (v : Vec2 K) :
    (⟨(l.setDirection eps v).2.direction, l.normal⟩ : Lin K).setDirection eps v = l.setDirection eps v ∧
    (l.setDirection eps v).2.setDirection eps v = l.setDirection eps v := by
  unfold Lin.setDirection
  cases v.copy.normalized eps with
  | error e => exact ⟨rfl, rfl⟩
  | ok d => simp only; split <;> exact ⟨rfl, rfl⟩

theorem setNormal_again (eps : K) (l : Lin K) (v : Vec2 K) :
    (⟨l.direction, (l.setNormal eps v).2.normal⟩ : Lin K).setNormal eps v = l.setNormal eps v ∧
    (l.setNormal eps v).2.setNormal eps v = l.setNormal eps v := by
  unfold Lin.setNormal
  cases v.copy.normalized eps with
  | error e => exact ⟨rfl, rfl⟩
  | ok d => simp only; split <;> exact ⟨rfl, rfl⟩

theorem setDirection_error {eps : K} {l : Lin K} {v : Vec2 K} {e : PyErr} (h : (l.setDirection eps v).1 = .error e) :
    (l.setDirection eps v).2 = l := by
  revert h
  unfold Lin.setDirection
  cases v.copy.normalized eps with
  | error e => exact fun _ => rfl
  | ok d =>
    simp only
    split
    · exact fun _ => rfl
    · intro h; cases h

theorem lin_between_refl (s f : Lin K) : s.Between f s := ⟨.inl rfl, .inl rfl⟩
theorem lin_between_last (s f : Lin K) : s.Between f f := ⟨.inr rfl, .inr rfl⟩
theorem lin_between_dir (s f : Lin K) : s.Between f ⟨f.direction, s.normal⟩ := ⟨.inr rfl, .inl rfl⟩
theorem lin_between_nrm (s f : Lin K) : s.Between f ⟨s.direction, f.normal⟩ := ⟨.inl rfl, .inr rfl⟩

/-- The `vector` setter. -/
theorem vector_stops (eps : K) (v : Vec2 K) (s : LineSegment K) :
    (vector eps v).Stays (fun u => s.Between (s.setVector eps v).2 u ∧ u.anchor = s.anchor ∧ u.setVector eps v = s.setVector eps v) s ∧
    (vector eps v).alone s = s.setVector eps v := by
  have key : ∀ w : Vec2 K, w = v.copy ∧ (v.copy.length != 0) = true ∨ w = ⟨1, 0⟩ ∧ ¬ (v.copy.length != 0) = true →
      (∀ u : LineSegment K, u.setVector eps v = (match (u.toLin.setDirection eps w).1 with
        | .error e => (.error e, { u with toLin := (u.toLin.setDirection eps w).2 })
        | .ok _ => (.ok (), { u with toLin := (u.toLin.setDirection eps w).2, length := v.copy.length }))) ∧
      vector eps v = (direction putSeg eps w).bind fun r => match r with
        | .error e => .done (.error e)
        | .ok _ => (Thread.write fun s => { s with length := v.copy.length }).bind fun _ => .done (.ok ()) := by
    rintro w (⟨rfl, h⟩ | ⟨rfl, h⟩)
    · refine ⟨fun u => ?_, ?_⟩
      · unfold LineSegment.setVector; simp only [h, if_true]; rfl
      · unfold vector; simp only [h, if_true]; rfl
    · refine ⟨fun u => ?_, ?_⟩
      · unfold LineSegment.setVector; simp only [h]; rfl
      · unfold vector; simp only [h]; rfl
  obtain ⟨w, hw⟩ : ∃ w : Vec2 K, w = v.copy ∧ (v.copy.length != 0) = true ∨ w = ⟨1, 0⟩ ∧ ¬ (v.copy.length != 0) = true := by
    by_cases h : (v.copy.length != 0) = true
    · exact ⟨_, .inl ⟨rfl, h⟩⟩
    · exact ⟨_, .inr ⟨rfl, h⟩⟩
  obtain ⟨h1, h2⟩ := key w hw
  rw [h2]
  obtain ⟨d1, d2⟩ := direction_stops (put := putSeg (K := K)) (fun _ _ _ => rfl) (fun _ => rfl) eps w s
  have hres := setDirection_result eps s.toLin w
  have hagain := setDirection_again eps s.toLin w
  cases hr : (s.toLin.setDirection eps w).1 with
  | error e =>
    have hs := setDirection_error hr
    have hfin : s.setVector eps v = (.error e, s) := by rw [h1, hr]; simp only [hs]
    have hput : putSeg (fun l => (l.setDirection eps w).2) s = s := by unfold putSeg; simp only [hs]
    have hput2 : putSeg (fun l => ⟨(l.setDirection eps w).2.direction, l.normal⟩) s = s := by unfold putSeg; simp only [hs]
    rw [hput, hput2] at d1
    rw [hput] at d2
    refine ⟨Thread.Stays.bind _ _ (d1.imp ?_) ?_, ?_⟩
    · rintro u (rfl | rfl | rfl) <;> exact ⟨⟨lin_between_refl _ _, .inl rfl, .inl rfl⟩, rfl, rfl⟩
    · rw [d2, ← hres, hr]
      exact ⟨⟨lin_between_refl _ _, .inl rfl, .inl rfl⟩, rfl, rfl⟩
    · rw [Thread.alone_bind, d2, ← hres, hr, hfin]
      rfl
  | ok x =>
    have hfin : s.setVector eps v = (.ok (), { s with toLin := (s.toLin.setDirection eps w).2, length := v.copy.length }) := by
      rw [h1, hr]
    have hu : ∀ u : LineSegment K, u.anchor = s.anchor → u.toLin.setDirection eps w = s.toLin.setDirection eps w →
        u.setVector eps v = s.setVector eps v := by
      intro u ha hd
      rw [h1, h1, hd, hr]
      simp only [ha]
    rw [hfin]
    refine ⟨Thread.Stays.bind _ _ (d1.imp ?_) ?_, ?_⟩
    · rintro u (h | h | h) <;> rw [h]
      · exact ⟨⟨lin_between_refl _ _, .inl rfl, .inl rfl⟩, rfl, hfin⟩
      · exact ⟨⟨lin_between_dir _ _, .inl rfl, .inl rfl⟩, rfl, (hu (putSeg (fun l => ⟨(l.setDirection eps w).2.direction, l.normal⟩) s) rfl hagain.1).trans hfin⟩
      · exact ⟨⟨lin_between_last _ _, .inl rfl, .inl rfl⟩, rfl, (hu (putSeg (fun l => (l.setDirection eps w).2) s) rfl hagain.2).trans hfin⟩
    · rw [d2, ← hres, hr]
      refine ⟨⟨⟨lin_between_last _ _, .inl rfl, .inl rfl⟩, rfl, (hu (putSeg (fun l => (l.setDirection eps w).2) s) rfl hagain.2).trans hfin⟩, ?_⟩
      exact ⟨⟨lin_between_last _ _, .inl rfl, .inr rfl⟩, rfl,
        (hu { putSeg (fun l => (l.setDirection eps w).2) s with length := v.copy.length } rfl hagain.2).trans hfin⟩
    · rw [Thread.alone_bind, d2, ← hres, hr]
      rfl

theorem line_imul_stops (eps : K) (T : Affine K) (s : Line K) :
    (lineImul eps T).Stays (fun u => s.Between (s.imul eps T).2 u) s ∧ (lineImul eps T).alone s = s.imul eps T := by
  obtain ⟨w, hw⟩ : ∃ w, w = T.apply s.points.2 - T.apply s.points.1 := ⟨_, rfl⟩
  obtain ⟨d1, d2⟩ := direction_stops (put := putLine (K := K)) (fun _ _ _ => rfl) (fun _ => rfl) eps w s
  have hres := setDirection_result eps s.toLin w
  have hI : s.imul eps T = (match (s.toLin.setDirection eps w).1 with
      | .error e => (.error e, putLine (fun _ => (s.toLin.setDirection eps w).2) s)
      | .ok _ => (.ok (), ⟨(s.toLin.setDirection eps w).2, (T.apply s.points.1).dot (s.toLin.setDirection eps w).2.normal⟩)) := by
    unfold Line.imul Line.setDirection
    simp only [← hw]
    generalize s.toLin.setDirection eps w = r
    obtain ⟨r1, r2⟩ := r
    cases r1 <;> rfl
  have hL : (lineImul eps T).alone s = ((direction putLine eps w).bind fun r => match r with
        | .error e => .done (.error e : Py Unit)
        | .ok _ => (Thread.read fun s => s.normal).bind fun n => (Thread.write fun s' => { s' with offset := (T.apply s.points.1).dot n }).bind fun _ => .done (.ok () : Py Unit)).alone s := by rw [hw]; rfl
  rw [hI, hL]
  refine ⟨stays_read (?_ : Thread.Stays _ ((direction putLine eps (T.apply s.points.2 - T.apply s.points.1)).bind fun r => match r with
        | .error e => .done (.error e : Py Unit)
        | .ok _ => (Thread.read fun s => s.normal).bind fun n => (Thread.write fun s' => { s' with offset := (T.apply s.points.1).dot n }).bind fun _ => .done (.ok () : Py Unit)) s), ?_⟩
  · rw [← hw]
    cases hr : (s.toLin.setDirection eps w).1 with
    | error e =>
      have hs := setDirection_error hr
      have hput : putLine (fun l => (l.setDirection eps w).2) s = s := by unfold putLine; simp only [hs]
      have hput2 : putLine (fun l => ⟨(l.setDirection eps w).2.direction, l.normal⟩) s = s := by unfold putLine; simp only [hs]
      rw [hput, hput2] at d1
      rw [hput] at d2
      refine Thread.Stays.bind _ _ (d1.imp ?_) ?_
      · rintro u (h | h | h) <;> rw [h] <;> exact ⟨lin_between_refl _ _, .inl rfl⟩
      · rw [d2, ← hres, hr]
        exact ⟨lin_between_refl _ _, .inl rfl⟩
    | ok x =>
      refine Thread.Stays.bind _ _ (d1.imp ?_) ?_
      · rintro u (h | h | h) <;> rw [h]
        · exact ⟨lin_between_refl _ _, .inl rfl⟩
        · exact ⟨lin_between_dir _ _, .inl rfl⟩
        · exact ⟨lin_between_last _ _, .inl rfl⟩
      · rw [d2, ← hres, hr]
        exact ⟨⟨lin_between_last _ _, .inl rfl⟩, ⟨lin_between_last _ _, .inl rfl⟩, ⟨lin_between_last _ _, .inr rfl⟩⟩
  · rw [Thread.alone_bind, d2, ← hres]
    cases hr : (s.toLin.setDirection eps w).1 <;> rfl

theorem ray_imul_stops (eps : K) (T : Affine K) (s : Ray K) :
    (rayImul eps T).Stays (fun u => s.Between (s.imul eps T).2 u) s ∧ (rayImul eps T).alone s = s.imul eps T := by
  obtain ⟨w, hw⟩ : ∃ w, w = T.apply s.points.2 - T.apply s.points.1 := ⟨_, rfl⟩
  obtain ⟨d1, d2⟩ := direction_stops (put := putRay (K := K)) (fun _ _ _ => rfl) (fun _ => rfl) eps w s
  have hres := setDirection_result eps s.toLin w
  have hI : s.imul eps T = (match (s.toLin.setDirection eps w).1 with
      | .error e => (.error e, putRay (fun _ => (s.toLin.setDirection eps w).2) s)
      | .ok _ => (.ok (), ⟨(s.toLin.setDirection eps w).2, (T.apply s.points.1).copy⟩)) := by
    unfold Ray.imul Ray.setDirection
    simp only [← hw]
    generalize s.toLin.setDirection eps w = r
    obtain ⟨r1, r2⟩ := r
    cases r1 <;> rfl
  have hL : (rayImul eps T).alone s = ((direction putRay eps w).bind fun r => match r with
        | .error e => .done (.error e : Py Unit)
        | .ok _ => (Thread.write fun s' => { s' with anchor := (T.apply s.points.1).copy }).bind fun _ => .done (.ok () : Py Unit)).alone s := by rw [hw]; rfl
  rw [hI, hL]
  refine ⟨stays_read (?_ : Thread.Stays _ ((direction putRay eps (T.apply s.points.2 - T.apply s.points.1)).bind fun r => match r with
        | .error e => .done (.error e : Py Unit)
        | .ok _ => (Thread.write fun s' => { s' with anchor := (T.apply s.points.1).copy }).bind fun _ => .done (.ok () : Py Unit)) s), ?_⟩
  · rw [← hw]
    cases hr : (s.toLin.setDirection eps w).1 with
    | error e =>
      have hs := setDirection_error hr
      have hput : putRay (fun l => (l.setDirection eps w).2) s = s := by unfold putRay; simp only [hs]
      have hput2 : putRay (fun l => ⟨(l.setDirection eps w).2.direction, l.normal⟩) s = s := by unfold putRay; simp only [hs]
      rw [hput, hput2] at d1
      rw [hput] at d2
      refine Thread.Stays.bind _ _ (d1.imp ?_) ?_
      · rintro u (h | h | h) <;> rw [h] <;> exact ⟨lin_between_refl _ _, .inl rfl⟩
      · rw [d2, ← hres, hr]
        exact ⟨lin_between_refl _ _, .inl rfl⟩
    | ok x =>
      refine Thread.Stays.bind _ _ (d1.imp ?_) ?_
      · rintro u (h | h | h) <;> rw [h]
        · exact ⟨lin_between_refl _ _, .inl rfl⟩
        · exact ⟨lin_between_dir _ _, .inl rfl⟩
        · exact ⟨lin_between_last _ _, .inl rfl⟩
      · rw [d2, ← hres, hr]
        exact ⟨⟨lin_between_last _ _, .inl rfl⟩, ⟨lin_between_last _ _, .inr rfl⟩⟩
  · rw [Thread.alone_bind, d2, ← hres]
    cases hr : (s.toLin.setDirection eps w).1 <;> rfl

theorem end_stops (eps : K) (v : Vec2 K) (s : LineSegment K) :
    (end' eps v).Stays (fun u => s.Between (s.setEnd eps v).2 u ∧ u.setEnd eps v = s.setEnd eps v) s ∧
    (end' eps v).alone s = s.setEnd eps v := by
  obtain ⟨h1, h2⟩ := vector_stops eps (v.copy - s.anchor) s
  refine ⟨stays_read (h1.imp ?_), h2⟩
  rintro u ⟨a1, a2, a3⟩
  exact ⟨a1, by unfold LineSegment.setEnd; rw [a2]; exact a3⟩

theorem segment_imul_stops (eps : K) (T : Affine K) (s : LineSegment K) :
    (segImul eps T).Stays (fun u => s.Between (s.imul eps T).2 u) s ∧ (segImul eps T).alone s = s.imul eps T := by
  obtain ⟨w, hw⟩ : ∃ w, w = T.apply s.points.2 - T.apply s.points.1 := ⟨_, rfl⟩
  obtain ⟨h1, h2⟩ := vector_stops eps w s
  have hI : s.imul eps T = (match (s.setVector eps w).1 with
      | .error e => (.error e, (s.setVector eps w).2)
      | .ok _ => (.ok (), { (s.setVector eps w).2 with anchor := T.apply s.points.1 })) := by
    unfold LineSegment.imul
    simp only [← hw]
    generalize s.setVector eps w = r
    obtain ⟨r1, r2⟩ := r
    cases r1 <;> rfl
  have hL : (segImul eps T).alone s = ((vector eps w).bind fun r => match r with
        | .error e => .done (.error e : Py Unit)
        | .ok _ => (Thread.write fun s' => { s' with anchor := T.apply s.points.1 }).bind fun _ => .done (.ok () : Py Unit)).alone s := by
    rw [hw]; rfl
  rw [hI, hL]
  refine ⟨stays_read (?_ : Thread.Stays _ ((vector eps (T.apply s.points.2 - T.apply s.points.1)).bind fun r => match r with
        | .error e => .done (.error e : Py Unit)
        | .ok _ => (Thread.write fun s' => { s' with anchor := T.apply s.points.1 }).bind fun _ => .done (.ok () : Py Unit)) s), ?_⟩
  · rw [← hw]
    cases hr : (s.setVector eps w).1 with
    | error e =>
      refine Thread.Stays.bind _ _ (h1.imp fun u hu => hu.1) ?_
      rw [h2, hr]
      exact ⟨lin_between_last _ _, .inr rfl, .inr rfl⟩
    | ok x =>
      refine Thread.Stays.bind _ _ (h1.imp fun u hu => ?_) ?_
      · exact ⟨hu.1.1, .inl hu.2.1, hu.1.2.2⟩
      · rw [h2, hr]
        have ha : (s.setVector eps w).2.anchor = s.anchor := by
          unfold LineSegment.setVector
          simp only
          split <;> rfl
        exact ⟨⟨lin_between_last _ _, .inl ha, .inr rfl⟩, ⟨lin_between_last _ _, .inr rfl, .inr rfl⟩⟩
  · rw [Thread.alone_bind, h2]
    cases hr : (s.setVector eps w).1 <;> rfl

/-- **C97** the threads of the setters of lines, rays and segments and of `*=` are these operations. -/
theorem C97_alone_lines (eps : K) :
    (∀ (s : Line K) v, (direction putLine eps v).alone s = s.setDirection eps v ∧ (normal putLine eps v).alone s = s.setNormal eps v) ∧
    (∀ (s : Ray K) v, (direction putRay eps v).alone s = s.setDirection eps v ∧ (normal putRay eps v).alone s = s.setNormal eps v) ∧
    (∀ (s : LineSegment K) v, (direction putSeg eps v).alone s = s.setDirection eps v ∧ (normal putSeg eps v).alone s = s.setNormal eps v) ∧
    (∀ (s : LineSegment K) v, (vector eps v).alone s = s.setVector eps v ∧ (end' eps v).alone s = s.setEnd eps v) ∧
    (∀ (s : Line K) T, (lineImul eps T).alone s = s.imul eps T) ∧ (∀ (s : Ray K) T, (rayImul eps T).alone s = s.imul eps T) ∧
    (∀ (s : LineSegment K) T, (segImul eps T).alone s = s.imul eps T) := by
  refine ⟨fun s v => ⟨?_, ?_⟩, fun s v => ⟨?_, ?_⟩, fun s v => ⟨?_, ?_⟩,
    fun s v => ⟨(vector_stops eps v s).2, (end_stops eps v s).2⟩, fun s T => (line_imul_stops eps T s).2,
    fun s T => (ray_imul_stops eps T s).2, fun s T => (segment_imul_stops eps T s).2⟩
  · rw [(direction_stops (fun _ _ _ => rfl) (fun _ => rfl) eps v s).2, ← setDirection_result eps s.toLin v]; rfl
  · rw [(normal_stops (fun _ _ _ => rfl) (fun _ => rfl) eps v s).2, ← setNormal_result eps s.toLin v]; rfl
  · rw [(direction_stops (fun _ _ _ => rfl) (fun _ => rfl) eps v s).2, ← setDirection_result eps s.toLin v]; rfl
  · rw [(normal_stops (fun _ _ _ => rfl) (fun _ => rfl) eps v s).2, ← setNormal_result eps s.toLin v]; rfl
  · rw [(direction_stops (fun _ _ _ => rfl) (fun _ => rfl) eps v s).2, ← setDirection_result eps s.toLin v]; rfl
  · rw [(normal_stops (fun _ _ _ => rfl) (fun _ => rfl) eps v s).2, ← setNormal_result eps s.toLin v]; rfl

/-- **C97** a setter of a line, ray or segment, or `*=`, interrupted: every attribute is as before or as after the
operation. (When the operation raises an exception of its own, it leaves the object as it was, so that nothing changes at
any point.) -/
theorem C97_lines (eps : K) (k : Nat) :
    (∀ (s : Line K) v, s.Between (s.setDirection eps v).2 ((direction putLine eps v).stopped k s) ∧
      s.Between (s.setNormal eps v).2 ((normal putLine eps v).stopped k s)) ∧
    (∀ (s : Ray K) v, s.Between (s.setDirection eps v).2 ((direction putRay eps v).stopped k s) ∧
      s.Between (s.setNormal eps v).2 ((normal putRay eps v).stopped k s)) ∧
    (∀ (s : LineSegment K) v, s.Between (s.setDirection eps v).2 ((direction putSeg eps v).stopped k s) ∧
      s.Between (s.setNormal eps v).2 ((normal putSeg eps v).stopped k s)) ∧
    (∀ (s : LineSegment K) v, s.Between (s.setVector eps v).2 ((vector eps v).stopped k s) ∧
      s.Between (s.setEnd eps v).2 ((end' eps v).stopped k s)) ∧
    (∀ (s : Line K) T, s.Between (s.imul eps T).2 ((lineImul eps T).stopped k s)) ∧
    (∀ (s : Ray K) T, s.Between (s.imul eps T).2 ((rayImul eps T).stopped k s)) ∧
    (∀ (s : LineSegment K) T, s.Between (s.imul eps T).2 ((segImul eps T).stopped k s)) := by
  refine ⟨fun s v => ⟨?_, ?_⟩, fun s v => ⟨?_, ?_⟩, fun s v => ⟨?_, ?_⟩,
    fun s v => ⟨((vector_stops eps v s).1.stopped k).1, ((end_stops eps v s).1.stopped k).1⟩,
    fun s T => (line_imul_stops eps T s).1.stopped k, fun s T => (ray_imul_stops eps T s).1.stopped k,
    fun s T => (segment_imul_stops eps T s).1.stopped k⟩
  · rcases (direction_stops (put := putLine) (fun _ _ _ => rfl) (fun _ => rfl) eps v s).1.stopped k with h | h | h <;> rw [h]
    · exact ⟨lin_between_refl _ _, .inl rfl⟩
    · exact ⟨lin_between_dir _ _, .inl rfl⟩
    · exact ⟨lin_between_last _ _, .inl rfl⟩
  · rcases (normal_stops (put := putLine) (fun _ _ _ => rfl) (fun _ => rfl) eps v s).1.stopped k with h | h | h <;> rw [h]
    · exact ⟨lin_between_refl _ _, .inl rfl⟩
    · exact ⟨lin_between_nrm _ _, .inl rfl⟩
    · exact ⟨lin_between_last _ _, .inl rfl⟩
  · rcases (direction_stops (put := putRay) (fun _ _ _ => rfl) (fun _ => rfl) eps v s).1.stopped k with h | h | h <;> rw [h]
    · exact ⟨lin_between_refl _ _, .inl rfl⟩
    · exact ⟨lin_between_dir _ _, .inl rfl⟩
    · exact ⟨lin_between_last _ _, .inl rfl⟩
  · rcases (normal_stops (put := putRay) (fun _ _ _ => rfl) (fun _ => rfl) eps v s).1.stopped k with h | h | h <;> rw [h]
    · exact ⟨lin_between_refl _ _, .inl rfl⟩
    · exact ⟨lin_between_nrm _ _, .inl rfl⟩
    · exact ⟨lin_between_last _ _, .inl rfl⟩
  · rcases (direction_stops (put := putSeg) (fun _ _ _ => rfl) (fun _ => rfl) eps v s).1.stopped k with h | h | h <;> rw [h]
    · exact ⟨lin_between_refl _ _, .inl rfl, .inl rfl⟩
    · exact ⟨lin_between_dir _ _, .inl rfl, .inl rfl⟩
    · exact ⟨lin_between_last _ _, .inl rfl, .inl rfl⟩
  · rcases (normal_stops (put := putSeg) (fun _ _ _ => rfl) (fun _ => rfl) eps v s).1.stopped k with h | h | h <;> rw [h]
    · exact ⟨lin_between_refl _ _, .inl rfl, .inl rfl⟩
    · exact ⟨lin_between_nrm _ _, .inl rfl, .inl rfl⟩
    · exact ⟨lin_between_last _ _, .inl rfl, .inl rfl⟩

/-- **C97** an interrupted setter (`direction`, `normal`, `vector`, `end`) can be called again: the outcome is that of a
call that was not interrupted. -/
theorem C97_setter_again (eps : K) (k : Nat) :
    (∀ (s : Line K) v, ((direction putLine eps v).stopped k s).setDirection eps v = s.setDirection eps v ∧
      ((normal putLine eps v).stopped k s).setNormal eps v = s.setNormal eps v) ∧
    (∀ (s : Ray K) v, ((direction putRay eps v).stopped k s).setDirection eps v = s.setDirection eps v ∧
      ((normal putRay eps v).stopped k s).setNormal eps v = s.setNormal eps v) ∧
    (∀ (s : LineSegment K) v, ((direction putSeg eps v).stopped k s).setDirection eps v = s.setDirection eps v ∧
      ((normal putSeg eps v).stopped k s).setNormal eps v = s.setNormal eps v) ∧
    (∀ (s : LineSegment K) v, ((vector eps v).stopped k s).setVector eps v = s.setVector eps v ∧
      ((end' eps v).stopped k s).setEnd eps v = s.setEnd eps v) := by
  refine ⟨fun s v => ⟨?_, ?_⟩, fun s v => ⟨?_, ?_⟩, fun s v => ⟨?_, ?_⟩,
    fun s v => ⟨((vector_stops eps v s).1.stopped k).2.2, ((end_stops eps v s).1.stopped k).2⟩⟩
  · rcases (direction_stops (put := putLine) (fun _ _ _ => rfl) (fun _ => rfl) eps v s).1.stopped k with h | h | h <;> rw [h]
    · exact congrArg (fun r : Py Unit × Lin K => (r.1, ({ s with toLin := r.2 } : Line K))) (setDirection_again eps s.toLin v).1
    · exact congrArg (fun r : Py Unit × Lin K => (r.1, ({ s with toLin := r.2 } : Line K))) (setDirection_again eps s.toLin v).2
  · rcases (normal_stops (put := putLine) (fun _ _ _ => rfl) (fun _ => rfl) eps v s).1.stopped k with h | h | h <;> rw [h]
    · exact congrArg (fun r : Py Unit × Lin K => (r.1, ({ s with toLin := r.2 } : Line K))) (setNormal_again eps s.toLin v).1
    · exact congrArg (fun r : Py Unit × Lin K => (r.1, ({ s with toLin := r.2 } : Line K))) (setNormal_again eps s.toLin v).2
  · rcases (direction_stops (put := putRay) (fun _ _ _ => rfl) (fun _ => rfl) eps v s).1.stopped k with h | h | h <;> rw [h]
    · exact congrArg (fun r : Py Unit × Lin K => (r.1, ({ s with toLin := r.2 } : Ray K))) (setDirection_again eps s.toLin v).1
    · exact congrArg (fun r : Py Unit × Lin K => (r.1, ({ s with toLin := r.2 } : Ray K))) (setDirection_again eps s.toLin v).2
  · rcases (normal_stops (put := putRay) (fun _ _ _ => rfl) (fun _ => rfl) eps v s).1.stopped k with h | h | h <;> rw [h]
    · exact congrArg (fun r : Py Unit × Lin K => (r.1, ({ s with toLin := r.2 } : Ray K))) (setNormal_again eps s.toLin v).1
    · exact congrArg (fun r : Py Unit × Lin K => (r.1, ({ s with toLin := r.2 } : Ray K))) (setNormal_again eps s.toLin v).2
  · rcases (direction_stops (put := putSeg) (fun _ _ _ => rfl) (fun _ => rfl) eps v s).1.stopped k with h | h | h <;> rw [h]
    · exact congrArg (fun r : Py Unit × Lin K => (r.1, ({ s with toLin := r.2 } : LineSegment K))) (setDirection_again eps s.toLin v).1
    · exact congrArg (fun r : Py Unit × Lin K => (r.1, ({ s with toLin := r.2 } : LineSegment K))) (setDirection_again eps s.toLin v).2
  · rcases (normal_stops (put := putSeg) (fun _ _ _ => rfl) (fun _ => rfl) eps v s).1.stopped k with h | h | h <;> rw [h]
    · exact congrArg (fun r : Py Unit × Lin K => (r.1, ({ s with toLin := r.2 } : LineSegment K))) (setNormal_again eps s.toLin v).1
    · exact congrArg (fun r : Py Unit × Lin K => (r.1, ({ s with toLin := r.2 } : LineSegment K))) (setNormal_again eps s.toLin v).2

end lines

section violated
open Mutate

private instance : DecidableEq (Vec2 ℚ) := fun a b => decidable_of_iff (a.x = b.x ∧ a.y = b.y)
  ⟨fun h => by cases a; cases b; simp_all, fun h => by subst h; exact ⟨rfl, rfl⟩⟩

/-- A square whose bounding box has been asked for. -/
private def asked : Polygon ℚ := (Polygon.fromPoints [⟨0, 0⟩, ⟨4, 0⟩, ⟨4, 4⟩, ⟨0, 4⟩]).boundingBox.2

/-- **C97 violated** `poly[2] = (9, 9)` is interrupted after the vertex has been replaced: from then on the bounding box is
that of the old vertices. -/
theorem C97_stale_violated :
    let u := (Mutate.setItem 2 ⟨9, 9⟩).stopped 1 asked
    u.verts = [⟨0, 0⟩, ⟨4, 0⟩, ⟨9, 9⟩, ⟨0, 4⟩] ∧ u.boundingBox.1.toOption.map Box.max = some ⟨4, 4⟩ ∧
    (Polygon.fromPoints u.verts).boundingBox.1.toOption.map Box.max = some ⟨9, 9⟩ := by
  refine ⟨by decide +kernel, by decide +kernel, by decide +kernel⟩

/-- **C97 violated** `poly *= T` of a triangle is interrupted after one vertex has been moved, and is done again: that
vertex has been moved twice. -/
theorem C97_twice_violated :
    let s : Polygon ℚ := .fromPoints [⟨0, 0⟩, ⟨4, 0⟩, ⟨0, 4⟩]
    let T : Affine ℚ := ⟨1, 0, 1, 0, 1, 0⟩
    (s.imul T).verts = [⟨1, 0⟩, ⟨5, 0⟩, ⟨1, 4⟩] ∧ (((Mutate.imul T).stopped 3 s).imul T).verts = [⟨2, 0⟩, ⟨5, 0⟩, ⟨1, 4⟩] := by
  intro s T
  rw [Polygon.imul_verts, Polygon.imul_verts]
  exact ⟨by decide +kernel, by decide +kernel⟩

theorem setDirection_unit (l : Lin ℝ) (w : Vec2 ℝ) (h : w.length = 1) :
    l.setDirection (1/2) w = (.ok (), ⟨w, ⟨w.y, -w.x⟩⟩) := by
  have hu : unitOf w = w := by
    unfold unitOf
    rw [h]
    cases w; simp
  rw [setDirection_long (by norm_num) (by norm_num) l (by rw [h]; norm_num), hu]

/-- The line y = -1. -/
private def low : Line ℝ := ⟨⟨⟨1, 0⟩, ⟨0, -1⟩⟩, 1⟩

/-- **C97 violated** `line.direction = (0, 1)` is interrupted between its two assignments: the normal of the line is no longer
perpendicular to its direction. -/
theorem C97_frame_violated :
    let u := (direction putLine (1/2) ⟨0, 1⟩).stopped 1 low
    u.direction = ⟨0, 1⟩ ∧ u.normal = ⟨0, -1⟩ ∧ u.direction.dot u.normal ≠ 0 := by
  have h := setDirection_unit low.toLin ⟨0, 1⟩ (unit_iff.mpr (by norm_num))
  have hn : ∃ d, (⟨0, 1⟩ : Vec2 ℝ).copy.normalized (1/2) = .ok d ∧ d.isNull (1/2) = false ∧ d = ⟨0, 1⟩ := by
    unfold Lin.setDirection at h
    cases hd : (⟨0, 1⟩ : Vec2 ℝ).copy.normalized (1/2) with
    | error e => rw [hd] at h; cases h
    | ok d =>
      rw [hd] at h
      simp only at h
      split at h
      · cases h
      · rename_i hnull
        exact ⟨d, rfl, by simpa using hnull, congrArg (fun r : Py Unit × Lin ℝ => r.2.direction) h⟩
  obtain ⟨d, h1, h2, rfl⟩ := hn
  have hu : (direction putLine (1/2) ⟨0, 1⟩).stopped 1 low = ⟨⟨⟨0, 1⟩, ⟨0, -1⟩⟩, 1⟩ := by
    unfold direction
    rw [h1]
    simp only [h2, Bool.false_eq_true, if_false]
    rfl
  intro u
  have hu : u = ⟨⟨⟨0, 1⟩, ⟨0, -1⟩⟩, 1⟩ := hu
  rw [hu]
  refine ⟨rfl, rfl, ?_⟩
  simp [Vec2.dot]

/-- The hypotheses of the theorems above are met: a square on which `poly[2] = (9, 9)` and then `is_convex` have been
interrupted. -/
example [PyMath ℚ] (order) : AfterInterrupts 0 order
    ((startReads 0 ((Mutate.setItem 2 ⟨9, 9⟩).stopped 3 asked) [.isConvex]).run [0, 0]).shared.view :=
  .reads _ (.item _ (.none _ (.op _ (.points _ (by decide)) .boundingBox)) 2 ⟨9, 9⟩ 3) _ _

example : (Polygon.fromPoints [⟨0, 0⟩, ⟨4, 0⟩, ⟨4, 4⟩, ⟨0, 4⟩] : Polygon ℚ) =
    .fromPoints (Polygon.fromPoints [⟨0, 0⟩, ⟨4, 0⟩, ⟨4, 4⟩, ⟨0, 4⟩] : Polygon ℚ).verts := rfl

end violated
end Planar
