import Mathlib.Tactic.Ring
import Verif.Model.Mutate
import Verif.Spec.Between
import Verif.Lemmas.Threads
import Verif.Lemmas.PolyState
/- Operations stopped at any point. -/
set_option linter.unusedSectionVars false
namespace Planar
open Spec

namespace Thread
variable {σ α β : Type}

/-- `Q` holds wherever the thread is stopped. -/
def Stays (Q : σ → Prop) : Thread σ α → σ → Prop
  | .done _, s => Q s
  | .act w n, s => Q s ∧ (n s).Stays Q (w s)

theorem Stays.first {Q : σ → Prop} {t : Thread σ α} {s : σ} (h : t.Stays Q s) : Q s := by
  cases t with
  | done a => exact h
  | act w n => exact h.1

theorem Stays.stopped {Q : σ → Prop} {t : Thread σ α} {s : σ} (h : t.Stays Q s) (k : Nat) : Q (t.stopped k s) := by
  induction t generalizing s k with
  | done a => exact h
  | act w n ih =>
    cases k with
    | zero => exact h.1
    | succ k => exact ih s h.2 k

theorem Stays.imp {Q R : σ → Prop} (hQR : ∀ s, Q s → R s) {t : Thread σ α} {s : σ} (h : t.Stays Q s) : t.Stays R s := by
  induction t generalizing s with
  | done a => exact hQR s h
  | act w n ih => exact ⟨hQR s h.1, ih s h.2⟩

theorem Stays.bind {Q : σ → Prop} {k : α → Thread σ β} (t : Thread σ α) (s : σ) (h : t.Stays Q s)
    (hk : (k (t.alone s).1).Stays Q (t.alone s).2) : (t.bind k).Stays Q s := by
  induction t generalizing s with
  | done a => exact hk
  | act w n ih => exact ⟨h.1, ih s (w s) h.2 hk⟩

theorem stays_read {Q : σ → Prop} {f : σ → α} {k : α → Thread σ β} {s : σ} (h : (k (f s)).Stays Q s) :
    ((Thread.read f).bind k).Stays Q s := ⟨h.first, h⟩

theorem stays_write {Q : σ → Prop} {f : σ → σ} {k : Unit → Thread σ β} {s : σ} (hs : Q s) (h : (k ()).Stays Q (f s)) :
    ((Thread.write f).bind k).Stays Q s := ⟨hs, h⟩

/-- Stopping is what a system with one thread that is not scheduled again does. -/
theorem run_stopped (t : Thread σ α) (s : σ) (k : Nat) :
    (System.run ⟨s, [t]⟩ (List.replicate k 0)).shared = t.stopped k s := by
  induction t generalizing s k with
  | done a =>
    have h : ∀ k, System.run (⟨s, [.done a]⟩ : System σ α) (List.replicate k 0) = ⟨s, [.done a]⟩ := by
      intro k
      induction k with
      | zero => rfl
      | succ k ih => exact ih
    rw [h]; rfl
  | act w n ih =>
    cases k with
    | zero => rfl
    | succ k => exact ih s (w s) k

end Thread

namespace Mutate
open Thread

section clear
variable {K : Type}

theorem clear_alone (s : Polygon K) : (clear : Thread (Polygon K) Unit).alone s = ((), s.clearCached) := by
  unfold clear
  by_cases h : s.verts.length > 3 <;>
    simp [Thread.bind_eq, Thread.read, Thread.write, Thread.alone, h, Polygon.clearCached, Polygon.cleared]

/-- The caches are as in `s` or cleared, and there are as many vertices. -/
def CB (s u : Polygon K) : Prop := u.verts.length = s.verts.length ∧ s.CachesBetween s.clearCached u

theorem CB.refl (s : Polygon K) : CB s s := ⟨rfl, by constructor <;> exact .inl rfl⟩

theorem CB.verts {s u : Polygon K} (h : CB s u) (vs : List (Vec2 K)) (hl : vs.length = u.verts.length) :
    CB s { u with verts := vs } := by
  refine ⟨hl.trans h.1, ?_⟩
  obtain ⟨h1, h2, h3, h4, h5, h6, h7, h8, h9, h10, h11, h12⟩ := h.2
  exact ⟨h1, h2, h3, h4, h5, h6, h7, h8, h9, h10, h11, h12⟩

theorem clear_stays {Q : Polygon K → Prop} (s : Polygon K) (hs : Q s)
    (hconv : ∀ u, Q u → Q { u with convex := s.clearCached.convex }) (hsimp : ∀ u, Q u → Q { u with simple := s.clearCached.simple })
    (htri : ¬ 3 < s.verts.length → ∀ u, Q u → Q { u with triTest := none })
    (hy : ∀ u, Q u → Q { u with yPolylines := none }) (hd : ∀ u, Q u → Q { u with dupeVerts := none })
    (hg : ∀ u, Q u → Q { u with degenerate := none }) (hb : ∀ u, Q u → Q { u with bbox := none })
    (hc : ∀ u, Q u → Q { u with centroid := none }) (h1 : ∀ u, Q u → Q { u with maxR := none })
    (h2 : ∀ u, Q u → Q { u with maxR2 := none }) (h3 : ∀ u, Q u → Q { u with minR := none })
    (h4 : ∀ u, Q u → Q { u with minR2 := none }) : (clear : Thread (Polygon K) Unit).Stays Q s := by
  unfold clear
  refine stays_read ?_
  have tail : ∀ u, Q u → (((.write fun s => { s with yPolylines := none }) : Thread (Polygon K) Unit).bind fun _ =>
      (Thread.write fun s => { s with dupeVerts := none }).bind fun _ =>
      (Thread.write fun s => { s with degenerate := none }).bind fun _ =>
      (Thread.write fun s => { s with bbox := none }).bind fun _ =>
      (Thread.write fun s => { s with centroid := none }).bind fun _ =>
      (Thread.write fun s => { s with maxR := none }).bind fun _ =>
      (Thread.write fun s => { s with maxR2 := none }).bind fun _ =>
      (Thread.write fun s => { s with minR := none }).bind fun _ =>
      (Thread.write fun s => { s with minR2 := none } : Thread (Polygon K) Unit)).Stays Q u := by
    intro u hu
    have e1 := hy _ hu; have e2 := hd _ e1; have e3 := hg _ e2; have e4 := hb _ e3; have e5 := hc _ e4
    have e6 := h1 _ e5; have e7 := h2 _ e6; have e8 := h3 _ e7
    exact ⟨hu, e1, e2, e3, e4, e5, e6, e7, e8, h4 _ e8⟩
  by_cases h : s.verts.length > 3
  · simp only [h, if_true]
    have hv : s.clearCached.convex = none ∧ s.clearCached.simple = none := by simp [Polygon.clearCached, Polygon.cleared, h]
    rw [hv.1] at hconv; rw [hv.2] at hsimp
    exact stays_write hs (stays_write (hconv _ hs) (tail _ (hsimp _ (hconv _ hs))))
  · simp only [h, if_false]
    have hv : s.clearCached.convex = some true ∧ s.clearCached.simple = some true := by
      simp [Polygon.clearCached, Polygon.cleared, h]
    rw [hv.1] at hconv; rw [hv.2] at hsimp
    exact stays_write hs (stays_write (hconv _ hs) (stays_write (hsimp _ (hconv _ hs)) (tail _ (htri h _ (hsimp _ (hconv _ hs))))))

theorem clear_verts (s : Polygon K) : (clear : Thread (Polygon K) Unit).Stays (fun u => u.verts = s.verts) s := by
  refine clear_stays s rfl ?_ ?_ ?_ ?_ ?_ ?_ ?_ ?_ ?_ ?_ ?_ ?_ <;> first | exact fun u h => h | exact fun _ u h => h

theorem clear_cb {s0 : Polygon K} (s : Polygon K) (h0 : CB s0 s) : (clear : Thread (Polygon K) Unit).Stays (CB s0) s := by
  have hl : s.verts.length = s0.verts.length := h0.1
  refine clear_stays s h0 ?_ ?_ ?_ ?_ ?_ ?_ ?_ ?_ ?_ ?_ ?_ ?_
  · exact fun u h => ⟨h.1, { h.2 with convex := .inr (by simp [Polygon.clearCached, Polygon.cleared, hl]) }⟩
  · exact fun u h => ⟨h.1, { h.2 with simple := .inr (by simp [Polygon.clearCached, Polygon.cleared, hl]) }⟩
  · exact fun h3 u h => ⟨h.1, { h.2 with triTest := .inr (by simp only [Polygon.clearCached, Polygon.cleared]; rw [hl] at h3; simp [h3]) }⟩
  · exact fun u h => ⟨h.1, { h.2 with yPolylines := .inr rfl }⟩
  · exact fun u h => ⟨h.1, { h.2 with dupeVerts := .inr rfl }⟩
  · exact fun u h => ⟨h.1, { h.2 with degenerate := .inr rfl }⟩
  · exact fun u h => ⟨h.1, { h.2 with bbox := .inr rfl }⟩
  · exact fun u h => ⟨h.1, { h.2 with centroid := .inr rfl }⟩
  · exact fun u h => ⟨h.1, { h.2 with maxR := .inr rfl }⟩
  · exact fun u h => ⟨h.1, { h.2 with maxR2 := .inr rfl }⟩
  · exact fun u h => ⟨h.1, { h.2 with minR := .inr rfl }⟩
  · exact fun u h => ⟨h.1, { h.2 with minR2 := .inr rfl }⟩

theorem CB.clearCached {s u : Polygon K} (h : CB s u) : CB s u.clearCached := by
  have hl := h.1
  refine ⟨hl, ?_⟩
  constructor <;> first | exact .inr rfl | skip
  · exact .inr (by simp [Polygon.clearCached, Polygon.cleared, hl])
  · exact .inr (by simp [Polygon.clearCached, Polygon.cleared, hl])
  · by_cases h3 : 3 < s.verts.length
    · rcases h.2.triTest with e | e
      · exact .inl (by simp [Polygon.clearCached, Polygon.cleared, hl, h3, e])
      · exact .inl (by simp [Polygon.clearCached, Polygon.cleared, hl, h3, e])
    · exact .inr (by simp [Polygon.clearCached, Polygon.cleared, hl, h3])

/-- All caches are empty. -/
def Fresh (u : Polygon K) : Prop := u = Polygon.fromPoints u.verts

theorem Fresh.verts {u : Polygon K} (h : Fresh u) (vs : List (Vec2 K)) (hl : vs.length = u.verts.length) :
    Fresh ({ u with verts := vs } : Polygon K) := by
  unfold Fresh at h ⊢
  rw [h]
  simp only [Polygon.fromPoints, Polygon.cleared, hl]

theorem Fresh.clearCached {u : Polygon K} (h : Fresh u) : u.clearCached = u := by
  unfold Fresh at h
  rw [h]
  simp only [Polygon.fromPoints, Polygon.clearCached, Polygon.cleared]
  by_cases h3 : u.verts.length > 3 <;> simp [h3]

theorem clear_fresh {s : Polygon K} (h0 : Fresh s) : (clear : Thread (Polygon K) Unit).Stays (fun u => u = s) s := by
  have e := h0.clearCached
  have hc : s = s.clearCached := e.symm
  refine clear_stays s rfl ?_ ?_ ?_ ?_ ?_ ?_ ?_ ?_ ?_ ?_ ?_ ?_
  · rintro u rfl; rw [e]
  · rintro u rfl; rw [e]
  · rintro h3 u rfl
    have : u.triTest = none := (congrArg Polygon.triTest hc).trans (by simp only [Polygon.clearCached, Polygon.cleared]; simp [h3])
    rw [← this]
  · rintro u rfl; have k : u.yPolylines = none := congrArg Polygon.yPolylines hc; rw [← k]
  · rintro u rfl; have k : u.dupeVerts = none := congrArg Polygon.dupeVerts hc; rw [← k]
  · rintro u rfl; have k : u.degenerate = none := congrArg Polygon.degenerate hc; rw [← k]
  · rintro u rfl; have k : u.bbox = none := congrArg Polygon.bbox hc; rw [← k]
  · rintro u rfl; have k : u.centroid = none := congrArg Polygon.centroid hc; rw [← k]
  · rintro u rfl; have k : u.maxR = none := congrArg Polygon.maxR hc; rw [← k]
  · rintro u rfl; have k : u.maxR2 = none := congrArg Polygon.maxR2 hc; rw [← k]
  · rintro u rfl; have k : u.minR = none := congrArg Polygon.minR hc; rw [← k]
  · rintro u rfl; have k : u.minR2 = none := congrArg Polygon.minR2 hc; rw [← k]

end clear

section polygon
variable {K : Type} [LinearOrder K] [Add K] [Sub K] [Mul K] [Div K] [Neg K] [Zero K] [One K] [RoundedArith K]

/-- The polygon after `j` turns of the loop. -/
theorem turn_alone (T : Affine K) (s : Polygon K) (i : Nat) (hi : i < s.verts.length) :
    (imulTurn T i).alone s = ((), ({ s with verts := s.verts.set i (T.apply s.verts[i]) } : Polygon K).clearCached) := by
  have hcopy : (Vec2.mk' (s.verts[i].x * T.a + s.verts[i].y * T.d + T.c) (s.verts[i].x * T.b + s.verts[i].y * T.e + T.f)).copy
      = T.apply s.verts[i] := by rw [Vec2.copy_fl]; rfl
  unfold imulTurn
  simp only [Thread.bind_eq, Thread.read, Thread.act_bind, Thread.done_bind, Thread.alone, id, List.getElem?_eq_getElem hi,
    Thread.write, hcopy]
  rw [clear_alone]

theorem mixed_length (T : Affine K) (vs : List (Vec2 K)) (j : Nat) : (mixed T vs j).length = vs.length := by
  unfold mixed; simp; omega

theorem mixed_get (T : Affine K) (vs : List (Vec2 K)) (j : Nat) : (mixed T vs j)[j]? = vs[j]? := by
  unfold mixed
  by_cases hj : j ≤ vs.length
  · rw [List.getElem?_append_right (by simp)]
    simp [Nat.min_eq_left hj]
  · rw [List.getElem?_eq_none (by simp; omega), List.getElem?_eq_none (by omega)]

theorem mixed_set (T : Affine K) (vs : List (Vec2 K)) (j : Nat) (hj : j < vs.length) :
    (mixed T vs j).set j (T.apply vs[j]) = mixed T vs (j + 1) := by
  unfold mixed
  rw [List.set_append_right _ _ (by simp)]
  simp only [List.length_map, List.length_take, Nat.min_eq_left hj.le, Nat.sub_self]
  rw [List.drop_eq_getElem_cons hj, List.set_cons_zero, List.take_add_one, List.map_append, List.append_assoc]
  simp [hj]

theorem each_stays (T : Affine K) (s : Polygon K) {R : Polygon K → Prop}
    (hturn : ∀ u : Polygon K, R u → ∀ vs : List (Vec2 K), vs.length = u.verts.length →
      R { u with verts := vs } ∧ (clear : Thread (Polygon K) Unit).Stays R { u with verts := vs } ∧
      R ({ u with verts := vs } : Polygon K).clearCached)
    (n i : Nat) (hn : i + n = s.verts.length) (u : Polygon K) (hR : R u) (hv : u.verts = mixed T s.verts i) :
    (Thread.each (imulTurn T) i n).Stays (fun u => R u ∧ ∃ j ≤ s.verts.length, u.verts = mixed T s.verts j) u ∧
    R ((Thread.each (imulTurn T) i n).alone u).2 ∧ ((Thread.each (imulTurn T) i n).alone u).2.verts = mixed T s.verts s.verts.length := by
  induction n generalizing i u with
  | zero =>
    have : i = s.verts.length := by omega
    subst this
    exact ⟨⟨hR, _, le_rfl, hv⟩, hR, hv⟩
  | succ n ih =>
    have hi : i < s.verts.length := by omega
    have hi' : i < u.verts.length := by rw [hv, mixed_length]; exact hi
    have hset : u.verts.set i (T.apply u.verts[i]) = mixed T s.verts (i + 1) := by
      have hg : u.verts[i]? = s.verts[i]? := by rw [hv]; exact mixed_get T s.verts i
      rw [List.getElem?_eq_getElem hi, List.getElem?_eq_getElem hi'] at hg
      rw [Option.some.inj hg, hv]; exact mixed_set T s.verts i hi
    obtain ⟨t1, t2, t3⟩ := hturn u hR (mixed T s.verts (i + 1)) (by rw [mixed_length, hv, mixed_length])
    have hturn_alone := turn_alone T u i hi'
    rw [hset] at hturn_alone
    have IH := ih (i + 1) (by omega) ({ u with verts := mixed T s.verts (i + 1) } : Polygon K).clearCached t3 rfl
    have hcopy : (Vec2.mk' (u.verts[i].x * T.a + u.verts[i].y * T.d + T.c) (u.verts[i].x * T.b + u.verts[i].y * T.e + T.f)).copy
        = T.apply u.verts[i] := by rw [Vec2.copy_fl]; rfl
    rw [show Thread.each (imulTurn T) i (n + 1) = (imulTurn T i).bind fun _ => Thread.each (imulTurn T) (i + 1) n from rfl,
      Thread.alone_bind, hturn_alone]
    refine ⟨Thread.Stays.bind _ _ ?_ ?_, IH.2⟩
    · unfold imulTurn
      refine stays_read ?_
      simp only [List.getElem?_eq_getElem hi', hcopy]
      refine stays_write ⟨hR, i, hi.le, hv⟩ ?_
      rw [hset]
      have h1 := t2
      have h2 := clear_verts ({ u with verts := mixed T s.verts (i + 1) } : Polygon K)
      have both : ∀ (t : Thread (Polygon K) Unit) (w : Polygon K), t.Stays R w →
          t.Stays (fun u => u.verts = mixed T s.verts (i + 1)) w →
          t.Stays (fun u => R u ∧ ∃ j ≤ s.verts.length, u.verts = mixed T s.verts j) w := by
        intro t
        induction t with
        | done a => exact fun w h1 h2 => ⟨h1, i + 1, hi, h2⟩
        | act w n ih => exact fun w' h1 h2 => ⟨⟨h1.1, i + 1, hi, h2.1⟩, ih w' _ h1.2 h2.2⟩
      exact both _ _ h1 h2
    · rw [hturn_alone]; exact IH.1

end polygon
end Mutate
end Planar
