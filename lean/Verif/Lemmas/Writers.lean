import Verif.Spec.Writers
import Verif.Lemmas.Mutate
import Verif.Lemmas.TriLong
/- Assignments by several threads. -/
set_option linter.unusedSectionVars false
namespace Planar
open Spec

namespace Thread
variable {σ α β : Type}

/-- Whatever the other threads do within `R`, the thread stays within `R`, and once it has ended `P` holds from then on. -/
def Ends (R : σ → σ → Prop) (P : α → σ → Prop) : Thread σ α → σ → Prop
  | .done a, s => ∀ s', R s s' → P a s'
  | .act w n, s => ∀ s', R s s' → R s' (w s') ∧ (n s').Ends R P (w s')

theorem Ends.mono {R : σ → σ → Prop} (htr : ∀ a b c, R a b → R b c → R a c) {P : α → σ → Prop} {t : Thread σ α} {s s' : σ}
    (h : t.Ends R P s) (hR : R s s') : t.Ends R P s' := by
  cases t with
  | done a => exact fun s'' hs => h s'' (htr _ _ _ hR hs)
  | act w n => exact fun s'' hs => h s'' (htr _ _ _ hR hs)

theorem Ends.bind {R : σ → σ → Prop} (hrefl : ∀ a, R a a) (htr : ∀ a b c, R a b → R b c → R a c) {P : α → σ → Prop}
    {Q : β → σ → Prop} {k : α → Thread σ β} (t : Thread σ α) (s : σ) (h : t.Ends R P s)
    (hk : ∀ a s', R s s' → P a s' → (k a).Ends R Q s') : (t.bind k).Ends R Q s := by
  induction t generalizing s with
  | done a => exact hk a s (hrefl s) (h s (hrefl s))
  | act w n ih =>
    intro s' hs
    obtain ⟨h1, h2⟩ := h s' hs
    exact ⟨h1, ih s' (w s') h2 fun a s'' hs'' => hk a s'' (htr _ _ _ hs (htr _ _ _ h1 hs''))⟩

theorem ends_read {R : σ → σ → Prop} (hrefl : ∀ a, R a a) {P : β → σ → Prop} {f : σ → α} {k : α → Thread σ β} {s : σ}
    (h : ∀ s', R s s' → (k (f s')).Ends R P s') : ((Thread.read f).bind k).Ends R P s :=
  fun s' hs => ⟨hrefl _, h s' hs⟩

theorem ends_write {R : σ → σ → Prop} {P : β → σ → Prop} {f : σ → σ} {k : Unit → Thread σ β} {s : σ}
    (hf : ∀ s', R s s' → R s' (f s')) (h : ∀ s', R s s' → (k ()).Ends R P (f s')) : ((Thread.write f).bind k).Ends R P s :=
  fun s' hs => ⟨hf s' hs, h s' hs⟩

end Thread

namespace System
variable {σ α : Type}

/-- All threads keep to `R` and end with `P`. -/
structure AllEnd (R : σ → σ → Prop) (P : Nat → α → σ → Prop) (s0 : σ) (S : System σ α) : Prop where
  rel : R s0 S.shared
  ends : ∀ i (t : Thread σ α), S.threads[i]? = some t → t.Ends R (P i) S.shared

theorem AllEnd.step {R : σ → σ → Prop} (htr : ∀ a b c, R a b → R b c → R a c) (hrefl : ∀ a, R a a)
    {P : Nat → α → σ → Prop} {s0 : σ} {S : System σ α} (h : AllEnd R P s0 S) (i : Nat) : AllEnd R P s0 (S.step i) := by
  unfold System.step
  cases ht : S.threads[i]? with
  | none => exact h
  | some t =>
    cases t with
    | done a => exact h
    | act w n =>
      obtain ⟨h1, h2⟩ := h.ends i _ ht S.shared (hrefl _)
      refine ⟨htr _ _ _ h.rel h1, ?_⟩
      intro j t hj
      simp only at hj ⊢
      rw [List.getElem?_set] at hj
      split_ifs at hj with hij hlt
      · subst hij; cases hj; exact h2
      · exact (h.ends j t hj).mono htr h1

theorem AllEnd.run {R : σ → σ → Prop} (htr : ∀ a b c, R a b → R b c → R a c) (hrefl : ∀ a, R a a)
    {P : Nat → α → σ → Prop} {s0 : σ} (sched : List Nat) {S : System σ α} (h : AllEnd R P s0 S) :
    AllEnd R P s0 (S.run sched) := by
  unfold System.run
  induction sched generalizing S with
  | nil => exact h
  | cons i sched ih => exact ih (h.step htr hrefl i)

theorem AllEnd.result {R : σ → σ → Prop} (hrefl : ∀ a, R a a) {P : Nat → α → σ → Prop} {s0 : σ} {S : System σ α}
    (h : AllEnd R P s0 S) {i : Nat} {a : α} (hr : S.result i = some a) : P i a S.shared := by
  unfold System.result at hr
  cases ht : S.threads[i]? with
  | none => rw [ht] at hr; cases hr
  | some t =>
    rw [ht] at hr
    cases t with
    | done b => cases hr; exact h.ends i _ ht _ (hrefl _)
    | act w n => cases hr

end System

namespace Writers
open Mutate Thread
variable {K : Type}

/-- What assignments of other threads may do: values of vertices become new values, caches are emptied. -/
structure Moves (N : Nat → Vec2 K → Prop) (s u : Polygon K) : Prop where
  cb : CB s u
  verts : ∀ j x, u.verts[j]? = some x → s.verts[j]? = some x ∨ N j x

theorem CB.trans {s u w : Polygon K} (h : CB s u) (g : CB u w) : CB s w := by
  have hl := h.1
  obtain ⟨h1, h2, h3, h4, h5, h6, h7, h8, h9, h10, h11, h12⟩ := h.2
  obtain ⟨g1, g2, g3, g4, g5, g6, g7, g8, g9, g10, g11, g12⟩ := g.2
  have two : ∀ {γ : Type} {a b c d e : γ}, (b = a ∨ b = d) → (c = b ∨ c = e) → e = d → (c = a ∨ c = d) := by
    rintro γ a b c d e (rfl | rfl) (rfl | rfl) rfl <;> simp
  refine ⟨g.1.trans h.1, ?_⟩
  constructor
  · exact two h1 g1 (by simp [Polygon.clearCached, Polygon.cleared, hl])
  · exact two h2 g2 (by simp [Polygon.clearCached, Polygon.cleared, hl])
  · exact two h3 g3 rfl
  · exact two h4 g4 rfl
  · exact two h5 g5 rfl
  · exact two h6 g6 rfl
  · exact two h7 g7 rfl
  · exact two h8 g8 rfl
  · exact two h9 g9 rfl
  · exact two h10 g10 rfl
  · exact two h11 g11 rfl
  · by_cases h3 : 3 < s.verts.length
    · simp only [Polygon.clearCached, Polygon.cleared, hl, h3, if_true] at h12 g12 ⊢
      rcases h12 with e | e <;> rcases g12 with e' | e' <;> exact .inl (e'.trans e)
    · exact two h12 g12 (by simp [Polygon.clearCached, Polygon.cleared, hl, h3])

variable {N : Nat → Vec2 K → Prop}

theorem Moves.refl (s : Polygon K) : Moves N s s := ⟨CB.refl s, fun _ _ h => .inl h⟩

theorem Moves.trans (s u w : Polygon K) (h : Moves N s u) (g : Moves N u w) : Moves N s w :=
  ⟨CB.trans h.cb g.cb, fun j x hx => by
    rcases g.verts j x hx with hx | hx
    · exact h.verts j x hx
    · exact .inr hx⟩

theorem Moves.new {s u : Polygon K} (h : Moves N s u) (j : Nat) (hj : ∀ x, s.verts[j]? = some x → N j x) :
    ∀ x, u.verts[j]? = some x → N j x := fun x hx => by
  rcases h.verts j x hx with hx | hx
  · exact hj x hx
  · exact hx

/-- Writing a cache. -/
theorem moves_cache {s u : Polygon K} (hv : u.verts = s.verts) (h : s.CachesBetween s.clearCached u) : Moves N s u :=
  ⟨⟨by rw [hv], h⟩, fun j x hx => .inl (by rw [← hv]; exact hx)⟩

theorem between_self (s : Polygon K) : s.CachesBetween s.clearCached s := by constructor <;> exact .inl rfl

/-- An assertion that other threads cannot make false. -/
def Stable (N : Nat → Vec2 K → Prop) (A : Polygon K → Prop) : Prop := ∀ s u, Moves N s u → A s → A u

theorem Stable.and {A B : Polygon K → Prop} (hA : Stable N A) (hB : Stable N B) : Stable N fun s => A s ∧ B s :=
  fun s u h hs => ⟨hA s u h hs.1, hB s u h hs.2⟩

theorem stable_step {A B : Polygon K → Prop} (hA : Stable N A) {w : Polygon K → Polygon K} (hw : ∀ s, A s → Moves N s (w s))
    (hB : ∀ s, A s → B (w s)) {α : Type} {P : α → Polygon K → Prop} {k : Thread (Polygon K) α}
    (hk : ∀ s, B s → k.Ends (Moves N) P s) : ∀ s, A s → ((Thread.write w).bind fun _ => k).Ends (Moves N) P s :=
  fun s hs => ends_write (fun s' h => hw s' (hA s s' h hs)) fun s' h => hk _ (hB s' (hA s s' h hs))

theorem stable_fresh_end {A : Polygon K → Prop} (hA : Stable N A) {α : Type} {a : α} {P : α → Polygon K → Prop}
    (h : ∀ s, A s → P a s) : ∀ s, A s → (Thread.done a : Thread (Polygon K) α).Ends (Moves N) P s :=
  fun s hs u hu => h u (hA s u hu hs)

/-- The caches of the flags are empty. -/
def Flags (s : Polygon K) : Prop :=
  (s.convex = if s.verts.length > 3 then none else some true) ∧ (s.simple = if s.verts.length > 3 then none else some true) ∧
  s.triTest = none

theorem stable_convex : Stable N fun s => s.convex = if s.verts.length > 3 then none else some true := by
  intro s u h hs
  rw [h.cb.1]
  rcases h.cb.2.convex with e | e
  · rw [e, hs]
  · rw [e]; simp [Polygon.clearCached, Polygon.cleared]

theorem stable_simple : Stable N fun s => s.simple = if s.verts.length > 3 then none else some true := by
  intro s u h hs
  rw [h.cb.1]
  rcases h.cb.2.simple with e | e
  · rw [e, hs]
  · rw [e]; simp [Polygon.clearCached, Polygon.cleared]

theorem stable_tri : Stable N fun s => s.triTest = none := by
  intro s u h hs
  rcases h.cb.2.triTest with e | e
  · rw [e, hs]
  · rw [e]; simp [Polygon.clearCached, Polygon.cleared, hs]

theorem stable_triLong : Stable N TriLong := by
  intro s u h hs h3
  rw [h.cb.1] at h3
  rcases h.cb.2.triTest with e | e
  · rw [e, hs h3]
  · rw [e]; simp [Polygon.clearCached, Polygon.cleared, h3, hs h3]

theorem stable_length (n : Nat) : Stable N fun s => s.verts.length = n := fun _ _ h hs => h.cb.1.trans hs

theorem stable_flags : Stable N (Flags (K := K)) := stable_convex.and (stable_simple.and stable_tri)

theorem stable_y : Stable N fun s => s.yPolylines = none := fun s u h hs => by
  rcases h.cb.2.yPolylines with e | e
  · rw [e, hs]
  · exact e
theorem stable_dupe : Stable N fun s => s.dupeVerts = none := fun s u h hs => by
  rcases h.cb.2.dupeVerts with e | e
  · rw [e, hs]
  · exact e
theorem stable_deg : Stable N fun s => s.degenerate = none := fun s u h hs => by
  rcases h.cb.2.degenerate with e | e
  · rw [e, hs]
  · exact e
theorem stable_bbox : Stable N fun s => s.bbox = none := fun s u h hs => by
  rcases h.cb.2.bbox with e | e
  · rw [e, hs]
  · exact e
theorem stable_cen : Stable N fun s => s.centroid = none := fun s u h hs => by
  rcases h.cb.2.centroid with e | e
  · rw [e, hs]
  · exact e
theorem stable_maxR : Stable N fun s => s.maxR = none := fun s u h hs => by
  rcases h.cb.2.maxR with e | e
  · rw [e, hs]
  · exact e
theorem stable_maxR2 : Stable N fun s => s.maxR2 = none := fun s u h hs => by
  rcases h.cb.2.maxR2 with e | e
  · rw [e, hs]
  · exact e
theorem stable_minR : Stable N fun s => s.minR = none := fun s u h hs => by
  rcases h.cb.2.minR with e | e
  · rw [e, hs]
  · exact e
theorem stable_minR2 : Stable N fun s => s.minR2 = none := fun s u h hs => by
  rcases h.cb.2.minR2 with e | e
  · rw [e, hs]
  · exact e

/-- All caches are empty. -/
def Empty (s : Polygon K) : Prop :=
  ((((((((Flags s ∧ s.yPolylines = none) ∧ s.dupeVerts = none) ∧ s.degenerate = none) ∧ s.bbox = none) ∧ s.centroid = none) ∧
    s.maxR = none) ∧ s.maxR2 = none) ∧ s.minR = none) ∧ s.minR2 = none

theorem Empty.fresh {s : Polygon K} (h : Empty s) : s = .fromPoints s.verts := by
  obtain ⟨⟨⟨⟨⟨⟨⟨⟨⟨⟨h1, h2, h3⟩, h4⟩, h5⟩, h6⟩, h7⟩, h8⟩, h9⟩, h10⟩, h11⟩, h12⟩ := h
  unfold Polygon.fromPoints Polygon.cleared
  cases s
  simp only [Polygon.mk.injEq]
  simp only at h1 h2 h3
  refine ⟨trivial, ?_, ?_, h4, h5, h6, h7, h8, h9, h10, h11, h12, ?_⟩
  · simpa using h1
  · simpa using h2
  · simp [h3]

theorem stable_empty : Stable N (Empty (K := K)) :=
  ((((((((stable_flags.and stable_y).and stable_dupe).and stable_deg).and stable_bbox).and stable_cen).and stable_maxR).and
    stable_maxR2).and stable_minR).and stable_minR2

theorem rest_ends {P : WriteAns → Polygon K → Prop} {A : Polygon K → Prop} (hA : Stable N A)
    (hcache : ∀ s u : Polygon K, u.verts = s.verts → u.convex = s.convex → u.simple = s.simple → u.triTest = s.triTest → A s → A u)
    (hfl : ∀ s, A s → Flags s) (hP : ∀ s, A s → Empty s → P .ok s) : ∀ s, A s → (clearRest (K := K)).Ends (Moves N) P s := by
  unfold clearRest
  refine stable_step (w := fun s => { s with yPolylines := none }) (B := fun s => A s ∧ s.yPolylines = none) hA
    (fun s _ => moves_cache rfl { between_self s with yPolylines := .inr rfl }) (fun s h => ⟨hcache s { s with yPolylines := none } rfl rfl rfl rfl h, rfl⟩) ?_
  have h1 := hA.and (stable_y (N := N))
  refine stable_step (w := fun s => { s with dupeVerts := none }) (B := fun s => (A s ∧ s.yPolylines = none) ∧ s.dupeVerts = none) h1
    (fun s _ => moves_cache rfl { between_self s with dupeVerts := .inr rfl })
    (fun s h => ⟨⟨hcache s { s with dupeVerts := none } rfl rfl rfl rfl h.1, h.2⟩, rfl⟩) ?_
  have h2 := h1.and (stable_dupe (N := N))
  refine stable_step (w := fun s => { s with degenerate := none }) (B := fun s => ((A s ∧ s.yPolylines = none) ∧ s.dupeVerts = none) ∧ s.degenerate = none) h2
    (fun s _ => moves_cache rfl { between_self s with degenerate := .inr rfl })
    (fun s h => ⟨⟨⟨hcache s { s with degenerate := none } rfl rfl rfl rfl h.1.1, h.1.2⟩, h.2⟩, rfl⟩) ?_
  have h3 := h2.and (stable_deg (N := N))
  refine stable_step (w := fun s => { s with bbox := none }) (B := fun s => (((A s ∧ s.yPolylines = none) ∧ s.dupeVerts = none) ∧ s.degenerate = none) ∧ s.bbox = none) h3
    (fun s _ => moves_cache rfl { between_self s with bbox := .inr rfl })
    (fun s h => ⟨⟨⟨⟨hcache s { s with bbox := none } rfl rfl rfl rfl h.1.1.1, h.1.1.2⟩, h.1.2⟩, h.2⟩, rfl⟩) ?_
  have h4 := h3.and (stable_bbox (N := N))
  refine stable_step (w := fun s => { s with centroid := none }) (B := fun s => ((((A s ∧ s.yPolylines = none) ∧ s.dupeVerts = none) ∧ s.degenerate = none) ∧ s.bbox = none) ∧
      s.centroid = none) h4
    (fun s _ => moves_cache rfl { between_self s with centroid := .inr rfl })
    (fun s h => ⟨⟨⟨⟨⟨hcache s { s with centroid := none } rfl rfl rfl rfl h.1.1.1.1, h.1.1.1.2⟩, h.1.1.2⟩, h.1.2⟩, h.2⟩, rfl⟩) ?_
  have h5 := h4.and (stable_cen (N := N))
  refine stable_step (w := fun s => { s with maxR := none }) (B := fun s => (((((A s ∧ s.yPolylines = none) ∧ s.dupeVerts = none) ∧ s.degenerate = none) ∧ s.bbox = none) ∧
      s.centroid = none) ∧ s.maxR = none) h5
    (fun s _ => moves_cache rfl { between_self s with maxR := .inr rfl })
    (fun s h => ⟨⟨⟨⟨⟨⟨hcache s { s with maxR := none } rfl rfl rfl rfl h.1.1.1.1.1, h.1.1.1.1.2⟩, h.1.1.1.2⟩, h.1.1.2⟩, h.1.2⟩, h.2⟩, rfl⟩) ?_
  have h6 := h5.and (stable_maxR (N := N))
  refine stable_step (w := fun s => { s with maxR2 := none }) (B := fun s => ((((((A s ∧ s.yPolylines = none) ∧ s.dupeVerts = none) ∧ s.degenerate = none) ∧ s.bbox = none) ∧
      s.centroid = none) ∧ s.maxR = none) ∧ s.maxR2 = none) h6
    (fun s _ => moves_cache rfl { between_self s with maxR2 := .inr rfl })
    (fun s h => ⟨⟨⟨⟨⟨⟨⟨hcache s { s with maxR2 := none } rfl rfl rfl rfl h.1.1.1.1.1.1, h.1.1.1.1.1.2⟩, h.1.1.1.1.2⟩, h.1.1.1.2⟩, h.1.1.2⟩, h.1.2⟩, h.2⟩, rfl⟩) ?_
  have h7 := h6.and (stable_maxR2 (N := N))
  refine stable_step (w := fun s => { s with minR := none }) (B := fun s => (((((((A s ∧ s.yPolylines = none) ∧ s.dupeVerts = none) ∧ s.degenerate = none) ∧ s.bbox = none) ∧
      s.centroid = none) ∧ s.maxR = none) ∧ s.maxR2 = none) ∧ s.minR = none) h7
    (fun s _ => moves_cache rfl { between_self s with minR := .inr rfl })
    (fun s h => ⟨⟨⟨⟨⟨⟨⟨⟨hcache s { s with minR := none } rfl rfl rfl rfl h.1.1.1.1.1.1.1, h.1.1.1.1.1.1.2⟩, h.1.1.1.1.1.2⟩, h.1.1.1.1.2⟩, h.1.1.1.2⟩, h.1.1.2⟩,
      h.1.2⟩, h.2⟩, rfl⟩) ?_
  have h8 := h7.and (stable_minR (N := N))
  refine stable_step (w := fun s => { s with minR2 := none }) (B := fun s => ((((((((A s ∧ s.yPolylines = none) ∧ s.dupeVerts = none) ∧ s.degenerate = none) ∧ s.bbox = none) ∧
      s.centroid = none) ∧ s.maxR = none) ∧ s.maxR2 = none) ∧ s.minR = none) ∧ s.minR2 = none) h8
    (fun s _ => moves_cache rfl { between_self s with minR2 := .inr rfl })
    (fun s h => ⟨⟨⟨⟨⟨⟨⟨⟨⟨hcache s { s with minR2 := none } rfl rfl rfl rfl h.1.1.1.1.1.1.1.1, h.1.1.1.1.1.1.1.2⟩, h.1.1.1.1.1.1.2⟩, h.1.1.1.1.1.2⟩, h.1.1.1.1.2⟩,
      h.1.1.1.2⟩, h.1.1.2⟩, h.1.2⟩, h.2⟩, rfl⟩) ?_
  refine stable_fresh_end (h8.and (stable_minR2 (N := N))) fun s h => ?_
  obtain ⟨⟨⟨⟨⟨⟨⟨⟨⟨a, b⟩, c⟩, d⟩, e⟩, f⟩, g⟩, i⟩, j⟩, k⟩ := h
  exact hP s a ⟨⟨⟨⟨⟨⟨⟨⟨⟨hfl s a, b⟩, c⟩, d⟩, e⟩, f⟩, g⟩, i⟩, j⟩, k⟩

theorem rest_flags {P : WriteAns → Polygon K → Prop} (hP : ∀ s, Empty s → P .ok s) (s : Polygon K) (h : Flags s) :
    (clearRest (K := K)).Ends (Moves N) P s :=
  rest_ends stable_flags (fun s u hv hc hs ht h => ⟨by rw [hc, hv]; exact h.1, by rw [hs, hv]; exact h.2.1, by rw [ht]; exact h.2.2⟩)
    (fun _ h => h) (fun s _ h => hP s h) s h

/-- Before caches are emptied: a closure is there only if `C`. -/
def Pre (C : Prop) (s : Polygon K) : Prop := TriLong s ∧ (s.triTest ≠ none → C)

theorem stable_pre (C : Prop) : Stable N (Pre C (K := K)) := fun s u h hs =>
  ⟨stable_triLong s u h hs.1, fun hu => hs.2 fun e => hu (stable_tri s u h e)⟩

/-- After `_clear_cached_properties`. -/
def Post (C : Prop) (r : WriteAns) (u : Polygon K) : Prop :=
  (r = .ok ∧ Empty u) ∨ (r = .keyError ∧ C ∧ u.verts.length ≤ 3)

theorem clear_ends (C : Prop) (s : Polygon K) (hs : Pre C s) : (clear (K := K)).Ends (Moves N) (Post C) s := by
  unfold clear
  refine ends_read Moves.refl fun s' h' => ?_
  have hs' := stable_pre C s s' h' hs
  clear hs h'
  by_cases h3 : s'.verts.length > 3
  · simp only [h3, if_true]
    have st : Stable N fun s : Polygon K => TriLong s ∧ s.verts.length = s'.verts.length := stable_triLong.and (stable_length _)
    refine stable_step (w := fun s => { s with convex := none })
      (B := fun s => (TriLong s ∧ s.verts.length = s'.verts.length) ∧ s.convex = if s.verts.length > 3 then none else some true)
      st (fun s h => moves_cache rfl { between_self s with convex := .inr (by simp [Polygon.clearCached, Polygon.cleared, h.2, h3]) })
      (fun s h => ⟨h, by simp [h.2, h3]⟩) ?_ s' ⟨hs'.1, rfl⟩
    refine stable_step (w := fun s => { s with simple := none }) (B := Flags) (st.and stable_convex)
      (fun s h => moves_cache rfl { between_self s with simple := .inr (by simp [Polygon.clearCached, Polygon.cleared, h.1.2, h3]) })
      (fun s h => ⟨h.2, by simp [h.1.2, h3], h.1.1 (by rw [h.1.2]; exact h3)⟩) ?_
    exact rest_flags fun s h => .inl ⟨rfl, h⟩
  · simp only [h3, if_false]
    have st : Stable N fun s : Polygon K => Pre C s ∧ s.verts.length = s'.verts.length := (stable_pre C).and (stable_length _)
    refine stable_step (w := fun s => { s with convex := some true })
      (B := fun s => (Pre C s ∧ s.verts.length = s'.verts.length) ∧ s.convex = if s.verts.length > 3 then none else some true)
      st (fun s h => moves_cache rfl { between_self s with convex := .inr (by simp [Polygon.clearCached, Polygon.cleared, h.2, h3]) })
      (fun s h => ⟨h, by simp [h.2, h3]⟩) ?_ s' ⟨hs', rfl⟩
    have st2 := (st.and (stable_convex (N := N))).and (stable_simple (N := N))
    refine stable_step (w := fun s => { s with simple := some true })
      (B := fun s => ((Pre C s ∧ s.verts.length = s'.verts.length) ∧ s.convex = if s.verts.length > 3 then none else some true) ∧
        s.simple = if s.verts.length > 3 then none else some true) (st.and stable_convex)
      (fun s h => moves_cache rfl { between_self s with simple := .inr (by simp [Polygon.clearCached, Polygon.cleared, h.1.2, h3]) })
      (fun s h => ⟨h, by simp [h.1.2, h3]⟩) ?_
    intro s hs
    unfold deleteClosure
    refine ends_read Moves.refl fun s2 h2 => ?_
    have hs2 := st2 s s2 h2 hs
    clear hs h2
    have hC := hs2.1.1.1.2
    cases ht : s2.triTest with
    | none =>
      simp only [Option.isSome_none, Bool.false_eq_true, if_false]
      exact rest_flags (fun s h => .inl ⟨rfl, h⟩) s2 ⟨hs2.1.2, hs2.2, ht⟩
    | some c =>
      simp only [Option.isSome_some, if_true]
      have hC : C := hC (by rw [ht]; simp)
      intro s3 h
      have hs3 := st2 s2 s3 h hs2
      refine ⟨moves_cache rfl { between_self s3 with triTest := .inr (by simp [Polygon.clearCached, Polygon.cleared, hs3.1.1.2, h3]) }, ?_⟩
      change (if s3.triTest.isSome = true then clearRest else Thread.done WriteAns.keyError).Ends (Moves N) (Post C)
        { s3 with triTest := none }
      by_cases ht3 : s3.triTest.isSome = true
      · rw [if_pos ht3]
        exact rest_flags (fun s h => .inl ⟨rfl, h⟩) { s3 with triTest := none } ⟨hs3.1.2, hs3.2, rfl⟩
      · rw [if_neg ht3]
        intro u hu
        refine .inr ⟨rfl, hC, ?_⟩
        have := hu.cb.1
        have e := hs3.1.1.2
        simp only at this
        omega

theorem _root_.Planar.Thread.Ends.and_stable {α : Type} {P : α → Polygon K → Prop} {A : Polygon K → Prop} (hA : Stable N A)
    (t : Thread (Polygon K) α) (s : Polygon K) (h : t.Ends (Moves N) P s) (hs : A s) :
    t.Ends (Moves N) (fun a u => P a u ∧ A u) s := by
  induction t generalizing s with
  | done a => exact fun u hu => ⟨h u hu, hA s u hu hs⟩
  | act w n ih =>
    intro u hu
    obtain ⟨h1, h2⟩ := h u hu
    exact ⟨h1, ih u (w u) h2 (hA _ _ h1 (hA s u hu hs))⟩

theorem _root_.Planar.Thread.Ends.imp {σ α : Type} {R : σ → σ → Prop} {P Q : α → σ → Prop} (hPQ : ∀ a s, P a s → Q a s)
    (t : Thread σ α) (s : σ) (h : t.Ends R P s) : t.Ends R Q s := by
  induction t generalizing s with
  | done a => exact fun u hu => hPQ a u (h u hu)
  | act w n ih => exact fun u hu => ⟨(h u hu).1, ih u (w u) (h u hu).2⟩

/-- Vertex `j` has a new value. -/
def IsNew (N : Nat → Vec2 K → Prop) (j : Nat) (s : Polygon K) : Prop := ∀ x, s.verts[j]? = some x → N j x

theorem stable_new (j : Nat) : Stable N (IsNew N j) := fun _ _ h hs => h.new j hs

variable [LinearOrder K] [Add K] [Sub K] [Mul K] [Div K] [Neg K] [Zero K] [One K] [RoundedArith K]

theorem setItem_ends (C : Prop) (i : Int) (v : Vec2 K) (s : Polygon K) (hs : Pre C s) (hv : ∀ j, pyIndex s.verts.length i = some j → N j v) :
    (setItem i v).Ends (Moves N) (fun r u => match pyIndex s.verts.length i with
      | none => r = .indexError
      | some j => Post C r u ∧ IsNew N j u) s := by
  unfold setItem
  intro s' h
  have hl : s'.verts.length = s.verts.length := h.cb.1
  have hs' := stable_pre C s s' h hs
  unfold pySet
  simp only [hl]
  cases hi : pyIndex s.verts.length i with
  | none => exact ⟨Moves.refl _, fun u hu => rfl⟩
  | some j =>
    have hlen : (s'.verts.set j v.copy).length = s'.verts.length := by simp
    have hnew : IsNew N j ({ s' with verts := s'.verts.set j v.copy } : Polygon K) := by
      intro x hx
      rw [Vec2.copy_fl] at hx
      have hx : (s'.verts.set j v)[j]? = some x := hx
      rw [List.getElem?_set_self'] at hx
      cases hg : s'.verts[j]? with
      | none => rw [hg] at hx; cases hx
      | some y => rw [hg] at hx; cases hx; exact hv j hi
    refine ⟨⟨(CB.refl s').verts _ hlen, ?_⟩, ?_⟩
    · intro k x hx
      by_cases hk : j = k
      · subst hk; exact .inr (hnew x hx)
      · refine .inl ?_
        simp only [List.getElem?_set, hk, if_false] at hx
        exact hx
    · refine Ends.and_stable (stable_new j) _ _ (clear_ends C _ ⟨fun h3 => hs'.1 (by simpa using h3), hs'.2⟩) hnew

/-- New values are images of new and old values. -/
def Closed (N : Nat → Vec2 K → Prop) (T : Affine K) (s0 : Polygon K) : Prop :=
  ∀ j x, (s0.verts[j]? = some x ∨ N j x) → N j (T.apply x)

theorem loop_ends (C : Prop) (T : Affine K) (s0 : Polygon K) (hT : Closed N T s0) (count i : Nat) (s : Polygon K) (h0 : Moves N s0 s)
    (hn : i + count = s0.verts.length) (hs : Pre C s) (hi : ∀ j < i, IsNew N j s) :
    (loop T i count).Ends (Moves N) (fun r u => (r = .ok ∧ ∀ j < s0.verts.length, IsNew N j u) ∨
      (r = .keyError ∧ C ∧ u.verts.length ≤ 3)) s := by
  induction count generalizing i s with
  | zero =>
    intro u hu
    refine .inl ⟨rfl, fun j hj => stable_new j s u hu (hi j (by omega))⟩
  | succ count ih =>
    unfold loop
    refine ends_read Moves.refl fun s' h => ?_
    have h0' := Moves.trans _ _ _ h0 h
    have hs' := stable_pre C s s' h hs
    have hi' : ∀ j < i, IsNew N j s' := fun j hj => stable_new j s s' h (hi j hj)
    have hlt : i < s'.verts.length := by rw [h0'.cb.1]; omega
    rw [List.getElem?_eq_getElem hlt]
    have hpi : pyIndex s'.verts.length (i : Int) = some i := by
      unfold pyIndex; simp [hlt]
    have hx : N i (T.apply s'.verts[i]) := hT i _ (h0'.verts i _ (List.getElem?_eq_getElem hlt))
    have hset := setItem_ends (N := N) C (i : Int) (Vec2.mk' (s'.verts[i].x * T.a + s'.verts[i].y * T.d + T.c)
      (s'.verts[i].x * T.b + s'.verts[i].y * T.e + T.f)) s' hs' (by rw [hpi]; rintro j ⟨⟩; exact hx)
    simp only [hpi] at hset
    have hall := Ends.and_stable (A := fun u => Moves N s0 u ∧ Pre C u ∧ ∀ j < i, IsNew N j u)
      (fun a b hab ha => ⟨Moves.trans _ _ _ ha.1 hab, stable_pre C a b hab ha.2.1, fun j hj => stable_new j a b hab (ha.2.2 j hj)⟩)
      _ _ hset ⟨h0', hs', hi'⟩
    refine Thread.Ends.bind Moves.refl Moves.trans _ _ hall ?_
    rintro r u - ⟨⟨hp, hnew⟩, hm, hpre, hj⟩
    rcases hp with ⟨rfl, -⟩ | ⟨rfl, hC, hl⟩
    · refine ih (i + 1) u hm (by omega) hpre fun j hj' => ?_
      by_cases e : j = i
      · subst e; exact hnew
      · exact hj j (by omega)
    · exact fun w hw => .inr ⟨rfl, hC, by rw [hw.cb.1]; exact hl⟩

theorem imul_ends (C : Prop) (T : Affine K) (s0 : Polygon K) (hT : Closed N T s0) (s : Polygon K) (h0 : Moves N s0 s) (hs : Pre C s) :
    (imul T).Ends (Moves N) (fun r u => (r = .ok ∧ Empty u ∧ ∀ j < s0.verts.length, IsNew N j u) ∨
      (r = .keyError ∧ C ∧ u.verts.length ≤ 3)) s := by
  unfold imul
  refine ends_read Moves.refl fun s' h => ?_
  have h0' := Moves.trans _ _ _ h0 h
  have hs' := stable_pre C s s' h hs
  have hmain : (if (T != Affine.identity) = true then loop T 0 s'.verts.length else Thread.done WriteAns.ok).Ends (Moves N)
      (fun r u => (r = .ok ∧ ∀ j < s0.verts.length, IsNew N j u) ∨ (r = .keyError ∧ C ∧ u.verts.length ≤ 3)) s' := by
    by_cases hid : (T != Affine.identity) = true
    · rw [if_pos hid]
      exact loop_ends C T s0 hT _ 0 s' h0' (by rw [h0'.cb.1]; omega) hs' fun j hj => absurd hj (Nat.not_lt_zero j)
    · rw [if_neg hid]
      have hid : T = Affine.identity := by simpa using hid
      intro u hu
      refine .inl ⟨rfl, fun j hj x hx => ?_⟩
      have := hT j x ((Moves.trans _ _ _ h0' hu).verts j x hx)
      have e : T.apply x = x := by
        have := Polygon.map_apply_identity [x]
        rw [hid]
        simpa using this
      rwa [e] at this
  have hall := Ends.and_stable (stable_pre C) _ _ hmain hs'
  refine Thread.Ends.bind Moves.refl Moves.trans _ _ hall ?_
  rintro r u - ⟨⟨rfl, hnew⟩ | ⟨rfl, hC, hl⟩, hpre⟩
  · have := Ends.and_stable (A := fun u => ∀ j < s0.verts.length, IsNew N j u)
      (fun a b hab ha j hj => stable_new j a b hab (ha j hj)) _ _ (clear_ends (N := N) C u hpre) hnew
    refine Thread.Ends.imp ?_ _ _ this
    rintro r w ⟨⟨rfl, he⟩ | ⟨rfl, hC, hl⟩, hn⟩
    · exact .inl ⟨rfl, he, hn⟩
    · exact .inr ⟨rfl, hC, hl⟩
  · exact fun w hw => .inr ⟨rfl, hC, by rw [hw.cb.1]; exact hl⟩

end Writers
end Planar
