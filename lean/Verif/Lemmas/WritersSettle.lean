import Verif.Lemmas.Writers
/- When all assignments have ended, one of them has succeeded. -/
set_option linter.unusedSectionVars false
namespace Planar
open Spec

namespace Thread
variable {σ α β : Type}

/-- As long as the others keep `U`: if the thread makes `U` false it ends with `P`, otherwise with `Q`. -/
def Kills (R : σ → σ → Prop) (U : σ → Prop) (P Q : α → σ → Prop) : Thread σ α → σ → Prop
  | .done a, s => ∀ s', R s s' → U s' → Q a s'
  | .act w n, s => ∀ s', R s s' → U s' →
    (U (w s') → (n s').Kills R U P Q (w s')) ∧ (¬ U (w s') → (n s').Ends R P (w s'))

variable {R : σ → σ → Prop} {U : σ → Prop}

theorem Kills.mono (htr : ∀ a b c, R a b → R b c → R a c) {P Q : α → σ → Prop} {t : Thread σ α} {s s' : σ}
    (h : t.Kills R U P Q s) (hR : R s s') : t.Kills R U P Q s' := by
  cases t with
  | done a => exact fun s'' hs => h s'' (htr _ _ _ hR hs)
  | act w n => exact fun s'' hs => h s'' (htr _ _ _ hR hs)

theorem Kills.bind (hrefl : ∀ a, R a a) (htr : ∀ a b c, R a b → R b c → R a c) {P0 P Q : α → σ → Prop}
    {P' Q' : β → σ → Prop} {k : α → Thread σ β} (t : Thread σ α) (s : σ) (he : t.Ends R P0 s) (h : t.Kills R U P Q s)
    (hQ : ∀ a s', R s s' → P0 a s' → U s' → Q a s' → (k a).Kills R U P' Q' s')
    (hP : ∀ a s', R s s' → P a s' → (k a).Ends R P' s') : (t.bind k).Kills R U P' Q' s := by
  induction t generalizing s with
  | done a =>
    have hk : ∀ s', R s s' → U s' → (k a).Kills R U P' Q' s' := fun s' hs hu => hQ a s' hs (he s' hs) hu (h s' hs hu)
    change (k a).Kills R U P' Q' s
    cases hka : k a with
    | done b =>
      rw [hka] at hk
      exact fun s' hs hu => hk s' hs hu s' (hrefl _) hu
    | act w n =>
      rw [hka] at hk
      exact fun s' hs hu => hk s' hs hu s' (hrefl _) hu
  | act w n ih =>
    intro s' hs hu
    obtain ⟨h1, h2⟩ := he s' hs
    obtain ⟨h3, h4⟩ := h s' hs hu
    exact ⟨fun hw => ih s' (w s') h2 (h3 hw) (fun a s'' hs'' => hQ a s'' (htr _ _ _ hs (htr _ _ _ h1 hs'')))
        (fun a s'' hs'' => hP a s'' (htr _ _ _ hs (htr _ _ _ h1 hs''))),
      fun hw => Ends.bind hrefl htr _ _ (h4 hw) fun a s'' hs'' => hP a s'' (htr _ _ _ hs (htr _ _ _ h1 hs''))⟩

/-- A step that keeps `U`. -/
theorem kills_keep {P Q : β → σ → Prop} {w : σ → σ} {n : σ → Thread σ β} {s : σ} (hU : ∀ s', U s' → U (w s'))
    (h : ∀ s', R s s' → U s' → (n s').Kills R U P Q (w s')) : (Thread.act w n).Kills R U P Q s :=
  fun s' hs hu => ⟨fun _ => h s' hs hu, fun hn => absurd (hU s' hu) hn⟩

end Thread

namespace System
variable {σ α : Type}

/-- `U` holds, and each thread that makes it false will end well; or some thread will end well. -/
def OneEnds (R : σ → σ → Prop) (U : σ → Prop) (P : α → σ → Prop) (Q : Nat → α → σ → Prop) (S : System σ α) : Prop :=
  (U S.shared ∧ ∀ i (t : Thread σ α), S.threads[i]? = some t → t.Kills R U P (Q i) S.shared) ∨
  ∃ (i : Nat) (t : Thread σ α), S.threads[i]? = some t ∧ t.Ends R P S.shared

theorem OneEnds.step {R : σ → σ → Prop} {U : σ → Prop} (htr : ∀ a b c, R a b → R b c → R a c) (hrefl : ∀ a, R a a)
    {P0 : Nat → α → σ → Prop} {P : α → σ → Prop} {Q : Nat → α → σ → Prop} {s0 : σ} {S : System σ α}
    (h0 : AllEnd R P0 s0 S) (h : OneEnds R U P Q S) (i : Nat) : OneEnds R U P Q (S.step i) := by
  unfold System.step
  cases ht : S.threads[i]? with
  | none => exact h
  | some t =>
    cases t with
    | done a => exact h
    | act w n =>
      obtain ⟨h1, -⟩ := h0.ends i _ ht S.shared (hrefl _)
      have hi : i < S.threads.length := (List.getElem?_eq_some_iff.mp ht).1
      have hget : ∀ j, (S.threads.set i (n S.shared))[j]? = if i = j then some (n S.shared) else S.threads[j]? := by
        intro j
        rw [List.getElem?_set]
        split_ifs with hij
        · rfl
        · rfl
      rcases h with ⟨hu, hk⟩ | ⟨j, t, hj, he⟩
      · obtain ⟨h3, h4⟩ := hk i _ ht S.shared (hrefl _) hu
        by_cases hw : U (w S.shared)
        · refine .inl ⟨hw, fun j t hj => ?_⟩
          simp only at hj
          rw [hget] at hj
          split_ifs at hj with hij
          · subst hij; cases hj; exact h3 hw
          · exact (hk j t hj).mono htr h1
        · refine .inr ⟨i, n S.shared, ?_, h4 hw⟩
          simp only
          rw [hget, if_pos rfl]
      · by_cases hij : i = j
        · subst hij
          rw [ht] at hj
          cases hj
          refine .inr ⟨i, n S.shared, ?_, (he S.shared (hrefl _)).2⟩
          simp only
          rw [hget, if_pos rfl]
        · refine .inr ⟨j, t, ?_, he.mono htr h1⟩
          simp only
          rw [hget, if_neg hij, hj]

theorem OneEnds.run {R : σ → σ → Prop} {U : σ → Prop} (htr : ∀ a b c, R a b → R b c → R a c) (hrefl : ∀ a, R a a)
    {P0 : Nat → α → σ → Prop} {P : α → σ → Prop} {Q : Nat → α → σ → Prop} {s0 : σ} (sched : List Nat) {S : System σ α}
    (h0 : AllEnd R P0 s0 S) (h : OneEnds R U P Q S) : OneEnds R U P Q (S.run sched) := by
  unfold System.run
  induction sched generalizing S with
  | nil => exact h
  | cons i sched ih => exact ih (h0.step htr hrefl i) (h.step htr hrefl h0 i)

/-- When all threads have ended: one has ended well, or `U` still holds. -/
theorem OneEnds.result {R : σ → σ → Prop} {U : σ → Prop} (hrefl : ∀ a, R a a) {P : α → σ → Prop} {Q : Nat → α → σ → Prop}
    {S : System σ α} (h : OneEnds R U P Q S) (hall : ∀ i < S.threads.length, (S.result i).isSome) :
    (U S.shared ∧ ∀ i a, S.result i = some a → Q i a S.shared) ∨ ∃ i a, S.result i = some a ∧ P a S.shared := by
  rcases h with ⟨hu, hk⟩ | ⟨i, t, hi, he⟩
  · refine .inl ⟨hu, fun i a hr => ?_⟩
    unfold System.result at hr
    cases ht : S.threads[i]? with
    | none => rw [ht] at hr; cases hr
    | some t =>
      rw [ht] at hr
      cases t with
      | done b => cases hr; exact hk i _ ht _ (hrefl _) hu
      | act w n => cases hr
  · have hlt : i < S.threads.length := (List.getElem?_eq_some_iff.mp hi).1
    have hr := hall i hlt
    unfold System.result at hr
    rw [hi] at hr
    cases t with
    | done a =>
      refine .inr ⟨i, a, ?_, he _ (hrefl _)⟩
      unfold System.result
      rw [hi]
    | act w n => cases hr

end System

namespace Writers
open Mutate Thread
variable {K : Type} {N : Nat → Vec2 K → Prop}

/-- The closure is there. -/
def Closure (s : Polygon K) : Prop := s.triTest ≠ none

theorem clear_kills (s : Polygon K) (hs : TriLong s) :
    (clear (K := K)).Kills (Moves N) Closure (fun r u => r = .ok ∧ Empty u) (fun _ _ => False) s := by
  unfold clear
  refine kills_keep (fun _ h => h) fun s' h hu => ?_
  have hs' := stable_triLong s s' h hs
  clear hs h
  by_cases h3 : s'.verts.length > 3
  · exact absurd (hs' h3) hu
  · change (if s'.verts.length > 3 then _ else _ : Thread (Polygon K) WriteAns).Kills _ _ _ _ s'
    rw [if_neg h3]
    refine kills_keep (fun _ h => h) fun s1 h1 _ => ?_
    have hl1 : s1.verts.length = s'.verts.length := h1.cb.1
    have hc1 : ({ s1 with convex := some true } : Polygon K).convex =
        if ({ s1 with convex := some true } : Polygon K).verts.length > 3 then none else some true := by simp [hl1, h3]
    refine kills_keep (fun _ h => h) fun s2 h2 _ => ?_
    have hl2 : s2.verts.length = s'.verts.length := h2.cb.1.trans hl1
    have hc2 := stable_convex _ s2 h2 hc1
    have hs2 : ({ s2 with simple := some true } : Polygon K).simple =
        if ({ s2 with simple := some true } : Polygon K).verts.length > 3 then none else some true := by simp [hl2, h3]
    refine kills_keep (fun _ h => h) fun s4 h4 hu4 => ?_
    have hc4 := stable_convex _ s4 h4 hc2
    have hs4 := stable_simple _ s4 h4 hs2
    change (if s4.triTest.isSome = true then _ else _ : Thread (Polygon K) WriteAns).Kills _ _ _ _ s4
    rw [if_pos (Option.isSome_iff_ne_none.mpr hu4)]
    intro s5 h5 hu5
    refine ⟨fun h => absurd rfl h, fun _ => ?_⟩
    change (if s5.triTest.isSome = true then clearRest else Thread.done WriteAns.keyError).Ends (Moves N) _
      { s5 with triTest := none }
    rw [if_pos (Option.isSome_iff_ne_none.mpr hu5)]
    exact rest_flags (fun s h => ⟨rfl, h⟩) { s5 with triTest := none }
      ⟨stable_convex _ s5 h5 hc4, stable_simple _ s5 h5 hs4, rfl⟩

variable [LinearOrder K] [Add K] [Sub K] [Mul K] [Div K] [Neg K] [Zero K] [One K] [RoundedArith K]

/-- Other assignments. -/
abbrev AnyMoves : Polygon K → Polygon K → Prop := Moves fun _ _ => True

theorem setItem_kills (i : Int) (v : Vec2 K) (s : Polygon K) (hs : TriLong s) :
    (setItem i v).Kills (Moves N) Closure (fun r u => r = .ok ∧ Empty u)
      (fun _ _ => ¬ (pyIndex s.verts.length i).isSome) s := by
  unfold setItem
  intro s' h hu
  have hl : s'.verts.length = s.verts.length := h.cb.1
  have hs' := stable_triLong s s' h hs
  unfold pySet
  simp only [hl]
  cases hi : pyIndex s.verts.length i with
  | none => exact ⟨fun _ u _ _ => by simp, fun hn => absurd hu hn⟩
  | some j =>
    refine ⟨fun _ => ?_, fun hn => absurd hu hn⟩
    simp only [Option.isSome_some, not_true_eq_false]
    exact clear_kills _ fun h3 => hs' (by simpa using h3)

theorem loop_kills (T : Affine K) (count i : Nat) (s : Polygon K)
    (hn : i + count = s.verts.length) (hs : TriLong s) :
    (loop T i count).Kills AnyMoves Closure (fun r u => r = .ok ∧ u.triTest = none) (fun r _ => r = .ok) s := by
  cases count with
  | zero => exact fun u _ _ => rfl
  | succ count =>
    unfold loop
    refine kills_keep (fun _ h => h) fun s' h hu => ?_
    have hs' := stable_triLong s s' h hs
    have hlt : i < s'.verts.length := by rw [h.cb.1]; omega
    change (match s'.verts[i]? with
      | none => Thread.done WriteAns.ok
      | some v => (setItem (i : Int) (Vec2.mk' (v.x*T.a + v.y*T.d + T.c) (v.x*T.b + v.y*T.e + T.f))).bind fun r =>
        if r = .ok then loop T (i + 1) count else .done r : Thread (Polygon K) WriteAns).Kills _ _ _ _ s'
    rw [List.getElem?_eq_getElem hlt]
    simp only
    have hpi : pyIndex s'.verts.length (i : Int) = some i := by
      unfold pyIndex; simp [hlt]
    have hE := setItem_ends (N := fun _ (_ : Vec2 K) => True) True (i : Int)
      (Vec2.mk' (s'.verts[i].x * T.a + s'.verts[i].y * T.d + T.c) (s'.verts[i].x * T.b + s'.verts[i].y * T.e + T.f)) s'
      ⟨hs', fun _ => trivial⟩ (fun _ _ => trivial)
    have hk := setItem_kills (N := fun _ (_ : Vec2 K) => True) (i : Int)
      (Vec2.mk' (s'.verts[i].x * T.a + s'.verts[i].y * T.d + T.c) (s'.verts[i].x * T.b + s'.verts[i].y * T.e + T.f)) s' hs'
    rw [hpi] at hk
    refine Thread.Kills.bind Moves.refl Moves.trans _ _ hE hk ?_ ?_
    · rintro r u - - - h
      exact absurd rfl h
    · rintro r u hm ⟨rfl, he⟩
      simp only [if_true]
      have htri : TriLong u := stable_triLong _ _ hm hs'
      have hnone : u.triTest = none := he.1.1.1.1.1.1.1.1.1.2.2
      have := loop_ends (N := fun _ (_ : Vec2 K) => True) False T u (fun _ _ _ => trivial) count (i + 1) u (Moves.refl u)
        (by rw [hm.cb.1, h.cb.1]; omega) ⟨htri, fun h => absurd hnone h⟩ (fun _ _ _ _ => trivial)
      refine Thread.Ends.imp ?_ _ _ (Ends.and_stable stable_tri _ _ this hnone)
      rintro r w ⟨⟨h, -⟩ | ⟨-, h, -⟩, ht⟩
      · exact ⟨h, ht⟩
      · exact h.elim

theorem imul_kills (T : Affine K) (s : Polygon K) (hs : TriLong s) :
    (imul T).Kills AnyMoves Closure (fun r u => r = .ok ∧ Empty u) (fun _ _ => False) s := by
  unfold imul
  refine kills_keep (fun _ h => h) fun s' h hu => ?_
  have hs' := stable_triLong s s' h hs
  change ((if (T != Affine.identity) = true then loop T 0 s'.verts.length else Thread.done WriteAns.ok).bind fun r =>
    if r = .ok then clear else .done r : Thread (Polygon K) WriteAns).Kills _ _ _ _ s'
  have hE : (if (T != Affine.identity) = true then loop T 0 s'.verts.length else Thread.done WriteAns.ok).Ends AnyMoves
      (fun _ u => TriLong u) s' := by
    have : (if (T != Affine.identity) = true then loop T 0 s'.verts.length else Thread.done WriteAns.ok).Ends AnyMoves
      (fun _ u => True) s' := by
      split_ifs
      · exact Thread.Ends.imp (fun _ _ _ => trivial) _ _ (loop_ends (N := fun _ (_ : Vec2 K) => True) True T s'
          (fun _ _ _ => trivial) _ 0 s' (Moves.refl s') (by omega) ⟨hs', fun _ => trivial⟩ (fun _ _ _ _ => trivial))
      · exact fun _ _ => trivial
    exact Thread.Ends.imp (fun _ _ h => h.2) _ _ (Ends.and_stable stable_triLong _ _ this hs')
  have hk : (if (T != Affine.identity) = true then loop T 0 s'.verts.length else Thread.done WriteAns.ok).Kills AnyMoves
      Closure (fun r u => r = .ok ∧ u.triTest = none) (fun r _ => r = .ok) s' := by
    split_ifs
    · exact loop_kills T _ 0 s' (by omega) hs'
    · exact fun _ _ _ => rfl
  refine Thread.Kills.bind Moves.refl Moves.trans _ _ hE hk ?_ ?_
  · rintro r u - hl - rfl
    simp only [if_true]
    exact clear_kills u hl
  · rintro r u hm ⟨rfl, ht⟩
    simp only [if_true]
    refine Thread.Ends.imp ?_ _ _ (clear_ends False u ⟨stable_triLong _ _ hm hs', fun h => absurd ht h⟩)
    rintro r w (h | ⟨-, h, -⟩)
    · exact h
    · exact h.elim

end Writers
end Planar
