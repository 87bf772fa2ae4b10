import Verif.Props.PolyEq
import Verif.Props.Equivariance
import Verif.Props.Centroid
/- C67: polygons that are `==` give the same answers. -/
set_option linter.unusedSectionVars false
namespace Planar
open Spec Polygon
variable {K : Type} [Field K] [LinearOrder K] [IsStrictOrderedRing K]

/-! ### What the trigrams determine -/

theorem tris_last (vs : List (Vec2 K)) : (tris vs).map (fun t => t.2.2) = vs := by
  unfold tris
  rw [List.map_map]
  apply List.ext_getElem
  · simp
  · intro i h1 h2
    simp only [List.getElem_map, List.getElem_range, Function.comp]
    exact nth_ofNat vs i h2

theorem tris_edges (vs : List (Vec2 K)) (h : 2 ≤ vs.length) : (tris vs).map (fun t => (t.2.1, t.2.2)) = edges vs := by
  rw [tris_at vs h, edges_atZ vs h, List.map_map]
  rfl

/-- The trigrams of `==` polygons are those of the other one or of its reverse. -/
theorem eq_tris {s o : Polygon K} (h3 : 3 ≤ s.verts.length) (h : s.eq o = true) :
    s.verts.length = o.verts.length ∧ ((tris s.verts).Perm (tris o.verts) ∨ (tris s.verts).Perm (tris o.verts.reverse)) := by
  rw [eq_iff_tris] at h
  obtain ⟨hl, h | h⟩ := h
  · exact ⟨hl, .inl h⟩
  · refine ⟨hl, .inr (h.trans ?_)⟩
    have := tris_reverse o.verts (by omega)
    have := (this.map flip3)
    rw [List.map_map, show (flip3 ∘ flip3 : Tri K → Tri K) = id from rfl, List.map_id] at this
    exact this.symm

theorem eq_verts {s o : Polygon K} (h3 : 3 ≤ s.verts.length) (h : s.eq o = true) : s.verts.Perm o.verts := by
  obtain ⟨-, h | h⟩ := eq_tris h3 h
  · have := h.map fun t => t.2.2
    rwa [tris_last, tris_last] at this
  · have := h.map fun t => t.2.2
    rw [tris_last, tris_last] at this
    exact this.trans (List.reverse_perm _)

theorem eq_edges {s o : Polygon K} (h3 : 3 ≤ s.verts.length) (h : s.eq o = true) :
    (edges s.verts).Perm (edges o.verts) ∨ (edges s.verts).Perm (edges o.verts.reverse) := by
  obtain ⟨hl, h⟩ := eq_tris h3 h
  rcases h with h | h
  · have := h.map fun t => (t.2.1, t.2.2)
    rw [tris_edges _ (by omega), tris_edges _ (by omega)] at this
    exact .inl this
  · have := h.map fun t => (t.2.1, t.2.2)
    rw [tris_edges _ (by omega), tris_edges _ (by simp; omega)] at this
    exact .inr this

theorem tris_map (f : Vec2 K → Vec2 K) (vs : List (Vec2 K)) (h : 2 ≤ vs.length) :
    tris (vs.map f) = (tris vs).map fun t => (f t.1, f t.2.1, f t.2.2) := by
  rw [tris_at _ (by simpa using h), tris_at _ h, List.map_map, List.length_map]
  apply List.map_congr_left
  intro i _
  have : ∀ i : ℤ, atZ (vs.map f) i = f (atZ vs i) := by
    intro i
    obtain ⟨k, hk, hc, e⟩ := atZ_nat vs (by omega) i
    have hc' : i ≡ k [ZMOD (vs.map f).length] := by rw [List.length_map]; exact hc
    rw [e, atZ_congr hc', atZ_lt _ k (by simpa using hk), List.getElem_map]
  simp only [Function.comp, this]

theorem verts_new {vs : List (Vec2 K)} {s : Polygon K} (h : Polygon.new vs = .ok s) : 3 ≤ vs.length ∧ s = Polygon.fromPoints vs := by
  have hv : 3 ≤ vs.length := by
    by_contra hc
    rw [(C43_new vs none none).1 (by omega)] at h
    cases h
  rw [C44_fresh_new (0 : K) vs hv] at h; injection h with h
  exact ⟨hv, h.symm⟩

/-- **C67** transforming `==` polygons by the same transform gives `==` polygons. -/
theorem C67_transform (s o : Polygon K) (h3 : 3 ≤ s.verts.length) (h : s.eq o = true) (T : Affine K) :
    (s.transformed T).eq (o.transformed T) = true := by
  rw [eq_iff_tris] at h ⊢
  obtain ⟨hl, h⟩ := h
  change (s.verts.map T.apply).length = (o.verts.map T.apply).length ∧
    ((tris (s.verts.map T.apply)).Perm (tris (o.verts.map T.apply)) ∨
     (tris (s.verts.map T.apply)).Perm ((tris (o.verts.map T.apply)).map flip3))
  refine ⟨by simpa using hl, ?_⟩
  rw [tris_map _ _ (by omega), tris_map _ _ (by omega)]
  rcases h with h | h
  · exact .inl (h.map _)
  · right
    have := h.map fun t => (T.apply t.1, T.apply t.2.1, T.apply t.2.2)
    rw [List.map_map] at this ⊢
    exact this

/-- **C67** `==` polygons contain the same points: asked before anything else, `contains_point` of a vector answers the
same, whether or not vertices are repeated. -/
theorem C67_contains (eps : K) (s o : Polygon K) (h : s.eq o = true) (hw : Wide eps s.verts) (p : Vec2 K) :
    ((Polygon.fromPoints s.verts).containsPoint eps (.vec p)).1 = ((Polygon.fromPoints o.verts).containsPoint eps (.vec p)).1 := by
  have h3 : 3 ≤ s.verts.length := by rcases hw with h | h <;> omega
  have hp := eq_verts h3 h
  have hw' : Wide eps o.verts := by
    rcases hw with h | ⟨h, h'⟩
    · exact .inl (by rw [← hp.length_eq]; exact h)
    · refine .inr ⟨by rw [← hp.length_eq]; exact h, (hp.pairwise_iff fun {a b} hab => ?_).mp h'⟩
      have e : ∀ x y : K, (x - y) * (x - y) = (y - x) * (y - x) := fun x y => by ring
      rw [e b.x, e b.y]; exact hab
  rw [C48_all eps _ hw, C48_all eps _ hw']
  congr 1
  rcases eq_edges h3 h with h | h
  · rw [show winding s.verts p = winding o.verts p from (h.map _).sum_eq]
  · rw [show winding s.verts p = winding o.verts.reverse p from (h.map _).sum_eq, (C48_invariance o.verts p p 0).2.1]
    simp [bne]

/-- **C67** after every two histories, `==` polygons have the same bounding box. -/
theorem C67_bounding_box (eps : K) (vs ws : List (Vec2 K)) (s0 o0 : Polygon K) (hs : Polygon.new vs = .ok s0)
    (ho : Polygon.new ws = .ok o0) (ops ops' : List (PolyOp K)) (h : (s0.after eps ops).eq (o0.after eps ops') = true) :
    (s0.after eps ops).boundingBox.1 = (o0.after eps ops').boundingBox.1 := by
  have h3 := after_length (eps := eps) hs ops
  obtain ⟨-, rfl⟩ := verts_new hs
  obtain ⟨-, rfl⟩ := verts_new ho
  rw [(inv_boundingBox (inv_after (inv_fromPoints eps vs) ops).1).1, (inv_boundingBox (inv_after (inv_fromPoints eps ws) ops').1).1]
  have hp := eq_verts h3 h
  have hne : ((Polygon.fromPoints vs).after eps ops).verts ≠ [] := by
    intro h; rw [h] at h3; simp at h3
  obtain ⟨b, hb, -, -, -, -, hx⟩ := (C21_bounding_box _).2 hne
  rw [hb, hx _ fun p => hp.mem_iff]

/-! ### Convexity and simplicity do not depend on the first vertex and the direction -/

theorem edges_rotate_isRotated (vs : List (Vec2 K)) (k : Nat) : (edges (vs.rotate k)).IsRotated (edges vs) := by
  induction k with
  | zero => rw [List.rotate_zero]
  | succ k ih =>
    rw [← List.rotate_rotate]
    refine List.IsRotated.trans ?_ ih
    generalize vs.rotate k = l
    rcases l with _ | ⟨v, t⟩
    · exact List.IsRotated.refl _
    · rw [List.rotate_cons_succ, List.rotate_zero, edges_rotate_one, edges_cons]
      exact List.IsRotated.symm ⟨1, by simp⟩

theorem edges_reverse_isRotated (vs : List (Vec2 K)) : (edges vs.reverse).IsRotated ((edges vs).map Prod.swap).reverse := by
  rcases vs with _ | ⟨v, t⟩
  · exact List.IsRotated.refl _
  · rw [List.reverse_cons, edges_snoc, edgesFrom_reverse]
    refine List.IsRotated.reverse (List.IsRotated.map ?_ _)
    rw [← edges_snoc, edges_rotate_one, edges_cons]
    exact List.IsRotated.symm ⟨1, by simp⟩

theorem convex_rotate {vs : List (Vec2 K)} (h : Convex vs) (k : Nat) : Convex (vs.rotate k) := by
  obtain ⟨h1, there, back, h2, h3, h4⟩ := h
  refine ⟨?_, there, back, (edges_rotate_isRotated vs k).trans h2, h3, h4⟩
  have hm := edges_rotate_perm vs k
  unfold OneSided
  simp only [List.mem_rotate, hm.mem_iff]
  exact h1

theorem side_swap (a b p : Vec2 K) : side b a p = - side a b p := by unfold side; ring

theorem convex_reverse {vs : List (Vec2 K)} (h : Convex vs) : Convex vs.reverse := by
  obtain ⟨h1, there, back, h2, h3, h4⟩ := h
  constructor
  · have hm := edges_reverse_perm vs
    rcases h1 with h1 | h1
    · right
      intro e he v hv
      obtain ⟨e', he', rfl⟩ := List.mem_map.mp (hm.mem_iff.mp he)
      have := h1 e' he' v (List.mem_reverse.mp hv)
      simp only [Prod.fst_swap, Prod.snd_swap]
      rw [side_swap]; linarith
    · left
      intro e he v hv
      obtain ⟨e', he', rfl⟩ := List.mem_map.mp (hm.mem_iff.mp he)
      have := h1 e' he' v (List.mem_reverse.mp hv)
      simp only [Prod.fst_swap, Prod.snd_swap]
      rw [side_swap]; linarith
  · refine ⟨(back.map Prod.swap).reverse, (there.map Prod.swap).reverse, ?_, ?_, ?_⟩
    · refine (edges_reverse_isRotated vs).trans ?_
      rw [← List.reverse_append, ← List.map_append]
      exact (h2.map _).reverse
    · intro e he
      obtain ⟨e', he', rfl⟩ := List.mem_map.mp (List.mem_reverse.mp he)
      exact h4 e' he'
    · intro e he
      obtain ⟨e', he', rfl⟩ := List.mem_map.mp (List.mem_reverse.mp he)
      exact h3 e' he'

/-- The same closed path, up to the first vertex and the direction. -/
def SameLoop (vs ws : List (Vec2 K)) : Prop := ∃ k, ws = vs.rotate k ∨ ws = vs.reverse.rotate k

theorem SameLoop.symm {vs ws : List (Vec2 K)} (h : SameLoop vs ws) : SameLoop ws vs := by
  obtain ⟨k, h | h⟩ := h
  · obtain ⟨m, hm⟩ := List.IsRotated.symm ⟨k, h.symm⟩
    exact ⟨m, .inl hm.symm⟩
  · obtain ⟨m, hm⟩ := List.IsRotated.symm ⟨k, h.symm⟩
    rw [← List.reverse_reverse vs, ← hm, List.reverse_rotate]
    exact ⟨_, .inr rfl⟩

theorem SameLoop.convex {vs ws : List (Vec2 K)} (h : SameLoop vs ws) (hc : Convex vs) : Convex ws := by
  obtain ⟨k, rfl | rfl⟩ := h
  · exact convex_rotate hc k
  · exact convex_rotate (convex_reverse hc) k

theorem SameLoop.perm {vs ws : List (Vec2 K)} (h : SameLoop vs ws) : vs.Perm ws := by
  obtain ⟨k, rfl | rfl⟩ := h
  · exact (List.rotate_perm _ _).symm
  · exact ((List.rotate_perm _ _).trans (List.reverse_perm _)).symm

/-- The edge at position `i`, counted around the polygon. -/
def edgeZ (vs : List (Vec2 K)) (i : ℤ) : Vec2 K × Vec2 K := (atZ vs (i - 1), atZ vs i)

theorem edgeZ_congr {vs : List (Vec2 K)} {i j : ℤ} (h : i ≡ j [ZMOD vs.length]) : edgeZ vs i = edgeZ vs j := by
  unfold edgeZ; rw [atZ_congr h, atZ_congr (h.sub_right 1)]

theorem edges_getElem (vs : List (Vec2 K)) (h : 2 ≤ vs.length) (i : ℕ) (hi : i < vs.length) : (edges vs)[i]? = some (edgeZ vs i) := by
  rw [edges_atZ vs h, List.getElem?_map, List.getElem?_range hi]; rfl

/-- Two edges with positions that are not the same and do not follow one another around the polygon. -/
def Far (vs : List (Vec2 K)) (e f : Vec2 K × Vec2 K) : Prop :=
  ∃ i j : ℤ, ¬ i ≡ j [ZMOD vs.length] ∧ ¬ i + 1 ≡ j [ZMOD vs.length] ∧ ¬ j + 1 ≡ i [ZMOD vs.length] ∧
    e = edgeZ vs i ∧ f = edgeZ vs j

theorem far_iff (vs : List (Vec2 K)) (h : 2 ≤ vs.length) (e f : Vec2 K × Vec2 K) :
    Far vs e f ↔ NotNeighbours vs e f ∨ NotNeighbours vs f e := by
  have hn : (vs.length : ℤ) ≠ 0 := by omega
  have lt : ∀ i : ℕ, i < vs.length → (i : ℤ) % vs.length = i := fun i hi => Int.emod_eq_of_lt (by omega) (by omega)
  have nat : ∀ i : ℤ, ∃ k : ℕ, k < vs.length ∧ i ≡ k [ZMOD vs.length] := by
    intro i
    obtain ⟨k, hk, hc, -⟩ := atZ_nat vs (by omega) i
    exact ⟨k, hk, hc⟩
  constructor
  · rintro ⟨i, j, h1, h2, h3, rfl, rfl⟩
    obtain ⟨a, ha, hia⟩ := nat i
    obtain ⟨b, hb, hjb⟩ := nat j
    rw [edgeZ_congr hia, edgeZ_congr hjb]
    have h1' : a ≠ b := by
      rintro rfl
      exact h1 (hia.trans hjb.symm)
    have h2' : a + 1 ≠ b := by
      rintro rfl
      apply h2
      refine (hia.add_right 1).trans ?_
      push_cast at hjb
      exact hjb.symm
    have h2'' : ¬ (b = 0 ∧ a + 1 = vs.length) := by
      rintro ⟨rfl, h⟩
      apply h2
      refine (hia.add_right 1).trans (Int.ModEq.trans ?_ hjb.symm)
      rw [show (a : ℤ) + 1 = vs.length by omega]
      simp [Int.ModEq]
    have h3' : b + 1 ≠ a := by
      rintro rfl
      apply h3
      refine (hjb.add_right 1).trans ?_
      push_cast at hia
      exact hia.symm
    have h3'' : ¬ (a = 0 ∧ b + 1 = vs.length) := by
      rintro ⟨rfl, h⟩
      apply h3
      refine (hjb.add_right 1).trans (Int.ModEq.trans ?_ hia.symm)
      rw [show (b : ℤ) + 1 = vs.length by omega]
      simp [Int.ModEq]
    rcases Nat.lt_or_ge a b with hab | hab
    · exact .inl ⟨a, b, by omega, by omega, edges_getElem vs h a ha, edges_getElem vs h b hb⟩
    · exact .inr ⟨b, a, by omega, by omega, edges_getElem vs h b hb, edges_getElem vs h a ha⟩
  · have key : ∀ e f, NotNeighbours vs e f → Far vs e f := by
      rintro e f ⟨a, b, h1, h2, he, hf⟩
      have hb : b < vs.length := by
        by_contra hc
        rw [List.getElem?_eq_none (by rw [edges_length]; omega)] at hf
        cases hf
      have ha : a < vs.length := by omega
      rw [edges_getElem vs h a ha] at he
      rw [edges_getElem vs h b hb] at hf
      injection he with he
      injection hf with hf
      refine ⟨a, b, ?_, ?_, ?_, he.symm, hf.symm⟩
      · unfold Int.ModEq; rw [lt a ha, lt b hb]; omega
      · unfold Int.ModEq
        have := lt (a + 1) (by omega)
        push_cast at this
        rw [this, lt b hb]; omega
      · unfold Int.ModEq
        rcases Nat.lt_or_ge (b + 1) vs.length with hb' | hb'
        · have := lt (b + 1) hb'
          push_cast at this
          rw [this, lt a ha]; omega
        · rw [show (b : ℤ) + 1 = vs.length by omega, Int.emod_self, lt a ha]; omega
    rintro (h | h)
    · exact key e f h
    · obtain ⟨i, j, h1, h2, h3, h4, h5⟩ := key f e h
      exact ⟨j, i, fun h => h1 h.symm, h3, h2, h5, h4⟩

theorem far_rotate {vs : List (Vec2 K)} (h : 2 ≤ vs.length) (k : ℕ) {e f : Vec2 K × Vec2 K} (hf : Far (vs.rotate k) e f) :
    Far vs e f := by
  obtain ⟨i, j, h1, h2, h3, h4, h5⟩ := hf
  rw [List.length_rotate] at h1 h2 h3
  have ed : ∀ i, edgeZ (vs.rotate k) i = edgeZ vs (i + k) := by
    intro i
    unfold edgeZ
    rw [atZ_rotate _ (by omega), atZ_rotate _ (by omega), show i - 1 + (k : ℤ) = i + k - 1 by ring]
  refine ⟨i + k, j + k, fun h => h1 (Int.ModEq.add_right_cancel' _ h), fun h => h2 (Int.ModEq.add_right_cancel' (k : ℤ) ?_),
    fun h => h3 (Int.ModEq.add_right_cancel' (k : ℤ) ?_), by rw [h4, ed], by rw [h5, ed]⟩
  · rw [show i + 1 + (k : ℤ) = i + k + 1 by ring]; exact h
  · rw [show j + 1 + (k : ℤ) = j + k + 1 by ring]; exact h

theorem far_reverse {vs : List (Vec2 K)} (h : 2 ≤ vs.length) {e f : Vec2 K × Vec2 K} (hf : Far vs.reverse e f) :
    Far vs e.swap f.swap := by
  obtain ⟨i, j, h1, h2, h3, h4, h5⟩ := hf
  rw [List.length_reverse] at h1 h2 h3
  have ed : ∀ i, edgeZ vs.reverse i = (edgeZ vs (-i)).swap := by
    intro i
    unfold edgeZ
    rw [atZ_reverse _ (by omega), atZ_reverse _ (by omega), Prod.swap_prod_mk, show -1 - (i - 1) = -i by ring,
      show -1 - i = -i - 1 by ring]
  refine ⟨-i, -j, fun h => h1 ?_, fun h => h3 ?_, fun h => h2 ?_, by rw [h4, ed, Prod.swap_swap], by rw [h5, ed, Prod.swap_swap]⟩
  · have := h.neg; simpa using this
  · have := (h.add_right (i + j))
    rw [show -i + 1 + (i + j) = j + 1 by ring, show -j + (i + j) = i by ring] at this
    exact this
  · have := (h.add_right (i + j))
    rw [show -j + 1 + (i + j) = i + 1 by ring, show -i + (i + j) = j by ring] at this
    exact this

/-- What `is_simple` looks for. -/
def Crosses (vs : List (Vec2 K)) : Prop :=
  ∃ e f x, NotNeighbours vs e f ∧ NotParallel e f ∧ OnEdge e x ∧ OnEdge f x ∧
    ¬ (RightEnd e x ∧ LeftEnd f x) ∧ ¬ (RightEnd f x ∧ LeftEnd e x)

theorem crosses_far (vs : List (Vec2 K)) (h : 2 ≤ vs.length) : Crosses vs ↔
    ∃ e f x, Far vs e f ∧ NotParallel e f ∧ OnEdge e x ∧ OnEdge f x ∧
      ¬ (RightEnd e x ∧ LeftEnd f x) ∧ ¬ (RightEnd f x ∧ LeftEnd e x) := by
  constructor
  · rintro ⟨e, f, x, hn, hr⟩
    exact ⟨e, f, x, (far_iff vs h e f).mpr (.inl hn), hr⟩
  · rintro ⟨e, f, x, hn, hp, he, hf, a, b⟩
    rcases (far_iff vs h e f).mp hn with hn | hn
    · exact ⟨e, f, x, hn, hp, he, hf, a, b⟩
    · refine ⟨f, e, x, hn, ?_, hf, he, b, a⟩
      unfold NotParallel at *
      intro hc; apply hp; linear_combination -hc

theorem crosses_loop {vs ws : List (Vec2 K)} (h : 2 ≤ vs.length) (hl : SameLoop vs ws) (hc : Crosses ws) : Crosses vs := by
  have hlen := hl.perm.length_eq
  rw [crosses_far _ (by omega)] at hc ⊢
  obtain ⟨e, f, x, hn, hp, he, hf, a, b⟩ := hc
  obtain ⟨k, rfl | rfl⟩ := hl
  · exact ⟨e, f, x, far_rotate h k hn, hp, he, hf, a, b⟩
  · have sr : ∀ e : Vec2 K × Vec2 K, RightEnd e.swap x → RightEnd e x := fun e h => ⟨h.1.symm, h.2.2, h.2.1⟩
    have sl : ∀ e : Vec2 K × Vec2 K, LeftEnd e.swap x → LeftEnd e x := fun e h => ⟨h.1.symm, h.2.2, h.2.1⟩
    refine ⟨e.swap, f.swap, x, far_reverse h (far_rotate (by simpa using h) k hn), ?_, onEdge_swap he, onEdge_swap hf,
      fun h => a ⟨sr e h.1, sl f h.2⟩, fun h => b ⟨sr f h.1, sl e h.2⟩⟩
    unfold NotParallel at *
    simp only [Prod.fst_swap, Prod.snd_swap]
    intro hc; apply hp; linear_combination hc

theorem last_distinct {vs : List (Vec2 K)} (h : 2 ≤ vs.length) (hn : vs.Nodup) : vs[vs.length - 1]? ≠ vs[vs.length - 2]? := by
  rw [List.getElem?_eq_getElem (by omega : vs.length - 1 < vs.length), List.getElem?_eq_getElem (by omega : vs.length - 2 < vs.length)]
  intro hc
  injection hc with hc
  have := (hn.getElem_inj_iff).mp hc
  omega

/-- **C67** after every two histories, `==` polygons with distinct vertices agree on `is_convex`, `is_simple` and
`centroid` (also when it is None or raises). -/
theorem C67_properties (eps : K) (vs ws : List (Vec2 K)) (s0 o0 : Polygon K) (hs : Polygon.new vs = .ok s0)
    (ho : Polygon.new ws = .ok o0) (ops ops' : List (PolyOp K)) (h : (s0.after eps ops).eq (o0.after eps ops') = true)
    (hn : (s0.after eps ops).verts.Nodup) :
    (s0.after eps ops).isConvex.1 = (o0.after eps ops').isConvex.1 ∧
    (s0.after eps ops).isSimple.1 = (o0.after eps ops').isSimple.1 ∧
    (s0.after eps ops).getCentroid.1 = (o0.after eps ops').getCentroid.1 := by
  have l1 := after_length (eps := eps) hs ops
  have l2 := after_length (eps := eps) ho ops'
  have hloop : SameLoop _ _ := (C55_distinct _ _ l1 hn).mp h
  have hn' : (o0.after eps ops').verts.Nodup := hloop.perm.nodup_iff.mp hn
  have c1 := C45_iff_partial eps vs s0 hs ops (last_distinct (by omega) hn)
  have c2 := C45_iff_partial eps ws o0 ho ops' (last_distinct (by omega) hn')
  have hconv : (s0.after eps ops).isConvex.1 = (o0.after eps ops').isConvex.1 := by
    rw [Bool.eq_iff_iff, c1, c2]
    exact ⟨fun h => hloop.convex h, fun h => hloop.symm.convex h⟩
  have hsimple : (s0.after eps ops).isSimple.1 = (o0.after eps ops').isSimple.1 := by
    cases hc : (s0.after eps ops).isConvex.1 with
    | true =>
      have hc' := hconv ▸ hc
      have a : (s0.after eps ops).isSimple.1 = true := by
        by_contra hf
        have := (C46_sound eps vs s0 hs ops (by simpa using hf)).2
        rw [hc] at this; cases this
      have b : (o0.after eps ops').isSimple.1 = true := by
        by_contra hf
        have := (C46_sound eps ws o0 ho ops' (by simpa using hf)).2
        rw [hc'] at this; cases this
      rw [a, b]
    | false =>
      have hc' := hconv ▸ hc
      have a := C46_exact_partial eps vs s0 hs ops hc
      have b := C46_exact_partial eps ws o0 ho ops' hc'
      have e : (s0.after eps ops).isSimple.1 = false ↔ (o0.after eps ops').isSimple.1 = false := by
        rw [a, b]
        exact ⟨crosses_loop (by omega) hloop.symm, crosses_loop (by omega) hloop⟩
      rwa [Bool.eq_iff_iff, ← not_iff_not, Bool.not_eq_true, Bool.not_eq_true]
  refine ⟨hconv, hsimple, ?_⟩
  obtain ⟨a1, a2, a3⟩ := C47_centroid eps vs s0 hs ops
  obtain ⟨b1, b2, b3⟩ := C47_centroid eps ws o0 ho ops'
  have har : areaCentroid (o0.after eps ops').verts = areaCentroid (s0.after eps ops).verts ∧
      (area2 (o0.after eps ops').verts = 0 ↔ area2 (s0.after eps ops).verts = 0) := by
    obtain ⟨k, hk | hk⟩ := hloop
    · obtain ⟨x1, -, x3, -⟩ := C47_rotate_reverse (s0.after eps ops).verts k
      rw [hk, x1, x3]; exact ⟨rfl, Iff.rfl⟩
    · obtain ⟨x1, -, x3, -⟩ := C47_rotate_reverse (s0.after eps ops).verts.reverse k
      obtain ⟨-, y2, -, y4⟩ := C47_rotate_reverse (s0.after eps ops).verts 0
      rw [hk, x1, x3, y2, y4]; exact ⟨rfl, neg_eq_zero⟩
  cases hsi : (s0.after eps ops).isSimple.1 with
  | false => rw [a3 hsi, b3 (hsimple ▸ hsi)]
  | true =>
    by_cases hz : area2 (s0.after eps ops).verts = 0
    · rw [a2 hsi hz, b2 (hsimple ▸ hsi) (har.2.mpr hz)]
    · rw [a1 hsi hz, b1 (hsimple ▸ hsi) (fun h => hz (har.2.mp h)), har.1]

private instance : DecidableEq (Vec2 ℚ) := fun a b => decidable_of_iff (a.x = b.x ∧ a.y = b.y) Vec2.ext_iff.symm

/-- **C67** for repeated vertices `is_convex` of `==` polygons can differ. -/
theorem C67_repeated : ∃ s o : Polygon ℚ, Polygon.new [⟨4, 0⟩, ⟨4, 4⟩, ⟨0, 4⟩, ⟨0, 0⟩, ⟨2, 1⟩, (⟨2, 1⟩ : Vec2 ℚ)] = .ok s ∧
    Polygon.new [⟨2, 1⟩, ⟨2, 1⟩, ⟨4, 0⟩, ⟨4, 4⟩, ⟨0, 4⟩, (⟨0, 0⟩ : Vec2 ℚ)] = .ok o ∧ s.eq o = true ∧
    s.isConvex.1 = true ∧ o.isConvex.1 = false := ⟨_, _, rfl, rfl, by decide +kernel, by decide +kernel, by decide +kernel⟩

/-- The hypotheses are met: an arrow head, and the same from another vertex the other way round. -/
example : (Polygon.fromPoints [⟨0, 0⟩, ⟨2, 2⟩, ⟨0, 1⟩, (⟨-2, 2⟩ : Vec2 ℚ)]).eq
      (Polygon.fromPoints [⟨0, 1⟩, ⟨2, 2⟩, ⟨0, 0⟩, ⟨-2, 2⟩]) = true ∧
    [⟨0, 0⟩, ⟨2, 2⟩, ⟨0, 1⟩, (⟨-2, 2⟩ : Vec2 ℚ)].Nodup ∧ Wide (1/100000) [⟨0, 0⟩, ⟨2, 2⟩, ⟨0, 1⟩, (⟨-2, 2⟩ : Vec2 ℚ)] :=
  ⟨by decide +kernel, by decide +kernel, .inl (by decide)⟩

end Planar
