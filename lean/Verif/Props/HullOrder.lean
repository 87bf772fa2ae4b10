import Verif.Props.HullExact
import Verif.Props.HullDistinct
import Verif.Props.PolyEq
/- C90: what the hull of a set of points depends on. -/
set_option linter.unusedSectionVars false
namespace Planar
open Spec Polygon Hull
variable {K : Type} [Field K] [LinearOrder K] [IsStrictOrderedRing K]

/-- No three different points are on a line. -/
def GeneralPosition (ps : List (Vec2 K)) : Prop :=
  ∀ a ∈ ps, ∀ b ∈ ps, ∀ c ∈ ps, side a b c = 0 → a = b ∨ b = c ∨ a = c

namespace Hull

/-- A point of the hull that is on a supporting line is in the hull of the points on that line. -/
theorem inHull_face {vs : List (Vec2 K)} {p a b : Vec2 K} (hp : InHull vs p) (h : ∀ v ∈ vs, side a b v ≤ 0)
    (h0 : side a b p = 0) : InHull (vs.filter fun v => decide (side a b v = 0)) p := by
  induction hp with
  | vertex v hv => exact .vertex v (by simp [hv, h0])
  | between p q t hp hq t0 t1 ihp ihq =>
    have sp := inHull_side hp h
    have sq := inHull_side hq h
    have e : (1 - t) * side a b p + t * side a b q = 0 := by
      rw [← h0]; simp only [side]; ring
    have n1 : (1 - t) * side a b p ≤ 0 := mul_nonpos_of_nonneg_of_nonpos (by linarith) sp
    have n2 : t * side a b q ≤ 0 := mul_nonpos_of_nonneg_of_nonpos t0 sq
    rcases mul_eq_zero.mp (le_antisymm n1 (by linarith) : (1 - t) * side a b p = 0) with k1 | k1
    · obtain rfl : t = 1 := by linarith
      have : side a b q = 0 := by linarith
      have h := ihq this
      simpa using h
    · rcases mul_eq_zero.mp (le_antisymm n2 (by linarith) : t * side a b q = 0) with k2 | k2
      · subst k2
        have h := ihp k1
        simpa using h
      · exact .between p q t (ihp k1) (ihq k2) t0 t1

theorem inHull_single {vs : List (Vec2 K)} {p w : Vec2 K} (hp : InHull vs p) (h : ∀ v ∈ vs, v = w) : p = w := by
  induction hp with
  | vertex v hv => exact h v hv
  | between p q t hp hq t0 t1 ihp ihq => subst ihp; subst ihq; ext <;> simp

theorem edges_loop (v : Vec2 K) (t : List (Vec2 K)) : (edges (v :: t)).Perm (edgesFrom v (t ++ [v])) := by
  rw [← edges_snoc, edges_rotate_one, edges_cons]
  exact (List.perm_append_singleton _ _).symm

theorem edgesFrom_fst (a z : Vec2 K) (l : List (Vec2 K)) : (edgesFrom a (l ++ [z])).map Prod.fst = a :: l := by
  induction l generalizing a with
  | nil => rfl
  | cons b l ih => simp [ih]

theorem edges_fst (vs : List (Vec2 K)) : ((edges vs).map Prod.fst).Perm vs := by
  rcases vs with _ | ⟨v, t⟩
  · exact .refl _
  · have := (edges_loop v t).map Prod.fst
    rwa [edgesFrom_fst] at this

/-- Every vertex has an edge that leaves it. -/
theorem edge_from {vs : List (Vec2 K)} {v : Vec2 K} (hv : v ∈ vs) : ∃ w, (v, w) ∈ edges vs := by
  have := (edges_fst vs).symm.subset hv
  simpa using this

/-- and only one when no vertex is repeated. -/
theorem edge_unique {vs : List (Vec2 K)} (hn : vs.Nodup) {v w w' : Vec2 K} (h : (v, w) ∈ edges vs) (h' : (v, w') ∈ edges vs) :
    w = w' := by
  have hd : ((edges vs).map Prod.fst).Nodup := (edges_fst vs).symm.nodup hn
  have := List.inj_on_of_nodup_map hd h h' rfl
  exact congrArg Prod.snd this

theorem path_eq {E : List (Vec2 K × Vec2 K)} (hu : ∀ x y y', (x, y) ∈ E → (x, y') ∈ E → y = y') (z : Vec2 K) :
    ∀ (l l' : List (Vec2 K)) (a : Vec2 K), (∀ e ∈ edgesFrom a (l ++ [z]), e ∈ E) → (∀ e ∈ edgesFrom a (l' ++ [z]), e ∈ E) →
      z ∉ l → z ∉ l' → l = l'
  | [], [], _, _, _, _, _ => rfl
  | [], b :: l', a, h, h', _, hz => by
    have := hu a z b (h _ (by simp)) (h' _ (by simp))
    exact absurd (by simp [this]) hz
  | b :: l, [], a, h, h', hz, _ => by
    have := hu a z b (h' _ (by simp)) (h _ (by simp))
    exact absurd (by simp [this]) hz
  | b :: l, b' :: l', a, h, h', hz, hz' => by
    obtain rfl := hu a b b' (h _ (by simp)) (h' _ (by simp))
    rw [path_eq hu z l l' b (fun e he => h e (by simp [he])) (fun e he => h' e (by simp [he]))
      (fun hm => hz (by simp [hm])) (fun hm => hz' (by simp [hm]))]

/-- Two closed paths without repeated vertices and with the same edges differ at most in their start. -/
theorem rotated_of_edges {vs us : List (Vec2 K)} (hv : vs.Nodup) (hu : us.Nodup) (hne : vs ≠ [])
    (h : ∀ e ∈ edges vs, e ∈ edges us) : ∃ k, us = vs.rotate k := by
  obtain ⟨v, t, rfl⟩ := List.exists_cons_of_ne_nil hne
  obtain ⟨w, hw⟩ := edge_from (vs := v :: t) (v := v) (by simp)
  have hvu : v ∈ us := (edges_mem (h _ hw)).1
  obtain ⟨A, B, rfl⟩ := List.append_of_mem hvu
  have hr : (A ++ v :: B).rotate A.length = v :: (B ++ A) := by rw [List.rotate_append_length_eq]; simp
  have hp := edges_rotate_perm (A ++ v :: B) A.length
  rw [hr] at hp
  have hnd : (v :: (B ++ A)).Nodup := by rw [← hr]; exact List.nodup_rotate.mpr hu
  have e : t = B ++ A := path_eq (E := edges (A ++ v :: B)) (fun x y y' => edge_unique hu) v t (B ++ A) v
    (fun e he => h e ((edges_loop v t).mem_iff.mpr he))
    (fun e he => hp.mem_iff.mp ((edges_loop v _).mem_iff.mpr he)) (List.nodup_cons.mp hv).1 (List.nodup_cons.mp hnd).1
  have hrot : (A ++ v :: B).IsRotated (v :: t) := ⟨A.length, by rw [hr, e]⟩
  obtain ⟨k, hk⟩ := hrot.symm
  exact ⟨k, hk.symm⟩

theorem edge_irrefl {vs : List (Vec2 K)} (hn : vs.Nodup) (h2 : 2 ≤ vs.length) {v : Vec2 K} : (v, v) ∉ edges vs := by
  intro he
  obtain ⟨A, B, rfl⟩ := List.append_of_mem (edges_mem he).1
  have hr : (A ++ v :: B).rotate A.length = v :: (B ++ A) := by rw [List.rotate_append_length_eq]; simp
  have hp := edges_rotate_perm (A ++ v :: B) A.length
  rw [hr] at hp
  have hnd : (v :: (B ++ A)).Nodup := by rw [← hr]; exact List.nodup_rotate.mpr hn
  rcases hBA : B ++ A with _ | ⟨b, t⟩
  · obtain ⟨rfl, rfl⟩ := List.append_eq_nil_iff.mp hBA
    simp at h2
  · rw [hBA] at hp hnd
    have := edge_unique hn he (hp.mem_iff.mp ((edges_loop v (b :: t)).mem_iff.mpr (by simp)) : (v, b) ∈ _)
    rw [← this] at hnd
    simp at hnd

/-- With all the points on the right of its edges, no vertex twice and no three points on a line, a polygon has exactly the
edges that have all the points on their right. -/
theorem edges_iff {points vs : List (Vec2 K)} (hg : GeneralPosition points) (hsub : ∀ v ∈ vs, v ∈ points) (hn : vs.Nodup)
    (hin : ∀ p ∈ points, InHull vs p) (hright : ∀ e ∈ edges vs, ∀ p ∈ points, side e.1 e.2 p ≤ 0) (h3 : 2 ≤ vs.length)
    (v w : Vec2 K) : (v, w) ∈ edges vs ↔ v ∈ points ∧ w ∈ points ∧ v ≠ w ∧ ∀ p ∈ points, side v w p ≤ 0 := by
  constructor
  · intro he
    obtain ⟨h1, h2⟩ := edges_mem he
    refine ⟨hsub v h1, hsub w h2, ?_, hright _ he⟩
    rintro rfl
    exact edge_irrefl hn h3 he
  · rintro ⟨hv, hw, hne, hall⟩
    have hvv : v ∈ vs := by
      by_contra hcon
      have := inHull_face (hin v hv) (fun u hu => hall u (hsub u hu)) (by simp [side])
      refine hne (inHull_single this fun u hu => ?_)
      simp only [List.mem_filter, decide_eq_true_eq] at hu
      rcases hg v hv w hw u (hsub u hu.1) hu.2 with h | h | h
      · exact absurd h hne
      · exact h.symm
      · exact absurd (h ▸ hu.1) hcon
    obtain ⟨w', he⟩ := edge_from hvv
    have hw' := hsub _ (edges_mem he).2
    have h1 := hright _ he w hw
    have h2 := hall w' hw'
    have e : side v w w' = 0 := by
      have : side v w w' = -side v w' w := by simp only [side]; ring
      simp only at h1
      linarith
    rcases hg v hv w hw w' hw' e with h | h | h
    · exact absurd h hne
    · rwa [h]
    · exact absurd (h ▸ he) (edge_irrefl hn h3)

end Hull

/-- **C90** when no points are lost (C57), the hull of a set of points is always the same region: it does not depend on the
order of the points, on repetitions, or on the order in which Python iterates over its sets. -/
theorem C90_region_partial (order order' : List (Vec2 K) → List (Vec2 K)) (hord : ∀ l, (order l).Perm l) (hord' : ∀ l, (order' l).Perm l)
    (points points' : List (Vec2 K)) (hsame : ∀ p, p ∈ points ↔ p ∈ points') (s s' : Polygon K)
    (hs : convexHull order points = .ok s) (hs' : convexHull order' points' = .ok s')
    (hin : ∀ p ∈ points, InHull s.verts p) (hin' : ∀ p ∈ points', InHull s'.verts p) (q : Vec2 K) :
    (InHull s.verts q ↔ InHull s'.verts q) ∧ (InHull s.verts q ↔ InHull points q) := by
  have h1 := C57_vertices order hord points s hs
  have h2 := C57_vertices order' hord' points' s' hs'
  refine ⟨⟨fun h => inHull_trans (fun v hv => hin' v ((hsame v).mp (h1 v hv))) h,
    fun h => inHull_trans (fun v hv => hin v ((hsame v).mpr (h2 v hv))) h⟩, inHull_mono h1, inHull_trans hin⟩

/-- **C90** every point that is not in the hull of the others is then a vertex. -/
theorem C90_corners_partial (order : List (Vec2 K) → List (Vec2 K)) (hord : ∀ l, (order l).Perm l) (points : List (Vec2 K)) (s : Polygon K)
    (hs : convexHull order points = .ok s) (hin : ∀ p ∈ points, InHull s.verts p) (p : Vec2 K) (hp : p ∈ points)
    (hx : ∀ others : List (Vec2 K), (∀ q ∈ others, q ∈ points ∧ q ≠ p) → ¬ InHull others p) : p ∈ s.verts := by
  by_contra hcon
  exact hx s.verts (fun q hq => ⟨C57_vertices order hord points s hs q hq, fun h => hcon (h ▸ hq)⟩) (hin p hp)

/-- **C90** if moreover no three different points are on a line, the hulls have the same vertices in the same cyclic order, and
are equal polygons. -/
theorem C90_same_partial (order order' : List (Vec2 K) → List (Vec2 K)) (hord : ∀ l, (order l).Perm l) (hord' : ∀ l, (order' l).Perm l)
    (points points' : List (Vec2 K)) (hsame : ∀ p, p ∈ points ↔ p ∈ points') (hflat : ¬ Flat points) (hg : GeneralPosition points)
    (s s' : Polygon K) (hs : convexHull order points = .ok s) (hs' : convexHull order' points' = .ok s')
    (hin : ∀ p ∈ points, InHull s.verts p) (hin' : ∀ p ∈ points', InHull s'.verts p) :
    (∃ k, s'.verts = s.verts.rotate k) ∧ s.eq s' = true := by
  have hflat' : ¬ Flat points' := fun h => hflat fun a ha b hb c hc => h a ((hsame a).mp ha) b ((hsame b).mp hb) c ((hsame c).mp hc)
  have hg' : GeneralPosition points' := fun a ha b hb c hc =>
    hg a ((hsame a).mpr ha) b ((hsame b).mpr hb) c ((hsame c).mpr hc)
  have hx : ∀ {ps : List (Vec2 K)}, ¬ Flat ps → ∃ a ∈ ps, ∃ b ∈ ps, a.x ≠ b.x := by
    intro ps h
    by_contra hcon
    push Not at hcon
    apply h
    intro a ha b hb c hc
    simp only [side]
    rw [hcon a ha b hb, hcon c hc b hb]; ring
  have key := edges_iff hg (C57_vertices order hord points s hs) (C57_nodup order hord points (hx hflat) s hs) hin
    ((C57_exact_partial order hord points hflat s hs).2.mp hin)
  have key' := edges_iff hg' (C57_vertices order' hord' points' s' hs') (C57_nodup order' hord' points' (hx hflat') s' hs') hin'
    ((C57_exact_partial order' hord' points' hflat' s' hs').2.mp hin')
  have len : ∀ {o : List (Vec2 K) → List (Vec2 K)} {ps : List (Vec2 K)} {r : Polygon K}, convexHull o ps = .ok r → 3 ≤ r.verts.length := by
    intro o ps r hr
    have hq := convexHull_inv hr
    simp only [Hull.convexHull, hq, bind, Except.bind] at hr
    by_contra hcon
    have := (C43_new r.verts (some true) none).1 (by omega)
    rw [hr] at this
    simp at this
  have l := len hs
  have l' := len hs'
  have hrot : ∃ k, s'.verts = s.verts.rotate k := by
    refine rotated_of_edges (C57_nodup order hord points (hx hflat) s hs) (C57_nodup order' hord' points' (hx hflat') s' hs')
      (by intro h; rw [h] at l; simp at l) fun e he => ?_
    obtain ⟨v, w⟩ := e
    rw [key (by omega)] at he
    rw [key' (by omega)]
    exact ⟨(hsame v).mp he.1, (hsame w).mp he.2.1, he.2.2.1, fun p hp => he.2.2.2 p ((hsame p).mpr hp)⟩
  obtain ⟨k, hk⟩ := hrot
  exact ⟨⟨k, hk⟩, C55_complete s s' l k (Or.inl hk)⟩

/-- **C90** no condition on the scans is needed for at most seven points. -/
theorem C90_small (order order' : List (Vec2 K) → List (Vec2 K)) (hord : ∀ l, (order l).Perm l) (hord' : ∀ l, (order' l).Perm l)
    (points points' : List (Vec2 K)) (h7 : points.length ≤ 7) (h7' : points'.length ≤ 7) (hsame : ∀ p, p ∈ points ↔ p ∈ points')
    (hflat : ¬ Flat points) (hg : GeneralPosition points) :
    ∃ s s', convexHull order points = .ok s ∧ convexHull order' points' = .ok s' ∧ (∃ k, s'.verts = s.verts.rotate k) ∧
      s.eq s' = true := by
  have hflat' : ¬ Flat points' := fun h => hflat fun a ha b hb c hc => h a ((hsame a).mp ha) b ((hsame b).mp hb) c ((hsame c).mp hc)
  obtain ⟨s, hs, -, hin, -⟩ := C57_small order hord points hflat h7
  obtain ⟨s', hs', -, hin', -⟩ := C57_small order' hord' points' hflat' h7'
  exact ⟨s, s', hs, hs', C90_same_partial order order' hord hord' points points' hsame hflat hg s s' hs hs' hin hin'⟩

/-- With three points on a line the hull does depend on the order in which a set is iterated over: of the points strictly between
the ends of the bottom edge one is a vertex, whichever comes first, and the polygons are not `==`. -/
theorem C90_collinear_violated : ∃ s s' : Polygon ℚ,
    Hull.convexHull id [⟨0, 0⟩, ⟨4, 0⟩, ⟨1, 0⟩, ⟨3, 0⟩, ⟨2, 3⟩] = .ok s ∧
    Hull.convexHull List.reverse [⟨0, 0⟩, ⟨4, 0⟩, ⟨1, 0⟩, ⟨3, 0⟩, ⟨2, 3⟩] = .ok s' ∧
    (⟨1, 0⟩ ∈ s.verts ∧ ⟨3, 0⟩ ∉ s.verts) ∧ (⟨3, 0⟩ ∈ s'.verts ∧ ⟨1, 0⟩ ∉ s'.verts) ∧ s.eq s' = false := by
  obtain ⟨s, hs, hv⟩ := convexHull_ok (h := [⟨0, 0⟩, ⟨2, 3⟩, ⟨4, 0⟩, (⟨1, 0⟩ : Vec2 ℚ)]) (order := id)
    (points := [⟨0, 0⟩, ⟨4, 0⟩, ⟨1, 0⟩, ⟨3, 0⟩, ⟨2, 3⟩]) (ok_of (by decide +kernel)) (by simp)
  obtain ⟨s', hs', hv'⟩ := convexHull_ok (h := [⟨0, 0⟩, ⟨2, 3⟩, ⟨4, 0⟩, (⟨3, 0⟩ : Vec2 ℚ)]) (order := List.reverse)
    (points := [⟨0, 0⟩, ⟨4, 0⟩, ⟨1, 0⟩, ⟨3, 0⟩, ⟨2, 3⟩]) (ok_of (by decide +kernel)) (by simp)
  refine ⟨s, s', hs, hs', by simp [hv], by simp [hv'], ?_⟩
  rw [Bool.eq_false_iff]
  intro he
  obtain ⟨k, hk⟩ := (C55_distinct s s' (by simp [hv]) (by simp [hv])).mp he
  have hm : (⟨3, 0⟩ : Vec2 ℚ) ∈ s.verts := by
    have h0 : (⟨3, 0⟩ : Vec2 ℚ) ∈ s'.verts := by simp [hv']
    rcases hk with hk | hk <;> rw [hk] at h0 <;> simpa using h0
  simp [hv] at hm

/-- The hypotheses of `C90_small`: five points, no three on a line, in two orders and one of them twice. -/
example : GeneralPosition [⟨0, 0⟩, ⟨4, 1⟩, ⟨2, 2⟩, ⟨3, 5⟩, (⟨1, 6⟩ : Vec2 ℚ)] ∧ ¬ Flat [⟨0, 0⟩, ⟨4, 1⟩, ⟨2, 2⟩, ⟨3, 5⟩, (⟨1, 6⟩ : Vec2 ℚ)] ∧
    ∀ p, p ∈ [⟨0, 0⟩, ⟨4, 1⟩, ⟨2, 2⟩, ⟨3, 5⟩, (⟨1, 6⟩ : Vec2 ℚ)] ↔ p ∈ [⟨1, 6⟩, ⟨4, 1⟩, ⟨1, 6⟩, ⟨2, 2⟩, ⟨0, 0⟩, (⟨3, 5⟩ : Vec2 ℚ)] := by
  refine ⟨?_, ?_, ?_⟩
  · simp only [GeneralPosition, List.mem_cons, List.not_mem_nil, or_false, forall_eq_or_imp, forall_eq, side]
    norm_num
  · intro h
    have := h ⟨0, 0⟩ (by simp) ⟨4, 1⟩ (by simp) ⟨2, 2⟩ (by simp)
    simp only [side] at this
    norm_num at this
  · intro p
    simp only [List.mem_cons, List.not_mem_nil, or_false]
    tauto

/-- Hypotheses of `C90_same_partial` and `C90_corners_partial` beyond seven points: the thirteen points of a parabola, whose hull is made by sorted
scans, forwards and backwards. -/
example : ∃ s s', Hull.convexHull id parabola = .ok s ∧ Hull.convexHull List.reverse parabola.reverse = .ok s' ∧ ¬ Flat parabola ∧
    GeneralPosition parabola ∧ (∀ p ∈ parabola, InHull s.verts p) ∧ (∀ p ∈ parabola.reverse, InHull s'.verts p) := by
  obtain ⟨s, hs, hv⟩ := convexHull_ok (h := parabola) (order := id) (points := parabola) (ok_of (by decide +kernel)) (by simp [parabola])
  obtain ⟨s', hs', hv'⟩ := convexHull_ok (h := parabola) (order := List.reverse) (points := parabola.reverse)
    (ok_of (by decide +kernel)) (by simp [parabola])
  refine ⟨s, s', hs, hs', ?_, ?_, fun p hp => .vertex p (by rwa [hv]), fun p hp => .vertex p (by rw [hv']; simpa using hp)⟩
  · intro h
    have := h ⟨-6, -36⟩ (by simp [parabola]) ⟨0, 0⟩ (by simp [parabola]) ⟨6, -36⟩ (by simp [parabola])
    simp only [side] at this
    norm_num at this
  · have hpar : ∀ a ∈ parabola, a.y = -(a.x * a.x) := by
      intro a ha
      simp only [parabola, List.mem_cons, List.not_mem_nil, or_false] at ha
      rcases ha with rfl | rfl | rfl | rfl | rfl | rfl | rfl | rfl | rfl | rfl | rfl | rfl | rfl <;> norm_num
    intro a ha b hb c hc h
    simp only [side, hpar a ha, hpar b hb, hpar c hc] at h
    have : (b.x - a.x) * (c.x - a.x) * (b.x - c.x) = 0 := by linarith
    rcases mul_eq_zero.mp this with h1 | h1
    · rcases mul_eq_zero.mp h1 with h2 | h2
      · left; have e : a.x = b.x := by linarith
        ext; exact e; rw [hpar a ha, hpar b hb, e]
      · right; right; have e : a.x = c.x := by linarith
        ext; exact e; rw [hpar a ha, hpar c hc, e]
    · right; left; have e : b.x = c.x := by linarith
      ext; exact e; rw [hpar b hb, hpar c hc, e]

end Planar
