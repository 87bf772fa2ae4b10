import Verif.Props.FloatGrid
import Verif.Spec.Swapped
import Verif.Props.HullExact
import Verif.Props.HullDistinct
import Verif.Props.HullOrder
/- C70, hulls of any number of points of a grid, and C90 for them. -/
set_option linter.unusedSectionVars false
namespace Planar
open Spec Polygon Hull

/-- An order of iteration for the exact values of doubles. -/
noncomputable def exactOrder (order : List (Vec2 Double) → List (Vec2 Double)) (l : List (Vec2 ℚ)) : List (Vec2 ℚ) := by
  classical
  exact if h : ∃ d : List (Vec2 Double), d.map Vec2.exact = l then (order h.choose).map Vec2.exact else l

theorem exactOrder_map (order : List (Vec2 Double) → List (Vec2 Double)) (l : List (Vec2 Double)) :
    exactOrder order (l.map Vec2.exact) = (order l).map Vec2.exact := by
  have h : ∃ d : List (Vec2 Double), d.map Vec2.exact = l.map Vec2.exact := ⟨l, rfl⟩
  have e : h.choose = l := List.map_injective_iff.mpr (fun a b => exact_inj.mp) h.choose_spec
  unfold exactOrder
  rw [dif_pos h, e]

theorem exactOrder_perm {order : List (Vec2 Double) → List (Vec2 Double)} (ho : ∀ l, (order l).Perm l) (l : List (Vec2 ℚ)) :
    (exactOrder order l).Perm l := by
  unfold exactOrder
  split
  · rename_i h
    have := (ho h.choose).map Vec2.exact
    rwa [h.choose_spec] at this
  · exact .refl _

/-- The hull in double precision and the exact one. -/
theorem hull_exact (e : ℤ) (he1 : -255 ≤ e) (he2 : e ≤ 242) (order : List (Vec2 Double) → List (Vec2 Double))
    (hp : ∀ l, (order l).Perm l) (points : List (Vec2 Double)) (h : ∀ v ∈ points, GridPoint e (2 ^ 11) v) (s : Polygon Double)
    (hs : Hull.convexHull order points = .ok s) :
    ∃ t, Hull.convexHull (exactOrder order) (points.map Vec2.exact) = .ok t ∧ t.verts = s.verts.map Vec2.exact := by
  have hh := C70_hull e he1 he2 order (exactOrder order) hp (exactOrder_map order) points h
  rw [hs] at hh
  cases ht : Hull.convexHull (exactOrder order) (points.map Vec2.exact) with
  | error err => rw [ht] at hh; cases hh
  | ok t =>
    rw [ht] at hh
    exact ⟨t, rfl, by simpa [Except.map] using hh⟩

/-- **C70** the hull, computed in double precision, of any number of points of the grid that are not on a line, whatever the
order in which sets are iterated over: it exists, its vertices are among the points and different, and it is convex and
clockwise. All points are in it if and only if none is on the left of an edge (without rounding it is the same: `C57_exact_partial`). -/
theorem C70_hull_convex (e : ℤ) (he1 : -255 ≤ e) (he2 : e ≤ 242) (order : List (Vec2 Double) → List (Vec2 Double))
    (hp : ∀ l, (order l).Perm l) (points : List (Vec2 Double)) (h : ∀ v ∈ points, GridPoint e (2 ^ 11) v)
    (hflat : ¬ Flat (points.map Vec2.exact)) :
    ∃ s, Hull.convexHull order points = .ok s ∧ (∀ v ∈ s.verts, v ∈ points) ∧ s.verts.Nodup ∧
      Convex (s.verts.map Vec2.exact) ∧ Clockwise (s.verts.map Vec2.exact) ∧ ¬ Flat (s.verts.map Vec2.exact) ∧
      ((∀ p ∈ points, InHull (s.verts.map Vec2.exact) p.exact) ↔
        ∀ e ∈ edges (s.verts.map Vec2.exact), ∀ p ∈ points, side e.1 e.2 p.exact ≤ 0) := by
  have hp' := exactOrder_perm hp
  obtain ⟨t, ht⟩ := C57_total (exactOrder order) hp' (points.map Vec2.exact) hflat
  have hh := C70_hull e he1 he2 order (exactOrder order) hp (exactOrder_map order) points h
  rw [ht] at hh
  cases hs : Hull.convexHull order points with
  | error err => rw [hs] at hh; cases hh
  | ok s =>
    rw [hs] at hh
    have hv : t.verts = s.verts.map Vec2.exact := by simpa [Except.map] using hh
    obtain ⟨c1, c2, c3⟩ := C57_convex _ hp' _ hflat t ht
    have hsub := C57_vertices _ hp' _ t ht
    have hx : ∃ a ∈ points.map Vec2.exact, ∃ b ∈ points.map Vec2.exact, a.x ≠ b.x := by
      by_contra hcon
      push Not at hcon
      apply hflat
      intro a ha b hb c hc
      simp only [side]
      rw [hcon a ha b hb, hcon c hc b hb]; ring
    have hnd := C57_nodup _ hp' _ hx t ht
    have hex := (C57_exact_partial _ hp' _ hflat t ht).2
    rw [hv] at c1 c2 c3 hsub hnd hex
    refine ⟨s, rfl, ?_, hnd.of_map _, c2, c1, c3, ?_⟩
    · intro v hvs
      obtain ⟨w, hw, hew⟩ := List.mem_map.mp (hsub v.exact (List.mem_map_of_mem hvs))
      rw [← exact_inj.mp hew]; exact hw
    · simpa only [List.forall_mem_map] using hex

/-- **C90** in double precision: two hulls of the same points of the grid, no three on a line, that have lost none of them have the
same vertices in the same cyclic order. -/
theorem C90_doubles_partial (e : ℤ) (he1 : -255 ≤ e) (he2 : e ≤ 242) (order order' : List (Vec2 Double) → List (Vec2 Double))
    (hp : ∀ l, (order l).Perm l) (hp' : ∀ l, (order' l).Perm l) (points points' : List (Vec2 Double))
    (h : ∀ v ∈ points, GridPoint e (2 ^ 11) v) (hsame : ∀ p, p ∈ points ↔ p ∈ points')
    (hflat : ¬ Flat (points.map Vec2.exact)) (hg : GeneralPosition (points.map Vec2.exact)) (s s' : Polygon Double)
    (hs : Hull.convexHull order points = .ok s) (hs' : Hull.convexHull order' points' = .ok s')
    (hin : ∀ p ∈ points, InHull (s.verts.map Vec2.exact) p.exact)
    (hin' : ∀ p ∈ points', InHull (s'.verts.map Vec2.exact) p.exact) : ∃ k, s'.verts = s.verts.rotate k := by
  obtain ⟨t, ht, hv⟩ := hull_exact e he1 he2 order hp points h s hs
  obtain ⟨t', ht', hv'⟩ := hull_exact e he1 he2 order' hp' points' (fun v hv => h v ((hsame v).mpr hv)) s' hs'
  have hsame' : ∀ p, p ∈ points.map Vec2.exact ↔ p ∈ points'.map Vec2.exact := by
    intro p
    simp only [List.mem_map]
    exact exists_congr fun a => and_congr_left fun _ => hsame a
  obtain ⟨⟨k, hk⟩, -⟩ := C90_same_partial _ _ (exactOrder_perm hp) (exactOrder_perm hp') _ _ hsame' hflat hg t t' ht ht'
    (by rw [hv]; simpa only [List.forall_mem_map] using hin) (by rw [hv']; simpa only [List.forall_mem_map] using hin')
  have hinj : Function.Injective (List.map (Vec2.exact : Vec2 Double → Vec2 ℚ)) :=
    List.map_injective_iff.mpr fun a b => exact_inj.mp
  refine ⟨k, hinj ?_⟩
  rw [← hv', hk, hv, List.map_rotate]

/-- Eight of the points of `C57_violated` times twenty. -/
def lossyD : List (ℤ × ℤ) := [(0, 0), (200, -2000), (100, -400), (2, 20), (10, 40), (4, 30), (40, 20), (1, 12)]

theorem dvec_int {m n : ℤ} (hm : |m| ≤ 2 ^ 53) (hn : |n| ≤ 2 ^ 53) : (dvec m n).exact = ⟨m, n⟩ := by
  have h1 := double_float m 0 (by norm_num) (by norm_num) hm
  have h2 := double_float n 0 (by norm_num) (by norm_num) hn
  rw [zpow_zero, mul_one] at h1 h2
  exact Vec2.ext h1 h2

theorem lossyD_small : ∀ q ∈ lossyD, |q.1| ≤ 2 ^ 11 ∧ |q.2| ≤ 2 ^ 11 := by
  simp [lossyD]

theorem lossyD_exact : (lossyD.map fun q => dvec q.1 q.2).map Vec2.exact = lossyD.map fun q => (⟨q.1, q.2⟩ : Vec2 ℚ) := by
  rw [List.map_map]
  apply List.map_congr_left
  intro q hq
  obtain ⟨h1, h2⟩ := lossyD_small q hq
  exact dvec_int (h1.trans (by norm_num)) (h2.trans (by norm_num))

theorem lossyD_grid : ∀ v ∈ lossyD.map fun q => dvec q.1 q.2, GridPoint 0 (2 ^ 11) v := by
  intro v hv
  obtain ⟨q, hq, rfl⟩ := List.mem_map.mp hv
  obtain ⟨h1, h2⟩ := lossyD_small q hq
  have := gridPoint_dvec (e := 0) (by norm_num) (by norm_num) h1 h2 (by norm_num)
  rwa [zpow_zero, mul_one, mul_one] at this

theorem lossyD_not_flat : ¬ Flat ((lossyD.map fun q => dvec q.1 q.2).map Vec2.exact) := by
  rw [lossyD_exact]
  intro h
  have := h ⟨0, 0⟩ (by simp [lossyD]) ⟨200, -2000⟩ (by simp [lossyD]) ⟨100, -400⟩ (by simp [lossyD])
  simp only [side] at this
  norm_num at this

/-- **C57** fails with floating point numbers too: eight points with whole coordinates below 2048, in double precision, of which
one is strictly outside the hull (with seven points this is impossible, `C70_small_hull`). They meet the hypotheses of `C70_hull_convex`. -/
theorem C57_doubles_violated : (∀ v ∈ lossyD.map fun q => dvec q.1 q.2, GridPoint 0 (2 ^ 11) v) ∧
    ¬ Flat ((lossyD.map fun q => dvec q.1 q.2).map Vec2.exact) ∧
    ∃ s, Hull.convexHull id (lossyD.map fun q => dvec q.1 q.2) = .ok s ∧
      ∃ p ∈ lossyD.map fun q => dvec q.1 q.2, ¬ InHull (s.verts.map Vec2.exact) p.exact := by
  refine ⟨lossyD_grid, lossyD_not_flat, ?_⟩
  obtain ⟨s, hs, -, -, -, -, -, hiff⟩ := C70_hull_convex 0 (by norm_num) (by norm_num) id (fun l => .refl l) _ lossyD_grid lossyD_not_flat
  refine ⟨s, hs, ?_⟩
  by_contra hcon
  push Not at hcon
  have hall := hiff.mp hcon
  have hh := C70_hull 0 (by norm_num) (by norm_num) id id (fun l => .refl l) (fun l => rfl) _ lossyD_grid
  rw [hs, lossyD_exact] at hh
  obtain ⟨t, ht, hv⟩ := convexHull_ok (order := id) (points := lossyD.map fun q => (⟨q.1, q.2⟩ : Vec2 ℚ))
    (h := [⟨0, 0⟩, ⟨1, 12⟩, ⟨40, 20⟩, ⟨100, -400⟩, ⟨200, -2000⟩]) (ok_of (by decide +kernel)) (by simp)
  rw [ht] at hh
  have hv' : t.verts = s.verts.map Vec2.exact := by simpa [Except.map] using hh
  rw [← hv', hv] at hall
  have := hall (⟨1, 12⟩, ⟨40, 20⟩) (by simp [edges]) (dvec ((10 : ℤ) : ℚ) ((40 : ℤ) : ℚ)) (List.mem_map.mpr ⟨(10, 40), by simp [lossyD], rfl⟩)
  rw [dvec_int (by norm_num) (by norm_num)] at this
  simp only [side] at this
  norm_num at this

def fiveD : List (ℤ × ℤ) := [(0, 0), (4, 1), (2, 2), (3, 5), (1, 6)]

theorem fiveD_ok : ∃ P : List (Vec2 Double), P.length = 5 ∧ P.map Vec2.exact = fiveD.map (fun q => (⟨q.1, q.2⟩ : Vec2 ℚ)) ∧
    ∀ v ∈ P, GridPoint 0 (2 ^ 11) v := by
  have small : ∀ q ∈ fiveD, |q.1| ≤ 2 ^ 11 ∧ |q.2| ≤ 2 ^ 11 := by simp [fiveD]
  refine ⟨fiveD.map fun q => dvec q.1 q.2, by rw [List.length_map]; rfl, ?_, ?_⟩
  · rw [List.map_map]
    apply List.map_congr_left
    intro q hq
    obtain ⟨h1, h2⟩ := small q hq
    exact dvec_int (h1.trans (by norm_num)) (h2.trans (by norm_num))
  · intro v hv
    obtain ⟨q, hq, rfl⟩ := List.mem_map.mp hv
    obtain ⟨h1, h2⟩ := small q hq
    have := gridPoint_dvec (e := 0) (by norm_num) (by norm_num) h1 h2 (by norm_num)
    rwa [zpow_zero, mul_one, mul_one] at this

/-- The hypotheses of `C90_doubles_partial` for five points forwards and backwards. -/
example : ∃ (P : List (Vec2 Double)) (s s' : Polygon Double), P.map Vec2.exact = fiveD.map (fun q => (⟨q.1, q.2⟩ : Vec2 ℚ)) ∧
    Hull.convexHull id P = .ok s ∧ Hull.convexHull id P.reverse = .ok s' ∧ (∀ v ∈ P, GridPoint 0 (2 ^ 11) v) ∧
    ¬ Flat (P.map Vec2.exact) ∧ GeneralPosition (P.map Vec2.exact) ∧
    (∀ p ∈ P, InHull (s.verts.map Vec2.exact) p.exact) ∧ (∀ p ∈ P.reverse, InHull (s'.verts.map Vec2.exact) p.exact) := by
  obtain ⟨P, hl, hex, hgrid⟩ := fiveD_ok
  have hfl : ¬ Flat (P.map Vec2.exact) := by
    rw [hex]
    intro h
    have := h ⟨0, 0⟩ (by simp [fiveD]) ⟨4, 1⟩ (by simp [fiveD]) ⟨2, 2⟩ (by simp [fiveD])
    simp only [side] at this
    norm_num at this
  obtain ⟨s, hs, -, hin, -⟩ := C70_small_hull 0 (by norm_num) (by norm_num) P hgrid hfl (by omega)
  obtain ⟨s', hs', -, hin', -⟩ := C70_small_hull 0 (by norm_num) (by norm_num) P.reverse
    (fun v hv => hgrid v (List.mem_reverse.mp hv)) (by
      intro h
      apply hfl
      intro a ha b hb c hc
      rw [List.map_reverse] at h
      exact h a (List.mem_reverse.mpr ha) b (List.mem_reverse.mpr hb) c (List.mem_reverse.mpr hc)) (by simp; omega)
  refine ⟨P, s, s', hex, hs, hs', hgrid, hfl, ?_, hin, hin'⟩
  rw [hex]
  simp only [fiveD, List.map_cons, List.map_nil, GeneralPosition, List.mem_cons, List.not_mem_nil, or_false, forall_eq_or_imp, forall_eq, side]
  norm_num

end Planar
