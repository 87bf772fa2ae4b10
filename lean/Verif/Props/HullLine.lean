import Verif.Props.Hull
/- C57: `convex_hull` of points on one line. -/
set_option linter.unusedSectionVars false
namespace Planar
open Spec Hull
variable {K : Type} [Field K] [LinearOrder K] [IsStrictOrderedRing K]

theorem quickHull_flat {order : List (Vec2 K) → List (Vec2 K)} (hord : ∀ l, (order l).Perm l) (p : Vec2 K)
    (rest : List (Vec2 K)) (hf : Flat (p :: rest)) :
    let L := (extremes p (p :: rest)).1
    let R := (extremes p (p :: rest)).2
    ((∀ q ∈ p :: rest, q = L ∨ q = R) → quickHull order (p :: rest) = .ok [L, R]) ∧
    ((∃ q ∈ p :: rest, q ≠ L ∧ q ≠ R) → ∃ P ∈ p :: rest, P ≠ L ∧ P ≠ R ∧ quickHull order (p :: rest) = .ok [L, R, P]) := by
  intro L R
  obtain ⟨hL, hR, -⟩ := extremes_spec p rest
  have hz : ∀ q ∈ p :: rest, (R.x - L.x) * (q.y - L.y) - (q.x - L.x) * (R.y - L.y) = 0 := by
    intro q hq
    have := hf L hL R hR q hq
    simp only [side] at this
    linear_combination this
  have hup : ∀ q ∈ p :: rest, decide ((R.x - L.x) * (q.y - L.y) - (q.x - L.x) * (R.y - L.y) > 0) = false := by
    intro q hq; rw [hz q hq]; simp
  have e1 : (p :: rest).filter (fun q => decide ((R.x - L.x) * (q.y - L.y) - (q.x - L.x) * (R.y - L.y) > 0)) = [] := by
    rw [List.filter_eq_nil_iff]
    intro q hq; rw [hup q hq]; simp
  have e2 : (p :: rest).filter (fun q => !decide ((R.x - L.x) * (q.y - L.y) - (q.x - L.x) * (R.y - L.y) > 0)) = p :: rest := by
    rw [List.filter_eq_self]
    intro q hq; rw [hup q hq]; rfl
  have hupper : Hull.pySet order [] [L, R] = [] := by
    apply List.eq_nil_iff_forall_not_mem.mpr
    intro v hv
    rw [mem_pySet hord] at hv
    simp at hv
  have hq : quickHull order (p :: rest) =
      (if (Hull.pySet order (p :: rest) [L, R]).isEmpty then .ok [R] else partitionPoints (Hull.pySet order (p :: rest) [L, R]) R L).map
        (fun h => L :: h) := by
    unfold quickHull
    simp only [show (extremes p (p :: rest)).1 = L from rfl, show (extremes p (p :: rest)).2 = R from rfl]
    rw [e1, e2, hupper]
    simp only [List.isEmpty_nil, if_true, bind, Except.bind, pure, Except.pure]
    by_cases he : (Hull.pySet order (p :: rest) [L, R]).isEmpty = true
    · simp only [he, if_true]; rfl
    · simp only [he, if_false]
      cases partitionPoints (Hull.pySet order (p :: rest) [L, R]) R L <;> rfl
  have hm : ∀ v, v ∈ Hull.pySet order (p :: rest) [L, R] ↔ v ∈ p :: rest ∧ v ≠ L ∧ v ≠ R := by
    intro v; rw [mem_pySet hord]; simp
  rw [hq]
  constructor
  · intro h
    have : Hull.pySet order (p :: rest) [L, R] = [] := by
      apply List.eq_nil_iff_forall_not_mem.mpr
      intro v hv
      obtain ⟨h1, h2, h3⟩ := (hm v).mp hv
      exact (h v h1).elim h2 h3
    rw [this]; rfl
  · rintro ⟨q, hq1, hq2⟩
    have hne : Hull.pySet order (p :: rest) [L, R] ≠ [] := List.ne_nil_of_mem ((hm q).mpr ⟨hq1, hq2⟩)
    have hs : ∀ v ∈ Hull.pySet order (p :: rest) [L, R], side R L v = 0 := fun v hv => hf R hR L hL v ((hm v).mp hv).1
    generalize Hull.pySet order (p :: rest) [L, R] = l at *
    obtain ⟨P, hP, hPf, -⟩ := furthest_spec hne (fun v hv => (hs v hv).ge)
    obtain ⟨h1, h2, h3⟩ := (hm P).mp hP
    refine ⟨P, h1, h2, h3, ?_⟩
    have : l.isEmpty = false := by simpa using hne
    rw [this]
    simp only [Bool.false_eq_true, if_false]
    unfold partitionPoints
    rw [hPf]
    have hc : P.copy = P := Vec2.copy_eq P
    simp only [hc, splitPoints_zero l (hs P hP), List.length_nil, Nat.zero_le, if_true, bind, Except.bind, pure,
      Except.pure]
    rfl

/-- **C57** points on one line that is not vertical, at least three of them distinct: the hull is a (degenerate) triangle
of three of the points, and every point is in it. -/
theorem C57_line (order : List (Vec2 K) → List (Vec2 K)) (hord : ∀ l, (order l).Perm l) (points : List (Vec2 K))
    (hf : Flat points) (hx : ∃ a ∈ points, ∃ b ∈ points, a.x ≠ b.x)
    (h3 : ∃ a ∈ points, ∃ b ∈ points, ∃ c ∈ points, a ≠ b ∧ a ≠ c ∧ b ≠ c) :
    ∃ s, convexHull order points = .ok s ∧ s.verts.length = 3 ∧ (∀ v ∈ s.verts, v ∈ points) ∧
      ∀ p ∈ points, InHull s.verts p := by
  rcases points with _ | ⟨p, rest⟩
  · simp at hx
  obtain ⟨-, hq⟩ := quickHull_flat hord p rest hf
  obtain ⟨hL, hR, hLR⟩ := extremes_spec p rest
  generalize (extremes p (p :: rest)).1 = L at *
  generalize (extremes p (p :: rest)).2 = R at *
  obtain ⟨P, hP, -, -, hq⟩ := hq (by
    obtain ⟨a, ha, b, hb, c, hc, h1, h2, h3⟩ := h3
    by_contra hn
    push Not at hn
    have ea := hn a ha
    have eb := hn b hb
    have ec := hn c hc
    by_cases e1 : a = L
    · have hb' := eb (fun h => h1 (e1.trans h.symm))
      have hc' := ec (fun h => h2 (e1.trans h.symm))
      exact h3 (hb'.trans hc'.symm)
    · have ea' := ea e1
      by_cases e2 : b = L
      · have hc' := ec (fun h => h3 (e2.trans h.symm))
        exact h2 (ea'.trans hc'.symm)
      · exact h1 (ea'.trans (eb e2).symm))
  obtain ⟨s, hs, hv⟩ := convexHull_ok hq (by simp)
  refine ⟨s, hs, by rw [hv]; rfl, ?_, ?_⟩
  · rw [hv]; intro v hv
    simp only [List.mem_cons, List.not_mem_nil, or_false] at hv
    rcases hv with rfl | rfl | rfl <;> assumption
  · intro r hr
    rw [hv]
    have hlt : L.x < R.x := by
      obtain ⟨a, ha, b, hb, hab⟩ := hx
      have h1 := hLR a ha
      have h2 := hLR b hb
      by_contra hge
      push Not at hge
      exact hab (by linarith)
    have hd : R.x - L.x ≠ 0 := (sub_pos.mpr hlt).ne'
    obtain ⟨h1, h2⟩ := hLR r hr
    refine inHull_between (t := (r.x - L.x) / (R.x - L.x)) (.vertex L (by simp)) (.vertex R (by simp))
      (div_nonneg (by linarith) (by linarith)) ?_ ?_ ?_
    · rw [div_le_one (sub_pos.mpr hlt)]; linarith
    · field_simp; ring
    · have := hf L hL R hR r hr
      simp only [side] at this
      field_simp
      linear_combination this

/-- **C57** no points raise IndexError, a single one (however often) or two that are not above each other ValueError. -/
theorem C57_few (order : List (Vec2 K) → List (Vec2 K)) (hord : ∀ l, (order l).Perm l) (points : List (Vec2 K))
    (a b : Vec2 K) (h : ∀ p ∈ points, p = a ∨ p = b) (hx : a = b ∨ a.x ≠ b.x) :
    convexHull order points = .error (if points.isEmpty then .indexError else .valueError) := by
  rcases points with _ | ⟨p, rest⟩
  · rfl
  have hf : Flat (p :: rest) := by
    intro u hu v hv w hw
    rcases h u hu with rfl | rfl <;> rcases h v hv with rfl | rfl <;> rcases h w hw with rfl | rfl <;>
      simp only [side] <;> ring
  obtain ⟨hq, -⟩ := quickHull_flat hord p rest hf
  obtain ⟨hL, hR, hLR⟩ := extremes_spec p rest
  have hq := hq (by
    clear hq
    intro q hq
    have h1 := hLR q hq
    generalize (extremes p (p :: rest)).1 = L at *
    generalize (extremes p (p :: rest)).2 = R at *
    rcases hx with hx | hx
    · subst hx
      have e1 : q = a := (h q hq).elim id id
      have e2 : L = a := (h L hL).elim id id
      exact Or.inl (e1.trans e2.symm)
    · by_contra hn
      push Not at hn
      have e : L = R := by
        rcases h q hq with e | e <;> rcases h L hL with eL | eL <;> rcases h R hR with eR | eR
        all_goals first | exact eL.trans eR.symm | exact absurd (e.trans eL.symm) hn.1 | exact absurd (e.trans eR.symm) hn.2
      subst e
      have ex : q.x = L.x := le_antisymm h1.2 h1.1
      rcases h q hq with e | e <;> rcases h L hL with eL | eL
      · exact hn.1 (e.trans eL.symm)
      · exact hx (by rw [← e, ← eL, ex])
      · exact hx (by rw [← e, ← eL, ex])
      · exact hn.1 (e.trans eL.symm))
  unfold Hull.convexHull
  rw [hq]
  simp only [bind, Except.bind]
  rw [(C43_new _ (some true) none).1 (by simp)]
  rfl

/-- **C57** points on a vertical line lose the property: whatever the points, of two or more that are above each other
only the first of the sequence and one other (whichever comes first when Python iterates the set) become vertices. -/
theorem C57_vertical (order : List (Vec2 K) → List (Vec2 K)) (hord : ∀ l, (order l).Perm l) (p : Vec2 K)
    (rest : List (Vec2 K)) (hx : ∀ q ∈ rest, q.x = p.x) (hne : ∃ q ∈ rest, q ≠ p) :
    ∃ s, convexHull order (p :: rest) = .ok s ∧ ∃ q ∈ rest, q ≠ p ∧ s.verts = [p, p, q] := by
  have hall : ∀ q ∈ p :: rest, q.x = p.x := by
    intro q hq
    rcases List.mem_cons.mp hq with rfl | hq
    exacts [rfl, hx q hq]
  have hf : Flat (p :: rest) := by
    intro u hu v hv w hw
    simp only [side, hall u hu, hall v hv, hall w hw]; ring
  have hext : extremes p (p :: rest) = (p, p) := by
    have : ∀ l : List (Vec2 K), (∀ q ∈ l, q.x = p.x) → extremes p l = (p, p) := by
      intro l
      unfold extremes
      induction l with
      | nil => intro _; rfl
      | cons q l ih =>
        intro h
        rw [List.foldl_cons]
        simp only [h q (by simp), lt_irrefl, gt_iff_lt, if_false]
        exact ih fun q hq => h q (by simp [hq])
    exact this _ hall
  obtain ⟨-, hq⟩ := quickHull_flat hord p rest hf
  rw [hext] at hq
  obtain ⟨q, hq1, hq2, -, hq3⟩ := hq (by
    obtain ⟨q, h1, h2⟩ := hne
    exact ⟨q, by simp [h1], h2, h2⟩)
  obtain ⟨s, hs, hv⟩ := convexHull_ok hq3 (by simp)
  refine ⟨s, hs, q, ?_, hq2, hv⟩
  rcases List.mem_cons.mp hq1 with h | h
  exacts [absurd h hq2, h]

/-- **C57** so a point is lost whenever there are points above and below the first one. -/
theorem C57_vertical_violated (order : List (Vec2 K) → List (Vec2 K)) (hord : ∀ l, (order l).Perm l) (p : Vec2 K)
    (rest : List (Vec2 K)) (hx : ∀ q ∈ rest, q.x = p.x) (hlo : ∃ q ∈ rest, q.y < p.y) (hhi : ∃ q ∈ rest, p.y < q.y) :
    ∃ s, convexHull order (p :: rest) = .ok s ∧ ∃ r ∈ rest, ¬ InHull s.verts r := by
  obtain ⟨a, ha, ha'⟩ := hlo
  obtain ⟨b, hb, hb'⟩ := hhi
  obtain ⟨s, hs, q, hq, hqp, hv⟩ := C57_vertical order hord p rest hx ⟨a, ha, fun h => by rw [h] at ha'; exact lt_irrefl _ ha'⟩
  refine ⟨s, hs, ?_⟩
  rw [hv]
  rcases le_total q.y p.y with h | h
  · refine ⟨b, hb, fun hin => ?_⟩
    have := inHull_halfplane hin (a := 0) (b := 1) (c := p.y) (by
      intro v hv
      simp only [List.mem_cons, List.not_mem_nil, or_false] at hv
      rcases hv with rfl | rfl | rfl <;> linarith)
    linarith
  · refine ⟨a, ha, fun hin => ?_⟩
    have := inHull_halfplane hin (a := 0) (b := -1) (c := -p.y) (by
      intro v hv
      simp only [List.mem_cons, List.not_mem_nil, or_false] at hv
      rcases hv with rfl | rfl | rfl <;> linarith)
    linarith

private instance : DecidableEq (Vec2 ℚ) := fun a b => decidable_of_iff (a.x = b.x ∧ a.y = b.y) Vec2.ext_iff.symm

/-- Points as in `C57_line`, in `C57_few` and in `C57_vertical_violated`. -/
example : let l : List (Vec2 ℚ) := [⟨1, 1⟩, ⟨0, 0⟩, ⟨3, 3⟩, ⟨2, 2⟩]
    Flat l ∧ (match convexHull id l with | .ok s => decide (s.verts = [⟨0, 0⟩, ⟨3, 3⟩, ⟨1, 1⟩]) | .error _ => false) = true ∧
    convexHull id [⟨1, 1⟩, ⟨0, 0⟩, (⟨1, 1⟩ : Vec2 ℚ)] = .error .valueError ∧
    (match convexHull id [⟨0, 1⟩, ⟨0, 0⟩, (⟨0, 3⟩ : Vec2 ℚ)] with
      | .ok s => decide (s.verts = [⟨0, 1⟩, ⟨0, 1⟩, ⟨0, 0⟩]) | .error _ => false) = true := by
  refine ⟨?_, by decide +kernel, C57_few id (fun _ => .rfl) _ ⟨1, 1⟩ ⟨0, 0⟩ (by simp) (Or.inr (by norm_num)), by decide +kernel⟩
  intro a ha b hb c hc
  simp only [List.mem_cons, List.not_mem_nil, or_false] at ha hb hc
  rcases ha with rfl | rfl | rfl | rfl <;> rcases hb with rfl | rfl | rfl | rfl <;> rcases hc with rfl | rfl | rfl | rfl <;>
    norm_num [side]

end Planar
