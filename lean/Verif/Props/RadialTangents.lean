import Verif.Props.RadialShape
import Verif.Props.Tangents
/- Property C58: tangents of regular polygons. -/
set_option linter.unusedSectionVars false
namespace Planar
open Spec
open Polygon

variable {c : Vec2 ℝ} {ρ : ℕ → ℝ} {a s : ℝ} {L : List (Vec2 ℝ)}

/-- Two lines that are not parallel meet in one point. -/
theorem meet_unique {K : Type} [Field K] {A B C p : Vec2 K} (h1 : side A B p = 0) (h2 : side B C p = 0) (h : side A B C ≠ 0) : p = B := by
  have e1 : (p.x - B.x) * side A B C = 0 := by
    unfold side at *; linear_combination (C.x - B.x) * h1 - (B.x - A.x) * h2
  have e2 : (p.y - B.y) * side A B C = 0 := by
    unfold side at *; linear_combination (C.y - B.y) * h1 - (B.y - A.y) * h2
  apply Vec2.ext
  · exact sub_eq_zero.mp ((mul_eq_zero.mp e1).resolve_right h)
  · exact sub_eq_zero.mp ((mul_eq_zero.mp e2).resolve_right h)

/-- Neighbouring edges of a radial polygon with equal radii are not parallel. -/
theorem IsRadial.turns (h : IsRadial c ρ a s L) {r : ℝ} (hr : ∀ i < L.length, ρ i = r) (hr0 : 0 < r) (hs : 0 < s) (hs' : s < 180)
    (e f : Vec2 ℝ × Vec2 ℝ) (he : e ∈ edges L) (hf : f ∈ edges L) (hef : e.2 = f.1) : side e.1 e.2 f.2 ≠ 0 := by
  obtain ⟨i, hi, he⟩ := List.getElem_of_mem he
  obtain ⟨j, hj, hf⟩ := List.getElem_of_mem hf
  rw [edges_length] at hi hj
  have hL : 0 < L.length := by omega
  have he' := h.edge_at i hi
  have hf' := h.edge_at j hj
  rw [List.getElem?_eq_getElem (by rwa [edges_length]), he, Option.some.injEq, hr _ (Nat.mod_lt _ hL), hr i hi] at he'
  rw [List.getElem?_eq_getElem (by rwa [edges_length]), hf, Option.some.injEq, hr _ (Nat.mod_lt _ hL), hr j hj] at hf'
  subst he'
  subst hf'
  simp only at hef ⊢
  have h1 := congrArg Vec2.x hef
  have h2 := congrArg Vec2.y hef
  simp only [circ] at h1 h2
  have e1 : cosDeg (a + i * s) = cosDeg (a + j * s - s) := mul_left_cancel₀ hr0.ne' (by linarith)
  have e2 : sinDeg (a + i * s) = sinDeg (a + j * s - s) := mul_left_cancel₀ hr0.ne' (by linarith)
  have e3 : circ c r (a + j * s) = circ c r (a + i * s + s) := by
    unfold circ
    rw [show a + j * s = (a + j * s - s) + s by ring, cosDeg_add, sinDeg_add, ← e1, ← e2, cosDeg_add (a + i * s), sinDeg_add (a + i * s)]
  rw [e3]
  have := circ_triangle c r (a + i * s) (s / 2) (s / 2)
  rw [show a + i * s - 2 * (s / 2) = a + i * s - s by ring, show a + i * s + 2 * (s / 2) = a + i * s + s by ring,
    show s / 2 + s / 2 = s by ring] at this
  rw [this]
  have g1 := sinDeg_pos (θ := s / 2) (by linarith) (by linarith)
  have g2 := sinDeg_pos hs hs'
  positivity

/-- **C58** regular polygons with any number of vertices, seen from a point outside: the left result is the left tangent
vertex; the right result is the right tangent vertex for up to 20 vertices, or if the point is on the line of no edge with
all vertices on its left as seen from the point. (Partial: the last condition.) -/
theorem C58_regular_partial (n : ℕ) (hn : 3 ≤ n) (r : ℝ) (hr : r ≠ 0) (c : Vec2 ℝ) (a : ℝ) (s : Polygon ℝ)
    (h : Polygon.regular (n : ℤ) r c a = .ok s) (p : Vec2 ℝ) (hp : ¬ InHull s.verts p) :
    ∃ l m, (s.tangentsToPoint p).1 = .ok (l, m) ∧ LeftTangent s.verts p l ∧
      ((n ≤ 20 ∨ ∀ e ∈ edges s.verts, side e.1 e.2 p = 0 → ∃ v ∈ s.verts, side p e.1 v < 0) → RightTangent s.verts p m) := by
  obtain ⟨s', hs, hc1, -, hcv, -, hnd⟩ := C59_regular_shape n hn r hr c a
  rw [h] at hs
  injection hs with hs
  subst hs
  obtain ⟨s', q, hs, hq, he, hv⟩ := regular_eq n (by omega) r c a
  rw [h] at hs
  injection hs with hs
  subst hs
  have hsv : s.verts = regularVerts (360 / (n : ℝ)) r c n a := by rw [he]; exact hv
  have hR := regular_radial n (by omega) r c a
  have hl : (regularVerts (360 / (n : ℝ)) r c n a).length = n := regularVerts_length _ _ _ _ _
  have hn' : (3 : ℝ) ≤ n := by exact_mod_cast hn
  have hs0 : (0 : ℝ) < 360 / n := by positivity
  have hs1 : (360 : ℝ) / n < 180 := by rw [div_lt_iff₀ (by linarith)]; linarith
  have hturn : ∀ e ∈ edges s.verts, ∀ f ∈ edges s.verts, e.2 = f.1 → side e.1 e.2 f.2 ≠ 0 := by
    rw [hsv]
    intro e he f hf hef
    rcases lt_or_gt_of_ne hr with h0 | h0
    · exact hR.neg.turns (r := -r) (fun _ _ => rfl) (by linarith) hs0 hs1 e f he hf hef
    · exact hR.turns (r := r) (fun _ _ => rfl) h0 hs0 hs1 e f he hf hef
  have hlen : s.verts.length = n := by rw [hsv, hl]
  have hedge : ∀ e ∈ edges s.verts, e.1 ≠ e.2 := by
    intro e he
    intro heq
    obtain ⟨w, hw⟩ := edges_out (edges_mem he).2
    exact hturn e he _ hw rfl (by unfold side; rw [heq]; ring)
  obtain ⟨l, m, e1, h2, h3⟩ := tangents_spec s (by omega) p hp fun _ _ _ => ⟨hcv, hedge⟩
  have hx : ∀ e ∈ edges s.verts, ∀ f ∈ edges s.verts, e.2 = f.1 → side e.1 e.2 p = 0 → side f.1 f.2 p ≠ 0 := by
    intro e he f hf hef h1 h2
    rw [← hef] at h2
    have := meet_unique h1 h2 (hturn e he f hf hef)
    exact hp (this ▸ .vertex _ (edges_mem he).2)
  obtain ⟨k1, k2⟩ := h2 fun _ => hx
  refine ⟨l, m, e1, k1, ?_⟩
  rintro (h20 | hcond)
  · exact (h3 (by omega)).2
  · exact k2 fun _ => hcond

/-- A polygon with 24 vertices seen from a point to the right of it. -/
example : ∃ s l m, Polygon.regular 24 (1 : ℝ) ⟨0, 0⟩ 0 = .ok s ∧ ¬ InHull s.verts ⟨5, 0⟩ ∧
    (s.tangentsToPoint ⟨5, 0⟩).1 = .ok (l, m) ∧ LeftTangent s.verts ⟨5, 0⟩ l := by
  obtain ⟨s, hs, -, hv, -⟩ := C59_regular 24 (by norm_num) 1 ⟨0, 0⟩ 0
  have hb : ∀ q, InHull s.verts q → q.x ≤ 1 := by
    intro q hq
    induction hq with
    | vertex v h =>
      obtain ⟨k, hk, rfl⟩ := List.getElem_of_mem h
      rw [(hv k _ (List.getElem?_eq_getElem hk)).1]
      simp only [circ]
      have := cosDeg_le_one (0 + 360 * (k : ℝ) / (24 : ℕ))
      linarith
    | between p q t _ _ h0 h1 h2 h3 => simp only at *; nlinarith
  have hp : ¬ InHull s.verts ⟨5, 0⟩ := fun h => by have := hb _ h; norm_num at this
  obtain ⟨l, m, h1, h2, -⟩ := C58_regular_partial 24 (by norm_num) 1 (by norm_num) ⟨0, 0⟩ 0 s hs _ hp
  exact ⟨s, l, m, hs, hp, h1, h2⟩

end Planar
