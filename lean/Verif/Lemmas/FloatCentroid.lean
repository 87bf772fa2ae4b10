import Verif.Lemmas.FloatUnit
import Verif.Lemmas.Poly
import Verif.Spec.Convex
/- The errors of the centroid in doubles. -/
set_option linter.unusedSectionVars false
namespace Planar
open Spec Polygon

/-! ### real numbers -/

theorem cenProdE {x y x' y' p D u η : ℝ} (hu : 0 ≤ u) (hu' : u ≤ 1 / 1000) (hD : 0 ≤ D) (hx : |x| ≤ D) (hy : |y| ≤ D)
    (h1 : |x' - x| ≤ u * |x|) (h2 : |y' - y| ≤ u * |y|) (hp : |p - x' * y'| ≤ u * |x' * y'| + η) :
    |p - x * y| ≤ 31 / 10 * (u * (D * D)) + η ∧ |x' * y'| ≤ 11 / 10 * (D * D) := by
  have hDD : 0 ≤ D * D := mul_nonneg hD hD
  have uD : u * D ≤ 1 / 1000 * D := mul_le_mul_of_nonneg_right hu' hD
  have uDD : u * (D * D) ≤ 1 / 1000 * (D * D) := mul_le_mul_of_nonneg_right hu' hDD
  have uDD0 : 0 ≤ u * (D * D) := mul_nonneg hu hDD
  have h1' : |x' - x| ≤ u * D := h1.trans (mul_le_mul_of_nonneg_left hx hu)
  have h2' : |y' - y| ≤ u * D := h2.trans (mul_le_mul_of_nonneg_left hy hu)
  have bx : |x'| ≤ 1001 / 1000 * D := by have := abs_sub_abs_le_abs_sub x' x; linarith
  have by' : |y'| ≤ 1001 / 1000 * D := by have := abs_sub_abs_le_abs_sub y' y; linarith
  have b : |x' * y'| ≤ 1001 / 1000 * D * (1001 / 1000 * D) := by
    rw [abs_mul]; exact mul_le_mul bx by' (abs_nonneg _) (by linarith)
  have eb : 1001 / 1000 * D * (1001 / 1000 * D) = 1002001 / 1000000 * (D * D) := by ring
  have d : |x' * y' - x * y| ≤ 1001 / 1000 * D * (u * D) + u * D * D := by
    have e : x' * y' - x * y = x' * (y' - y) + (x' - x) * y := by ring
    rw [e]
    refine (abs_add_le _ _).trans ?_
    rw [abs_mul, abs_mul]
    exact add_le_add (mul_le_mul bx h2' (abs_nonneg _) (by linarith))
      (mul_le_mul h1' hy (abs_nonneg _) (mul_nonneg hu hD))
  have ed : 1001 / 1000 * D * (u * D) + u * D * D = 2001 / 1000 * (u * (D * D)) := by ring
  have k := mul_le_mul_of_nonneg_left b hu
  have ek : u * (1001 / 1000 * D * (1001 / 1000 * D)) = 1002001 / 1000000 * (u * (D * D)) := by ring
  refine ⟨?_, by linarith⟩
  have e : p - x * y = (p - x' * y') + (x' * y' - x * y) := by ring
  rw [e]
  refine (abs_add_le _ _).trans ?_
  linarith

/-- Twice the area of a triangle. -/
theorem cenAreaE {α p q r m n E u η : ℝ} (hu : 0 ≤ u) (hu' : u ≤ 1 / 1000) (hE : 0 ≤ E) (hη : 1000 * η ≤ u * E)
    (hη0 : 0 ≤ η) (hm : |m| ≤ E) (hn : |n| ≤ E) (hα : α = m - n)
    (hp : |p - m| ≤ 31 / 10 * (u * E) + η) (hq : |q - n| ≤ 31 / 10 * (u * E) + η) (hr : |r - (p - q)| ≤ u * |p - q|) :
    |r - α| ≤ 9 * (u * E) ∧ |p - q| ≤ 3 * E := by
  subst hα
  have uE : u * E ≤ 1 / 1000 * E := mul_le_mul_of_nonneg_right hu' hE
  have uE0 : 0 ≤ u * E := mul_nonneg hu hE
  have d : |(p - q) - (m - n)| ≤ 62 / 10 * (u * E) + 2 * η := by
    have e : (p - q) - (m - n) = (p - m) - (q - n) := by ring
    rw [e]
    refine (abs_sub _ _).trans ?_
    linarith
  have b : |p - q| ≤ 202 / 100 * E := by
    have h1 := abs_sub_abs_le_abs_sub (p - q) (m - n)
    have h2 := abs_sub m n
    linarith
  have k := mul_le_mul_of_nonneg_left b hu
  refine ⟨?_, by linarith⟩
  have e : r - (m - n) = (r - (p - q)) + ((p - q) - (m - n)) := by ring
  rw [e]
  refine (abs_add_le _ _).trans ?_
  have ek : u * (202 / 100 * E) = 202 / 100 * (u * E) := by ring
  linarith

/-- The sum of three coordinates. -/
theorem cenSumE {a b c s S M u η : ℝ} (hu : 0 ≤ u) (hu' : u ≤ 1 / 1000) (hM : 0 ≤ M) (hη : 1000 * η ≤ u * M)
    (hη0 : 0 ≤ η) (ha : |a| ≤ M) (hb : |b| ≤ M) (hc : |c| ≤ M) (hs : |s - (a + b)| ≤ u * |a + b| + η)
    (hS : |S - (s + c)| ≤ u * |s + c| + η) : |S - (a + b + c)| ≤ 6 * (u * M) ∧ |s + c| ≤ 4 * M := by
  have uM : u * M ≤ 1 / 1000 * M := mul_le_mul_of_nonneg_right hu' hM
  have uM0 : 0 ≤ u * M := mul_nonneg hu hM
  have b1 : |a + b| ≤ 2 * M := (abs_add_le _ _).trans (by linarith)
  have k1 := mul_le_mul_of_nonneg_left b1 hu
  have d1 : |s - (a + b)| ≤ 21 / 10 * (u * M) := by linarith
  have b2 : |s + c| ≤ 31 / 10 * M := by
    have h1 := abs_sub_abs_le_abs_sub s (a + b)
    have h2 := abs_add_le s c
    linarith
  have k2 := mul_le_mul_of_nonneg_left b2 hu
  refine ⟨?_, by linarith⟩
  have e : S - (a + b + c) = (S - (s + c)) + (s - (a + b)) := by ring
  rw [e]
  refine (abs_add_le _ _).trans ?_
  linarith

/-- One term of the sum. -/
theorem cenTermE {S S' r α t P M E u η : ℝ} (hu : 0 ≤ u) (hu' : u ≤ 1 / 1000) (hM : 0 ≤ M) (hE : 0 ≤ E)
    (hη : 1000 * η ≤ u * (M * E)) (hS : |S| ≤ 3 * M) (hS' : |S' - S| ≤ 6 * (u * M))
    (hr : |r - α| ≤ 9 * (u * E)) (hα : |α| ≤ t) (hP : |P - S' * r| ≤ u * |S' * r| + η) :
    |P - S * α| ≤ 29 * (u * (M * E)) + 10 * (u * (M * t)) ∧ |S' * r| ≤ 4 * (M * t) + 4 * (M * E) := by
  have ht : 0 ≤ t := (abs_nonneg _).trans hα
  have hME : 0 ≤ M * E := mul_nonneg hM hE
  have hMt : 0 ≤ M * t := mul_nonneg hM ht
  have uM : u * M ≤ 1 / 1000 * M := mul_le_mul_of_nonneg_right hu' hM
  have uE : u * E ≤ 1 / 1000 * E := mul_le_mul_of_nonneg_right hu' hE
  have uME : u * (M * E) ≤ 1 / 1000 * (M * E) := mul_le_mul_of_nonneg_right hu' hME
  have uME0 : 0 ≤ u * (M * E) := mul_nonneg hu hME
  have uMt0 : 0 ≤ u * (M * t) := mul_nonneg hu hMt
  have bS : |S'| ≤ 3006 / 1000 * M := by have := abs_sub_abs_le_abs_sub S' S; linarith
  have br : |r| ≤ t + 9 * (u * E) := by have := abs_sub_abs_le_abs_sub r α; linarith
  have d : |S' * r - S * α| ≤ 3006 / 1000 * M * (9 * (u * E)) + 6 * (u * M) * t := by
    have e : S' * r - S * α = S' * (r - α) + (S' - S) * α := by ring
    rw [e]
    refine (abs_add_le _ _).trans ?_
    rw [abs_mul, abs_mul]
    refine add_le_add (mul_le_mul bS hr (abs_nonneg _) (by linarith)) (mul_le_mul hS' hα (abs_nonneg _) ?_)
    have := mul_nonneg hu hM
    linarith
  have ed : 3006 / 1000 * M * (9 * (u * E)) + 6 * (u * M) * t = 27054 / 1000 * (u * (M * E)) + 6 * (u * (M * t)) := by ring
  have b : |S' * r| ≤ 3006 / 1000 * M * (t + 9 * (u * E)) := by
    rw [abs_mul]; exact mul_le_mul bS br (abs_nonneg _) (by linarith)
  have eb : 3006 / 1000 * M * (t + 9 * (u * E)) = 3006 / 1000 * (M * t) + 27054 / 1000 * (u * (M * E)) := by ring
  have k := mul_le_mul_of_nonneg_left (b.trans_eq eb) hu
  have ek : u * (3006 / 1000 * (M * t) + 27054 / 1000 * (u * (M * E))) =
      3006 / 1000 * (u * (M * t)) + 27054 / 1000 * (u * (u * (M * E))) := by ring
  have uu : u * (u * (M * E)) ≤ 1 / 1000 * (u * (M * E)) := mul_le_mul_of_nonneg_right hu' uME0
  refine ⟨?_, by linarith⟩
  have e : P - S * α = (P - S' * r) + (S' * r - S * α) := by ring
  rw [e]
  refine (abs_add_le _ _).trans ?_
  linarith

/-- One step of a sum of many terms. -/
theorem cenAccE {c c' c'' P x G B H u η k : ℝ} (hu : 0 ≤ u) (hu' : u ≤ 1 / 1000) (hB : 0 ≤ B)
    (hG : 0 ≤ G) (hku : k * u ≤ 1 / 1000) (hc : |c' - c| ≤ k * B) (hP : |P - x| ≤ G) (hH : |c + x| ≤ H)
    (hc'' : |c'' - (c' + P)| ≤ u * |c' + P| + η) (hB' : 1001 / 1000 * G + u * H + η ≤ 999 / 1000 * B) :
    |c'' - (c + x)| ≤ (k + 1) * B ∧ |c' + P| ≤ H + k * B + G := by
  have d : |(c' + P) - (c + x)| ≤ k * B + G := by
    have e : (c' + P) - (c + x) = (c' - c) + (P - x) := by ring
    rw [e]
    exact (abs_add_le _ _).trans (add_le_add hc hP)
  have b : |c' + P| ≤ H + k * B + G := by
    have := abs_sub_abs_le_abs_sub (c' + P) (c + x); linarith
  refine ⟨?_, b⟩
  have kk := mul_le_mul_of_nonneg_left b hu
  have ek : u * (H + k * B + G) = u * H + k * u * B + u * G := by ring
  have k1 : k * u * B ≤ 1 / 1000 * B := mul_le_mul_of_nonneg_right hku hB
  have k2 : u * G ≤ 1 / 1000 * G := mul_le_mul_of_nonneg_right hu' hG
  have e : c'' - (c + x) = (c'' - (c' + P)) + ((c' + P) - (c + x)) := by ring
  rw [e]
  refine (abs_add_le _ _).trans ?_
  linarith

/-- The quotient. -/
theorem cenFinE {c c' t t' t3 q M T A z u η : ℝ} (hu : 0 ≤ u) (hz : u ≤ z) (hz' : z ≤ 1 / 1000) (hM : 0 ≤ M) (hA : 0 < A)
    (hAT : A ≤ T) (ht : |t| = A) (hη : 1000 * η ≤ z * A) (hηM : 1000 * η ≤ z * M) (hc : |c| ≤ 3 * (M * T))
    (hc' : |c' - c| ≤ 40 * (z * (M * A))) (ht' : |t' - t| ≤ 12 * (z * A)) (h3 : |t3 - 3 * t'| ≤ u * |3 * t'| + η)
    (hq : |q - c' / t3| ≤ u * |c' / t3| + η) :
    |q - c / (3 * t)| ≤ 32 * (z * (M * (T / A))) ∧ t3 ≠ 0 ∧ |3 * t'| ≤ 4 * A ∧ |c' / t3| ≤ 2 * (M * (T / A)) := by
  have hz0 : 0 ≤ z := hu.trans hz
  have zA : z * A ≤ 1 / 1000 * A := mul_le_mul_of_nonneg_right hz' hA.le
  have zA0 : 0 ≤ z * A := mul_nonneg hz0 hA.le
  have b1 : |3 * t'| ≤ 3036 / 1000 * A := by
    rw [abs_mul, show |(3 : ℝ)| = 3 by norm_num]
    have := abs_sub_abs_le_abs_sub t' t
    linarith
  have k1 : u * |3 * t'| ≤ z * (3036 / 1000 * A) := mul_le_mul hz b1 (abs_nonneg _) hz0
  have d3 : |t3 - 3 * t| ≤ 40 * (z * A) := by
    have e : t3 - 3 * t = (t3 - 3 * t') + 3 * (t' - t) := by ring
    rw [e]
    refine (abs_add_le _ _).trans ?_
    rw [abs_mul 3, show |(3 : ℝ)| = 3 by norm_num]
    linarith
  have b3 : 296 / 100 * A ≤ |t3| := by
    have h1 := abs_sub_abs_le_abs_sub (3 * t) t3
    rw [abs_mul, show |(3 : ℝ)| = 3 by norm_num, ht, abs_sub_comm] at h1
    linarith
  have hA3 : 0 < |t3| := by linarith
  have n3 : t3 ≠ 0 := abs_pos.mp hA3
  have nt : t ≠ 0 := by rw [← abs_pos, ht]; exact hA
  set τ := T / A with hτ
  have hT : T = τ * A := by rw [hτ]; field_simp
  have hτ1 : 1 ≤ τ := by rw [hτ, le_div_iff₀ hA]; linarith
  have hMτ : 0 ≤ M * τ := mul_nonneg hM (by linarith)
  have hMMτ : M ≤ M * τ := le_mul_of_one_le_right hM hτ1
  have zM : 0 ≤ z * M := mul_nonneg hz0 hM
  have zMτ : z * M ≤ z * (M * τ) := mul_le_mul_of_nonneg_left hMMτ hz0
  have zMτ' : z * (M * τ) ≤ 1 / 1000 * (M * τ) := mul_le_mul_of_nonneg_right hz' hMτ
  have d : |c' / t3 - c / (3 * t)| ≤ 28 * (z * (M * τ)) := by
    have e : c' / t3 - c / (3 * t) = (c' - c) / t3 - c / (3 * t) * ((t3 - 3 * t) / t3) := by
      field_simp; ring
    rw [e]
    refine (abs_sub _ _).trans ?_
    have q1 : |(c' - c) / t3| ≤ 1353 / 100 * (z * M) := by
      rw [abs_div, div_le_iff₀ hA3]
      have := mul_le_mul_of_nonneg_left b3 (show 0 ≤ 1353 / 100 * (z * M) by linarith)
      have e2 : 1353 / 100 * (z * M) * (296 / 100 * A) = (1353 * 296 / 10000) * (z * (M * A)) := by ring
      have : 0 ≤ z * (M * A) := mul_nonneg hz0 (mul_nonneg hM hA.le)
      linarith
    have q2 : |c / (3 * t)| ≤ M * τ := by
      rw [abs_div, abs_mul, ht, show |(3 : ℝ)| = 3 by norm_num, div_le_iff₀ (by linarith)]
      have e2 : M * τ * (3 * A) = 3 * (M * T) := by rw [hT]; ring
      linarith
    have q3 : |(t3 - 3 * t) / t3| ≤ 1353 / 100 * z := by
      rw [abs_div, div_le_iff₀ hA3]
      have := mul_le_mul_of_nonneg_left b3 (show 0 ≤ 1353 / 100 * z by linarith)
      have e2 : 1353 / 100 * z * (296 / 100 * A) = (1353 * 296 / 10000) * (z * A) := by ring
      linarith
    have q4 : |c / (3 * t) * ((t3 - 3 * t) / t3)| ≤ M * τ * (1353 / 100 * z) := by
      rw [abs_mul]; exact mul_le_mul q2 q3 (abs_nonneg _) hMτ
    have e5 : M * τ * (1353 / 100 * z) = 1353 / 100 * (z * (M * τ)) := by ring
    linarith
  have q2 : |c / (3 * t)| ≤ M * τ := by
    rw [abs_div, abs_mul, ht, show |(3 : ℝ)| = 3 by norm_num, div_le_iff₀ (by linarith)]
    have e2 : M * τ * (3 * A) = 3 * (M * T) := by rw [hT]; ring
    linarith
  have bq : |c' / t3| ≤ 1028 / 1000 * (M * τ) := by
    have := abs_sub_abs_le_abs_sub (c' / t3) (c / (3 * t)); linarith
  have k2 : u * |c' / t3| ≤ z * (1028 / 1000 * (M * τ)) := mul_le_mul hz bq (abs_nonneg _) hz0
  refine ⟨?_, n3, by linarith, by linarith⟩
  have e : q - c / (3 * t) = (q - c' / t3) + (c' / t3 - c / (3 * t)) := by ring
  rw [e]
  refine (abs_add_le _ _).trans ?_
  linarith

/-! ### the loop -/

theorem cenTriv {x : ℝ} : |x - x| ≤ uR * |x| + ηR := by
  rw [sub_self, abs_zero]; exact add_nonneg (mul_nonneg uR_pos.le (abs_nonneg _)) ηR_pos
theorem cenTriv' {x : ℝ} : |x - x| ≤ uR * |x| := by
  rw [sub_self, abs_zero]; exact mul_nonneg uR_pos.le (abs_nonneg _)

/-- The vertex is within `M` of the origin and `D` of `a`, by coordinates. -/
def CenIn (M D : ℝ) (a v : Vec2 Double) : Prop :=
  |v.x.real| ≤ M ∧ |v.y.real| ≤ M ∧ |v.x.real - a.x.real| ≤ D ∧ |v.y.real - a.y.real| ≤ D

/-- The bounds that exclude overflow and make underflow harmless. -/
structure CenRoom (M D T Q : ℝ) : Prop where
  q : (2 : ℝ) ^ 1023 = Q
  m0 : 0 ≤ M
  d0 : 0 ≤ D
  t0 : 0 ≤ T
  c1 : 4 * M ≤ Q
  c2 : D ≤ Q
  c3 : 2 * T + 3 * (D * D) ≤ Q
  c4 : 4 * (M * T) + 4 * (M * (D * D)) ≤ Q
  e1 : 1000 * ηR ≤ uR * M
  e2 : 1000 * ηR ≤ uR * (D * D)
  e3 : 1000 * ηR ≤ uR * (M * (D * D))

/-- One triangle. -/
theorem cen_area {M D T Q : ℝ} (R : CenRoom M D T Q) {a b c : Vec2 Double} (hb : CenIn M D a b) (hc : CenIn M D a c) :
    |((b.x - a.x) * (c.y - a.y) - (c.x - a.x) * (b.y - a.y)).real - side (toReal a) (toReal b) (toReal c)| ≤ 9 * (uR * (D * D)) := by
  obtain ⟨-, -, b1, b2⟩ := hb
  obtain ⟨-, -, c1, c2⟩ := hc
  have hE : 0 ≤ D * D := mul_nonneg R.d0 R.d0
  have hT := R.t0
  have r3 := R.c3
  have ok := fun (x y : Double) (h : |x.real - y.real| ≤ D) => sub_ok x y (by rw [R.q]; exact h.trans R.c2)
  have P1 := cenProdE uR_pos.le uR_small R.d0 b1 c2 (ok _ _ b1) (ok _ _ c2)
    (mul_ok (b.x - a.x) (c.y - a.y) (by
      rw [R.q]
      have := (cenProdE (η := ηR) uR_pos.le uR_small R.d0 b1 c2 (ok _ _ b1) (ok _ _ c2) cenTriv).2
      linarith only [this, r3, hE, hT]))
  have P2 := cenProdE uR_pos.le uR_small R.d0 c1 b2 (ok _ _ c1) (ok _ _ b2)
    (mul_ok (c.x - a.x) (b.y - a.y) (by
      rw [R.q]
      have := (cenProdE (η := ηR) uR_pos.le uR_small R.d0 c1 b2 (ok _ _ c1) (ok _ _ b2) cenTriv).2
      linarith only [this, r3, hE, hT]))
  have m1 : |(b.x.real - a.x.real) * (c.y.real - a.y.real)| ≤ D * D := by
    rw [abs_mul]; exact mul_le_mul b1 c2 (abs_nonneg _) R.d0
  have m2 : |(c.x.real - a.x.real) * (b.y.real - a.y.real)| ≤ D * D := by
    rw [abs_mul]; exact mul_le_mul c1 b2 (abs_nonneg _) R.d0
  have hα : side (toReal a) (toReal b) (toReal c) =
      (b.x.real - a.x.real) * (c.y.real - a.y.real) - (c.x.real - a.x.real) * (b.y.real - a.y.real) := by
    simp only [side, toReal]; ring
  refine (cenAreaE uR_pos.le uR_small hE R.e2 ηR_pos m1 m2 hα P1.1 P2.1 (sub_ok _ _ ?_)).1
  rw [R.q]
  have := (cenAreaE uR_pos.le uR_small hE R.e2 ηR_pos m1 m2 hα P1.1 P2.1 cenTriv').2
  linarith only [this, r3, hT]

/-- One term of the sum of a coordinate. -/
theorem cen_term {M D T Q : ℝ} (R : CenRoom M D T Q) {a b c ar : Double} {α : ℝ} (ha : |a.real| ≤ M) (hb : |b.real| ≤ M)
    (hc : |c.real| ≤ M) (hr : |ar.real - α| ≤ 9 * (uR * (D * D))) (hα : |α| ≤ T) :
    |((a + b + c) * ar).real - (a.real + b.real + c.real) * α| ≤ 29 * (uR * (M * (D * D))) + 10 * (uR * (M * T)) := by
  have hE : 0 ≤ D * D := mul_nonneg R.d0 R.d0
  have hM := R.m0
  have c1 := R.c1
  have s1 := add_ok a b (by rw [R.q]; exact (abs_add_le _ _).trans (by linarith only [ha, hb, c1, hM]))
  have s2 := (cenSumE uR_pos.le uR_small hM R.e1 ηR_pos ha hb hc s1 (add_ok (a + b) c (by
    rw [R.q]
    have := (cenSumE uR_pos.le uR_small hM R.e1 ηR_pos ha hb hc s1 cenTriv).2
    linarith only [this, c1]))).1
  have hS : |a.real + b.real + c.real| ≤ 3 * M := by
    have h1 := abs_add_le (a.real + b.real) c.real
    have h2 := abs_add_le a.real b.real
    linarith only [h1, h2, ha, hb, hc]
  refine (cenTermE uR_pos.le uR_small hM hE R.e3 hS s2 hr hα (mul_ok _ _ ?_)).1
  rw [R.q]
  have := (cenTermE uR_pos.le uR_small hM hE R.e3 hS s2 hr hα cenTriv).2
  linarith only [this, R.c4]

/-- The allowance per triangle, for the moments and for the area. -/
noncomputable def cenB (M D T : ℝ) : ℝ := uR * (40 * (M * (D * D)) + 20 * (M * T))
noncomputable def cenB' (D T : ℝ) : ℝ := uR * (12 * (D * D) + 4 * T)

/-- Adding a term to the sum. -/
theorem cen_acc {M D T Q k : ℝ} (R : CenRoom M D T Q) {c P : Double} {x y : ℝ} (hk : 0 ≤ k) (hku : k * uR ≤ 1 / 1000)
    (hc : |c.real - x| ≤ k * cenB M D T) (hP : |P.real - y| ≤ 29 * (uR * (M * (D * D))) + 10 * (uR * (M * T)))
    (hH : |x + y| ≤ 3 * (M * T)) : |(c + P).real - (x + y)| ≤ (k + 1) * cenB M D T := by
  have hE : 0 ≤ D * D := mul_nonneg R.d0 R.d0
  have hu := uR_pos.le
  have hME : 0 ≤ M * (D * D) := mul_nonneg R.m0 hE
  have hMT : 0 ≤ M * T := mul_nonneg R.m0 R.t0
  have u1 : 0 ≤ uR * (M * (D * D)) := mul_nonneg hu hME
  have u2 : 0 ≤ uR * (M * T) := mul_nonneg hu hMT
  have eB : cenB M D T = 40 * (uR * (M * (D * D))) + 20 * (uR * (M * T)) := by unfold cenB; ring
  have hB : 0 ≤ cenB M D T := by rw [eB]; linarith only [u1, u2]
  have hη := R.e3
  have hη0 := ηR_pos
  have key : 1001 / 1000 * (29 * (uR * (M * (D * D))) + 10 * (uR * (M * T))) + uR * (3 * (M * T)) + ηR ≤ 999 / 1000 * cenB M D T := by
    rw [eB]
    have e : uR * (3 * (M * T)) = 3 * (uR * (M * T)) := by ring
    linarith only [u1, u2, hη, e]
  have hG : 0 ≤ 29 * (uR * (M * (D * D))) + 10 * (uR * (M * T)) := by linarith only [u1, u2]
  refine (cenAccE hu uR_small hB hG hku hc hP hH (add_ok _ _ ?_) key).1
  rw [R.q]
  have b := (cenAccE hu uR_small hB hG hku hc hP hH cenTriv key).2
  have k1 : k * cenB M D T = k * uR * (40 * (M * (D * D)) + 20 * (M * T)) := by unfold cenB; ring
  have k2 : k * uR * (40 * (M * (D * D)) + 20 * (M * T)) ≤ 1 / 1000 * (40 * (M * (D * D)) + 20 * (M * T)) :=
    mul_le_mul_of_nonneg_right hku (by linarith only [hME, hMT])
  have k3 : uR * (M * (D * D)) ≤ 1 / 1000 * (M * (D * D)) := mul_le_mul_of_nonneg_right uR_small hME
  have k4 : uR * (M * T) ≤ 1 / 1000 * (M * T) := mul_le_mul_of_nonneg_right uR_small hMT
  linarith only [b, k1, k2, k3, k4, R.c4, hME, hMT]

/-- Adding an area to the sum. -/
theorem cen_acc' {M D T Q k : ℝ} (R : CenRoom M D T Q) {c P : Double} {x y : ℝ} (hk : 0 ≤ k) (hku : k * uR ≤ 1 / 1000)
    (hc : |c.real - x| ≤ k * cenB' D T) (hP : |P.real - y| ≤ 9 * (uR * (D * D)))
    (hH : |x + y| ≤ T) : |(c + P).real - (x + y)| ≤ (k + 1) * cenB' D T := by
  have hE : 0 ≤ D * D := mul_nonneg R.d0 R.d0
  have hT := R.t0
  have hu := uR_pos.le
  have u1 : 0 ≤ uR * (D * D) := mul_nonneg hu hE
  have u2 : 0 ≤ uR * T := mul_nonneg hu hT
  have eB : cenB' D T = 12 * (uR * (D * D)) + 4 * (uR * T) := by unfold cenB'; ring
  have hB : 0 ≤ cenB' D T := by rw [eB]; linarith only [u1, u2]
  have hη := R.e2
  have hη0 := ηR_pos
  have key : 1001 / 1000 * (9 * (uR * (D * D))) + uR * T + ηR ≤ 999 / 1000 * cenB' D T := by
    rw [eB]
    linarith only [u1, u2, hη]
  have hG : 0 ≤ 9 * (uR * (D * D)) := by linarith only [u1]
  refine (cenAccE hu uR_small hB hG hku hc hP hH (add_ok _ _ ?_) key).1
  rw [R.q]
  have b := (cenAccE hu uR_small hB hG hku hc hP hH cenTriv key).2
  have k1 : k * cenB' D T = k * uR * (12 * (D * D) + 4 * T) := by unfold cenB'; ring
  have k2 : k * uR * (12 * (D * D) + 4 * T) ≤ 1 / 1000 * (12 * (D * D) + 4 * T) :=
    mul_le_mul_of_nonneg_right hku (by linarith only [hE, hT])
  have k3 : uR * (D * D) ≤ 1 / 1000 * (D * D) := mul_le_mul_of_nonneg_right uR_small hE
  linarith only [b, k1, k2, k3, R.c3, hE, hT]

theorem cen_loop {M D T Q : ℝ} (R : CenRoom M D T Q) {a : Vec2 Double} (hax : |a.x.real| ≤ M) (hay : |a.y.real| ≤ M) :
    ∀ (l : List (Vec2 Double)) (b cen : Vec2 Double) (tot : Double) (cx cy tt t k : ℝ), (∀ v ∈ b :: l, CenIn M D a v) →
      0 ≤ k → (k + l.length) * uR ≤ 1 / 1000 → 0 ≤ t → |cx| ≤ 3 * (M * t) → |cy| ≤ 3 * (M * t) → |tt| ≤ t →
      t + ((edgesFrom (toReal b) (l.map toReal)).map fun e => |side (toReal a) e.1 e.2|).sum ≤ T →
      |cen.x.real - cx| ≤ k * cenB M D T → |cen.y.real - cy| ≤ k * cenB M D T → |tot.real - tt| ≤ k * cenB' D T →
      |(centroidLoop a l b cen tot).1.x.real - (cx + ((edgesFrom (toReal b) (l.map toReal)).map fun e =>
          ((toReal a).x + e.1.x + e.2.x) * side (toReal a) e.1 e.2).sum)| ≤ (k + l.length) * cenB M D T ∧
      |(centroidLoop a l b cen tot).1.y.real - (cy + ((edgesFrom (toReal b) (l.map toReal)).map fun e =>
          ((toReal a).y + e.1.y + e.2.y) * side (toReal a) e.1 e.2).sum)| ≤ (k + l.length) * cenB M D T ∧
      |(centroidLoop a l b cen tot).2.real - (tt + ((edgesFrom (toReal b) (l.map toReal)).map fun e =>
          side (toReal a) e.1 e.2).sum)| ≤ (k + l.length) * cenB' D T ∧
      |cx + ((edgesFrom (toReal b) (l.map toReal)).map fun e =>
          ((toReal a).x + e.1.x + e.2.x) * side (toReal a) e.1 e.2).sum| ≤ 3 * (M * T) ∧
      |cy + ((edgesFrom (toReal b) (l.map toReal)).map fun e =>
          ((toReal a).y + e.1.y + e.2.y) * side (toReal a) e.1 e.2).sum| ≤ 3 * (M * T) ∧
      |tt + ((edgesFrom (toReal b) (l.map toReal)).map fun e => side (toReal a) e.1 e.2).sum| ≤ T := by
  intro l
  induction l with
  | nil =>
    intro b cen tot cx cy tt t k hv hk hku ht hcx hcy htt hT h1 h2 h3
    simp only [List.map_nil, edgesFrom, List.sum_nil, add_zero, List.length_nil, Nat.cast_zero, centroidLoop] at *
    have := mul_le_mul_of_nonneg_left hT R.m0
    exact ⟨h1, h2, h3, by linarith only [hcx, this], by linarith only [hcy, this], htt.trans hT⟩
  | cons c l ih =>
    intro b cen tot cx cy tt t k hv hk hku ht hcx hcy htt hT h1 h2 h3
    have hb := hv b List.mem_cons_self
    have hc := hv c (List.mem_cons_of_mem _ List.mem_cons_self)
    have ar := cen_area R hb hc
    rw [List.map_cons, edgesFrom_cons, List.map_cons, List.sum_cons] at hT
    set α := side (toReal a) (toReal b) (toReal c) with hα
    have hα0 := abs_nonneg α
    have rest0 : 0 ≤ ((edgesFrom (toReal c) (l.map toReal)).map fun e => |side (toReal a) e.1 e.2|).sum := by
      apply List.sum_nonneg
      intro x hx
      obtain ⟨e, -, rfl⟩ := List.mem_map.mp hx
      exact abs_nonneg _
    have hαT : |α| ≤ T := by linarith only [hT, ht, rest0]
    have t1 := cen_term R hax hb.1 hc.1 ar hαT
    have t2 := cen_term R hay hb.2.1 hc.2.1 ar hαT
    have hl : (0 : ℝ) ≤ l.length := Nat.cast_nonneg _
    have hlen : ((c :: l).length : ℝ) = l.length + 1 := by push_cast [List.length_cons]; rfl
    rw [hlen] at hku
    have hu := uR_pos.le
    have hku0 : k * uR ≤ 1 / 1000 := (mul_le_mul_of_nonneg_right (by linarith only [hl]) hu).trans hku
    have ht' : t + |α| ≤ T := by linarith only [hT, rest0]
    have mom : ∀ {w x y z : ℝ}, |w| ≤ 3 * (M * t) → |x| ≤ M → |y| ≤ M → |z| ≤ M → |w + (x + y + z) * α| ≤ 3 * (M * (t + |α|)) := by
      intro w x y z hw hx hy hz
      refine (abs_add_le _ _).trans ?_
      rw [abs_mul]
      have h4 : |x + y + z| ≤ 3 * M := by
        have h1 := abs_add_le (x + y) z
        have h2 := abs_add_le x y
        linarith only [h1, h2, hx, hy, hz]
      have h5 := mul_le_mul_of_nonneg_right h4 hα0
      linarith only [hw, h5]
    have up : 3 * (M * (t + |α|)) ≤ 3 * (M * T) := by
      have := mul_le_mul_of_nonneg_left ht' R.m0
      linarith only [this]
    have m1 := mom hcx hax hb.1 hc.1
    have m2 := mom hcy hay hb.2.1 hc.2.1
    have m3 : |tt + α| ≤ t + |α| := (abs_add_le _ _).trans (by linarith only [htt])
    have a1 := cen_acc R hk hku0 h1 t1 (m1.trans up)
    have a2 := cen_acc R hk hku0 h2 t2 (m2.trans up)
    have a3 := cen_acc' R hk hku0 h3 ar (m3.trans ht')
    have := ih c (cen + (a + b + c).smul ((b.x - a.x) * (c.y - a.y) - (c.x - a.x) * (b.y - a.y)))
      (tot + ((b.x - a.x) * (c.y - a.y) - (c.x - a.x) * (b.y - a.y))) _ _ _ (t + |α|) (k + 1)
      (fun v hv' => hv v (List.mem_cons_of_mem _ hv')) (by linarith only [hk]) (by rw [add_assoc, add_comm 1]; exact hku)
      (by linarith only [ht, hα0]) m1 m2 m3 (by linarith only [hT]) a1 a2 a3
    rw [hlen, List.map_cons, edgesFrom_cons]
    simp only [List.map_cons, List.sum_cons, centroidLoop]
    have ek : k + (l.length + 1 : ℝ) = k + 1 + l.length := by ring
    rw [ek]
    simp only [← add_assoc]
    simp only [add_assoc] at this ⊢
    exact this

end Planar
