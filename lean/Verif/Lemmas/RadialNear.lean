import Verif.Lemmas.YNearReal
import Verif.Spec.NearPoly
import Verif.Props.RadialExact
import Verif.Props.FloatTrig
/- Radial polygons (real numbers): points that are nearly as near to the centre as the edges, or nearly as far as the vertices;
and regular polygons are broad. -/
set_option linter.unusedSectionVars false
namespace Planar
open Spec
open Polygon

variable {c : Vec2 ℝ} {ρ : ℕ → ℝ} {a s : ℝ} {L : List (Vec2 ℝ)}

theorem gap_d2 (p q : Vec2 ℝ) : gap p q * gap p q = d2 p q :=
  Real.mul_self_sqrt (add_nonneg (mul_self_nonneg _) (mul_self_nonneg _))

theorem gap_nonneg (p q : Vec2 ℝ) : 0 ≤ gap p q := Real.sqrt_nonneg _

/-- The point at `t` times the distance from `c`. -/
theorem gap_scaled (c p : Vec2 ℝ) (t : ℝ) :
    gap ⟨c.x + t * (p.x - c.x), c.y + t * (p.y - c.y)⟩ c = |t| * gap p c ∧
    gap p ⟨c.x + t * (p.x - c.x), c.y + t * (p.y - c.y)⟩ = |1 - t| * gap p c := by
  have key : ∀ (k x y : ℝ), √((k * x) * (k * x) + (k * y) * (k * y)) = |k| * √(x * x + y * y) := by
    intro k x y
    rw [show (k * x) * (k * x) + (k * y) * (k * y) = (k * k) * (x * x + y * y) by ring, Real.sqrt_mul (mul_self_nonneg k),
      Real.sqrt_mul_self_eq_abs]
  unfold gap vlen
  simp only
  constructor
  · rw [← key]; congr 1; ring
  · rw [← key]; congr 1; ring

/-- A point nearer to the centre than the edges plus `D`, and farther than `D` from them. -/
theorem radial_in (h : IsRadial c ρ a s L) (hne : L ≠ []) (hs : 0 < sinDeg s)
    (hpos : ∀ i < L.length, 0 < ρ ((i + (L.length - 1)) % L.length) * ρ i) {m D : ℝ} (hm : 0 < m) (hD : 0 ≤ D)
    (hR : ∀ e ∈ edges L, ∀ x, OnEdge e x → m * m ≤ d2 x c) {p : Vec2 ℝ} (hp : gap p c < m + D)
    (hfar : FarFromEdges D L p) : winding L p ≠ 0 := by
  have fin : ∀ q, gap p q ≤ D → gap q c < m → winding L p ≠ 0 := by
    intro q h1 h2
    rw [winding_ball hfar h1]
    refine h.inner hne hs hpos hR ?_
    rw [← gap_d2]
    exact mul_self_lt_mul_self (gap_nonneg _ _) h2
  by_cases hg : gap p c ≤ D
  · exact fin c hg (by rw [gap_self]; exact hm)
  · push Not at hg
    have g0 : 0 < gap p c := lt_of_le_of_lt hD hg
    obtain ⟨k1, k2⟩ := gap_scaled c p ((gap p c - D) / gap p c)
    refine fin _ (k2.le.trans ?_) (k1.trans_lt ?_)
    · have : 1 - (gap p c - D) / gap p c = D / gap p c := by field_simp; ring
      rw [this, abs_of_nonneg (by positivity), div_mul_cancel₀ _ g0.ne']
    · rw [abs_of_nonneg (div_nonneg (by linarith) g0.le), div_mul_cancel₀ _ g0.ne']
      linarith

/-- A point farther from the centre than the vertices minus `D`, and farther than `D` from the edges. -/
theorem radial_out (h : IsRadial c ρ a s L) {R D : ℝ} (hD : 0 ≤ D) (hDR : D ≤ R)
    (hR : ∀ i < L.length, ρ i * ρ i ≤ R * R) {p : Vec2 ℝ} (hp : R - D < gap p c)
    (hfar : FarFromEdges D L p) : winding L p = 0 := by
  have g0 : 0 < gap p c := by linarith
  obtain ⟨k1, k2⟩ := gap_scaled c p ((gap p c + D) / gap p c)
  rw [winding_ball hfar (k2.le.trans ?_)]
  · refine h.outer hR ?_
    rw [← gap_d2, k1, abs_of_nonneg (by positivity), div_mul_cancel₀ _ g0.ne']
    exact mul_self_lt_mul_self (by linarith) (by linarith)
  · have : 1 - (gap p c + D) / gap p c = - (D / gap p c) := by field_simp; ring
    rw [this, abs_neg, abs_of_nonneg (by positivity), div_mul_cancel₀ _ g0.ne']

/-- Some vertex is within half a step of any direction. -/
theorem exists_near_angle (n : ℕ) (hn : 1 ≤ n) (a φ : ℝ) : ∃ i < n, cosDeg (180 / n) ≤ cosDeg (a + 360 * i / n - φ) := by
  have n0 : (0 : ℝ) < n := by exact_mod_cast hn
  obtain ⟨k, hk⟩ : ∃ k : ℤ, |(φ - a) * n / 360 - k| ≤ 1 / 2 := ⟨round ((φ - a) * n / 360), abs_sub_round _⟩
  have hn0 : (n : ℤ) ≠ 0 := by omega
  have hpos : 0 ≤ k % n := Int.emod_nonneg _ hn0
  have hlt : k % n < n := Int.emod_lt_of_pos _ (by omega)
  refine ⟨(k % n).toNat, by omega, ?_⟩
  have hc : (((k % n).toNat : ℕ) : ℝ) = k - n * ((k / n : ℤ) : ℝ) := by
    have h1 : (((k % n).toNat : ℕ) : ℤ) = k - n * (k / n) := by
      rw [Int.toNat_of_nonneg hpos, Int.emod_def]
    exact_mod_cast h1
  rw [hc]
  have e : a + 360 * ((k : ℝ) - n * ((k / n : ℤ) : ℝ)) / n - φ = -(((φ - a) * n / 360 - k) * (360 / n)) - 360 * ((k / n : ℤ) : ℝ) := by
    field_simp; ring
  rw [e, (turns_360 _ _).1]
  have ec : ∀ x, cosDeg x = cosDeg |x| := by
    intro x
    rcases abs_cases x with ⟨h, -⟩ | ⟨h, -⟩
    · rw [h]
    · rw [h]; unfold cosDeg; rw [neg_mul, Real.cos_neg]
  rw [ec (-_), abs_neg, abs_mul, abs_of_pos (show (0 : ℝ) < 360 / n by positivity)]
  have hpi := Real.pi_pos
  unfold cosDeg
  refine Real.cos_le_cos_of_nonneg_of_le_pi (by positivity) ?_ ?_
  · have : (180 : ℝ) / n ≤ 180 := div_le_self (by norm_num) (by exact_mod_cast hn)
    nlinarith [mul_le_mul_of_nonneg_right this (show 0 ≤ Real.pi / 180 by positivity)]
  · refine mul_le_mul_of_nonneg_right ?_ (by positivity)
    calc _ ≤ 1 / 2 * (360 / (n : ℝ)) := mul_le_mul_of_nonneg_right hk (by positivity)
      _ = 180 / n := by ring

theorem cosDeg_36 {n : ℕ} (hn : 5 ≤ n) : 8 / 10 ≤ cosDeg (180 / n) := by
  have h5 : Real.cos (Real.pi / 5) = (1 + √5) / 4 := Real.cos_pi_div_five
  have s5 : (22 / 10 : ℝ) ≤ √5 := Real.le_sqrt_of_sq_le (by norm_num)
  have n5 : (5 : ℝ) ≤ n := by exact_mod_cast hn
  have hpi := Real.pi_pos
  have : Real.cos (Real.pi / 5) ≤ cosDeg (180 / n) := by
    unfold cosDeg
    refine Real.cos_le_cos_of_nonneg_of_le_pi (by positivity) (by linarith) ?_
    have e : (180 : ℝ) / n * (Real.pi / 180) = Real.pi / n := by field_simp
    rw [e]
    exact div_le_div_of_nonneg_left hpi.le (by norm_num) n5
  linarith

theorem regularPoints_radial (n : ℕ) (hn : 0 < n) (c : Vec2 ℝ) (r a : ℝ) : IsRadial c (fun _ => r) a (360 / n) (regularPoints n c r a) := by
  have n0 : (0 : ℝ) < n := by exact_mod_cast hn
  refine ⟨fun i h => ?_, ?_⟩
  · simp only [regularPoints, List.getElem_map, List.getElem_range]
    congr 1; ring
  · unfold regularPoints
    rw [List.length_map, List.length_range]; field_simp

theorem regularPoints_neg (n : ℕ) (c : Vec2 ℝ) (r a : ℝ) : regularPoints n c (-r) a = regularPoints n c r (a + 180) := by
  unfold regularPoints
  refine List.map_congr_left fun i _ => ?_
  have h1 : ∀ θ, cosDeg (θ + 180) = - cosDeg θ := by
    intro θ; unfold cosDeg; rw [add_mul, show (180 : ℝ) * (Real.pi / 180) = Real.pi by ring, Real.cos_add_pi]
  have h2 : ∀ θ, sinDeg (θ + 180) = - sinDeg θ := by
    intro θ; unfold sinDeg; rw [add_mul, show (180 : ℝ) * (Real.pi / 180) = Real.pi by ring, Real.sin_add_pi]
  rw [show a + 180 + 360 * (i : ℝ) / n = a + 360 * i / n + 180 by ring]
  unfold circ
  rw [h1, h2]
  apply Vec2.ext <;> simp

/-- The numbers in `broad_regular`: `k` the cosine of half a step. -/
theorem broad_core {n : ℕ} (hn : 5 ≤ n) (c : Vec2 ℝ) {r : ℝ} (hr : 0 < r) (a : ℝ) {d : ℝ} (hd : 25 * d ≤ r) {σ : ℝ} (hσ : σ = 1 ∨ σ = -1)
    {u : Vec2 ℝ} (hu : u ∈ regularPoints n c r a) (h : ∀ v ∈ regularPoints n c r a, σ * v.x ≤ σ * u.x + 2 * d) :
    NotExtreme d (regularPoints n c r a) u ∧ ∃ w, InHull (regularPoints n c r a) w ∧ w.y = u.y ∧ σ * w.x < σ * u.x := by
  have k8 := cosDeg_36 hn
  have mem : ∀ i < n, circ c r (a + 360 * i / n) ∈ regularPoints n c r a := fun i hi =>
    List.mem_map.mpr ⟨i, List.mem_range.mpr hi, rfl⟩
  obtain ⟨j, hj, rfl⟩ := List.mem_map.mp hu
  generalize a + 360 * (j : ℝ) / n = θ at *
  have dirs : ∀ φ, ∃ v ∈ regularPoints n c r a, ∃ α, v = circ c r α ∧ 8 / 10 ≤ cosDeg α * cosDeg φ + sinDeg α * sinDeg φ := by
    intro φ
    obtain ⟨i, hi, h⟩ := exists_near_angle n (by omega) a φ
    refine ⟨_, mem i hi, _, rfl, ?_⟩
    have e := cosDeg_add (a + 360 * (i : ℝ) / n) (-φ)
    have e1 : cosDeg (-φ) = cosDeg φ := by unfold cosDeg; rw [neg_mul, Real.cos_neg]
    have e2 : sinDeg (-φ) = - sinDeg φ := by unfold sinDeg; rw [neg_mul, Real.sin_neg]
    rw [← sub_eq_add_neg, e1, e2] at e
    linarith
  have c0 : cosDeg 0 = 1 ∧ sinDeg 0 = 0 := by unfold cosDeg sinDeg; simp
  have c180 : cosDeg 180 = -1 ∧ sinDeg 180 = 0 := by
    unfold cosDeg sinDeg; rw [show (180 : ℝ) * (Real.pi / 180) = Real.pi by ring]; simp
  have c90 : cosDeg 90 = 0 ∧ sinDeg 90 = 1 := by
    unfold cosDeg sinDeg; rw [show (90 : ℝ) * (Real.pi / 180) = Real.pi / 2 by ring]; simp
  have c270 : cosDeg (-90) = 0 ∧ sinDeg (-90) = -1 := by
    unfold cosDeg sinDeg; rw [show (-90 : ℝ) * (Real.pi / 180) = -(Real.pi / 2) by ring]; simp
  -- the cosine of `u`
  have hcos : 72 / 100 ≤ σ * cosDeg θ := by
    have step : ∀ φ, cosDeg φ = σ → sinDeg φ = 0 → 72 / 100 ≤ σ * cosDeg θ := by
      intro φ h1 h2
      obtain ⟨v, hv, α, rfl, hα⟩ := dirs φ
      rw [h1, h2] at hα
      have := h _ hv
      simp only [circ] at this
      nlinarith
    rcases hσ with rfl | rfl
    · exact step 0 c0.1 c0.2
    · exact step 180 c180.1 c180.2
  have hσ2 : σ * σ = 1 := by rcases hσ with rfl | rfl <;> norm_num
  have hsq := cosDeg_sq_add θ
  have hsin : sinDeg θ * sinDeg θ ≤ 4816 / 10000 := by nlinarith
  obtain ⟨hs1, hs2⟩ : -(7 / 10) < sinDeg θ ∧ sinDeg θ < 7 / 10 := by constructor <;> nlinarith
  obtain ⟨lo, hlo, β, rfl, hβ⟩ := dirs (-90)
  obtain ⟨hi, hhi, γ, rfl, hγ⟩ := dirs 90
  rw [c270.1, c270.2] at hβ
  rw [c90.1, c90.2] at hγ
  have qβ := cosDeg_sq_add β
  have qγ := cosDeg_sq_add γ
  have cβ : (σ * cosDeg β) ≤ 6 / 10 := by nlinarith
  have cγ : (σ * cosDeg γ) ≤ 6 / 10 := by nlinarith
  refine ⟨⟨⟨_, hlo, ?_⟩, _, hhi, ?_⟩, ?_⟩
  · simp only [circ]; nlinarith
  · simp only [circ]; nlinarith
  · have hd : 0 < sinDeg γ - sinDeg β := by linarith
    set t := (sinDeg θ - sinDeg β) / (sinDeg γ - sinDeg β) with ht
    have t0 : 0 ≤ t := div_nonneg (by linarith) hd.le
    have t1 : t ≤ 1 := (div_le_one hd).mpr (by linarith)
    have hty : t * (sinDeg γ - sinDeg β) = sinDeg θ - sinDeg β := div_mul_cancel₀ _ hd.ne'
    refine ⟨_, .between _ _ t (.vertex _ hlo) (.vertex _ hhi) t0 t1, ?_, ?_⟩
    · simp only [circ]; linear_combination r * hty
    · simp only [circ]
      have e : σ * (c.x + r * cosDeg β + t * (c.x + r * cosDeg γ - (c.x + r * cosDeg β))) =
          σ * c.x + r * (σ * cosDeg β + t * (σ * cosDeg γ - σ * cosDeg β)) := by ring
      rw [e, mul_add]
      have : σ * cosDeg β + t * (σ * cosDeg γ - σ * cosDeg β) ≤ 6 / 10 := by nlinarith
      have := mul_lt_mul_of_pos_left (show σ * cosDeg β + t * (σ * cosDeg γ - σ * cosDeg β) < σ * cosDeg θ by linarith) hr
      linarith

/-- Regular polygons with at least five vertices are broad. -/
theorem broad_regular {n : ℕ} (hn : 5 ≤ n) (c : Vec2 ℝ) {r : ℝ} (hr : r ≠ 0) (a : ℝ) {d : ℝ} (hd : 25 * d ≤ |r|) :
    Broad d (regularPoints n c r a) := by
  have main : ∀ (r a : ℝ), 0 < r → 25 * d ≤ r → Broad d (regularPoints n c r a) := by
    intro r a hr hd u hu
    constructor
    · intro h
      obtain ⟨h1, w, h2, h3, h4⟩ := broad_core hn c hr a hd (σ := -1) (.inr rfl) hu (fun v hv => by linarith [h v hv])
      exact ⟨h1, w, h2, h3, by linarith⟩
    · intro h
      obtain ⟨h1, w, h2, h3, h4⟩ := broad_core hn c hr a hd (σ := 1) (.inl rfl) hu (fun v hv => by linarith [h v hv])
      exact ⟨h1, w, h2, h3, by linarith⟩
  rcases lt_or_gt_of_ne hr with h | h
  · have := main (-r) (a + 180) (by linarith) (by rwa [abs_of_neg h] at hd)
    rwa [← regularPoints_neg, neg_neg] at this
  · exact main r a h (by rwa [abs_of_pos h] at hd)

/-- The facts about regular polygons that the tests need. -/
theorem regular_facts {n : ℕ} (hn : 5 ≤ n) (c : Vec2 ℝ) {r : ℝ} (hr : r ≠ 0) (a : ℝ) :
    Convex (regularPoints n c r a) ∧ (∀ e ∈ edges (regularPoints n c r a), e.1 ≠ e.2) ∧
    (∀ e ∈ edges (regularPoints n c r a), ∀ x, OnEdge e x → (|r| * cosDeg (180 / n)) * (|r| * cosDeg (180 / n)) ≤ d2 x c) := by
  have hR := regularPoints_radial n (by omega) c r a
  have hl : (regularPoints n c r a).length = n := by unfold regularPoints; rw [List.length_map, List.length_range]
  have n5 : (5 : ℝ) ≤ n := by exact_mod_cast hn
  have s0 : (0 : ℝ) < 360 / n := by positivity
  have s1 : (360 : ℝ) / n < 180 := by rw [div_lt_iff₀ (by linarith)]; linarith
  refine ⟨(hR.convexAll (r := r) (fun _ _ => rfl) s0 (by linarith) (by omega)).1, ?_, ?_⟩
  · intro e he
    obtain ⟨i, hi, θ, rfl⟩ := hR.edge he
    intro h
    simp only at h
    have k : side c (circ c r θ) (circ c r (θ + 360 / n)) = 0 := by rw [← h]; unfold side; ring
    rw [circ_side] at k
    have := sinDeg_pos s0 s1
    have : r * r * sinDeg (360 / n) ≠ 0 := mul_ne_zero (mul_self_ne_zero.mpr hr) this.ne'
    exact this k
  · intro e he x hx
    obtain ⟨i, hi, θ, rfl⟩ := hR.edge he
    have := edge_mid_le hx (by linarith [cosDeg_le_one (360 / n)])
    have hh := cosDeg_half (360 / n)
    rw [show (360 : ℝ) / n / 2 = 180 / n by ring] at hh
    rwa [mul_mul_mul_comm, abs_mul_abs_self, hh]

end Planar
