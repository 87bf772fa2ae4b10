import Verif.Props.FloatInverse
import Verif.Spec.DoubleCompose
/- Property C79: products of transforms in double precision. -/
set_option linter.unusedSectionVars false
namespace Planar
open Spec Polygon

section sizes

theorem c402 : (2 : ℝ) ^ 402 = 4 * 2 ^ 400 := by rw [show (402 : ℕ) = 2 + 400 from rfl, pow_add]; norm_num

theorem mul_400 {x y : ℝ} (h1 : |x| ≤ 2 ^ 200) (h2 : |y| ≤ 2 ^ 200) : |x * y| ≤ 2 ^ 400 := by
  rw [abs_mul, show (2 : ℝ) ^ 400 = 2 ^ 200 * 2 ^ 200 from by rw [← pow_add]]
  exact mul_le_mul h1 h2 (abs_nonneg _) (two_pow_pos 200).le

theorem size_402 {x y z : ℝ} (h1 : |x| ≤ 2 ^ 400) (h2 : |y| ≤ 2 ^ 400) (h3 : |z| ≤ 2 ^ 200) : |x| + |y| + |z| ≤ 2 ^ 402 := by
  have h200 : (2 : ℝ) ^ 200 ≤ 2 ^ 400 := pow_le_of_le (by norm_num)
  rw [c402]
  generalize (2 : ℝ) ^ 400 = P at *
  generalize (2 : ℝ) ^ 200 = Q at *
  linarith only [h1, h2, h3, h200, (abs_nonneg _).trans h1]

theorem pair_402 {x y : ℝ} (h1 : |x| ≤ 2 ^ 400) (h2 : |y| ≤ 2 ^ 400) : |x| + |y| ≤ 2 ^ 402 := by
  rw [c402]
  generalize (2 : ℝ) ^ 400 = P at *
  linarith only [h1, h2, (abs_nonneg _).trans h1]

theorem all_1000 {W : ℝ} (hW : W ≤ 2 ^ 402) : 8 * (2 : ℝ) ^ 402 * 2 ^ 402 + 2 * W + 17 * (1 / 2 ^ 396) ≤ 2 ^ 1000 := by
  have b1 : 8 * (2 : ℝ) ^ 402 * 2 ^ 402 = 2 ^ 807 := by
    rw [show (8 : ℝ) = 2 ^ 3 by norm_num, ← pow_add, ← pow_add]
  have b3 : (1 : ℝ) / 2 ^ 396 ≤ 1 := by
    rw [div_le_one (two_pow_pos 396)]
    exact one_le_pow₀ (by norm_num)
  have c1 : (2 : ℝ) ^ 807 ≤ 2 ^ 900 := pow_le_of_le (by norm_num)
  have c2 : (2 : ℝ) ^ 402 ≤ 2 ^ 900 := pow_le_of_le (by norm_num)
  have c3 : (1 : ℝ) ≤ 2 ^ 900 := one_le_pow₀ (by norm_num)
  have c4 : (2 : ℝ) ^ 1000 = 2 ^ 100 * 2 ^ 900 := by rw [← pow_add]
  have c5 : 20 * (2 : ℝ) ^ 900 ≤ 2 ^ 100 * 2 ^ 900 := mul_le_mul_of_nonneg_right (by norm_num) (two_pow_pos 900).le
  rw [b1, c4]
  generalize (2 : ℝ) ^ 100 * 2 ^ 900 = v at *
  generalize (2 : ℝ) ^ 900 = P at *
  generalize (2 : ℝ) ^ 807 = P1 at *
  generalize (2 : ℝ) ^ 402 = P2 at *
  generalize (1 : ℝ) / 2 ^ 396 = P3 at *
  linarith only [b3, c1, c2, c3, c5, hW]

theorem b1072_402 : (2 : ℝ) ^ 402 * (1 / 2 ^ 1072) ≤ 1 / 2 ^ 396 := by
  rw [mul_one_div, div_le_div_iff₀ (two_pow_pos 1072) (two_pow_pos 396), ← pow_add, one_mul]
  exact pow_le_of_le (by norm_num)

theorem b1072_1 : (1 : ℝ) / 2 ^ 1072 ≤ 1 := by
  rw [div_le_one (two_pow_pos 1072)]
  exact one_le_pow₀ (by norm_num)

theorem t19_390 : 19 * ((1 : ℝ) / 2 ^ 396) ≤ 1 / 2 ^ 391 := by
  rw [show (396 : ℕ) = 391 + 5 from rfl, pow_add]
  have := two_pow_pos 391
  generalize (2 : ℝ) ^ 391 = P at *
  rw [mul_one_div, div_le_div_iff₀ (by positivity) this]
  linarith

/-- One coordinate: the second factors are exact. -/
theorem twice_coord {X Y W x1 y1 x' y' R1 R2 R3 r3 out x : ℝ} (hX : X ≤ 2 ^ 402) (hY : Y ≤ 2 ^ 402) (hR1 : |R1| ≤ 2 ^ 200) (hR2 : |R2| ≤ 2 ^ 200)
    (hx1 : |x1 - x'| ≤ 1 / 2 ^ 51 * X + 1 / 2 ^ 1072) (hx' : |x'| ≤ X) (hy1 : |y1 - y'| ≤ 1 / 2 ^ 51 * Y + 1 / 2 ^ 1072) (hy' : |y'| ≤ Y)
    (hr3 : |r3| ≤ W) (hW : W ≤ 2 ^ 402) (h3 : |R3 - r3| ≤ 1 / 2 ^ 51 * W + 1 / 2 ^ 1072) (hx : x = x' * R1 + y' * R2 + r3) :
    |x1 * R1| + |y1 * R2| + |R3| ≤ 2 ^ 1000 ∧
    (|out - (x1 * R1 + y1 * R2 + R3)| ≤ 1 / 2 ^ 51 * (|x1 * R1| + |y1 * R2| + |R3|) + 1 / 2 ^ 1072 →
      |out - x| ≤ 1 / 2 ^ 48 * (|R1| * X + |R2| * Y + W) + 1 / 2 ^ 391) := by
  have n0 : (0 : ℝ) ≤ 1 / 2 ^ 1072 := by have := two_pow_pos 1072; positivity
  have n2 : (0 : ℝ) < 1 / 2 ^ 51 := by norm_num
  have hB : (2 : ℝ) ^ 200 ≤ 2 ^ 402 := pow_le_of_le (by norm_num)
  have hB1 : (1 : ℝ) ≤ 2 ^ 402 := one_le_pow₀ (by norm_num)
  have e : ∀ r : ℝ, |r - r| ≤ 2 * (1 / 2 ^ 51) * 1 * |r| + 1 / 2 ^ 1072 := fun r => by
    rw [sub_self, abs_zero]; have := abs_nonneg r; positivity
  have hW0 : 0 ≤ W := (abs_nonneg _).trans hr3
  have h3' : |R3 - r3| ≤ 4 * (1 / 2 ^ 51) * 1 * W + 1 / 2 ^ 1072 := by
    refine h3.trans (add_le_add ?_ le_rfl)
    exact mul_le_mul_of_nonneg_right (by norm_num) hW0
  obtain ⟨a, b⟩ := back_coord (κ := 1) (out := out) n2 (by norm_num) n0 b1072_1 n0 hB1 b1072_402 b1072_402 hX hY (hR1.trans hB) (hR2.trans hB)
    hx1 hx' hy1 hy' (e R1) (e R2) hr3 h3' le_rfl (by norm_num) hx
  refine ⟨a.trans (all_1000 hW), fun h => (b h).trans (add_le_add ?_ t19_390)⟩
  exact le_of_eq (by norm_num)

end sizes

/-- **C79** a product of transforms applied to a point is the exact image under the exact matrix product, up to `2 ^ -48` of the
sum of the absolute values of the terms. -/
theorem C79_product_apply (A B : Affine Double) (hA : WithinT (2 ^ 200) A) (hB : WithinT (2 ^ 200) B) (p : Vec2 Double)
    (hx : |p.x.real| ≤ 2 ^ 200) (hy : |p.y.real| ≤ 2 ^ 200) :
    |((A * B).apply p).x.real - (productImage A B p).x| ≤ 1 / 2 ^ 48 * (productSize A B p).x + 1 / 2 ^ 391 ∧
    |((A * B).apply p).y.real - (productImage A B p).y| ≤ 1 / 2 ^ 48 * (productSize A B p).y + 1 / 2 ^ 391 := by
  have up : (2 : ℝ) ^ 200 ≤ 2 ^ 500 := pow_le_of_le (by norm_num)
  have wide : ∀ {T}, WithinT (2 ^ 200) T → WithinT (2 ^ 500) T := fun h =>
    ⟨h.1.trans up, h.2.1.trans up, h.2.2.1.trans up, h.2.2.2.1.trans up, h.2.2.2.2.1.trans up, h.2.2.2.2.2.trans up⟩
  obtain ⟨pa, pb, pc, pd, pe, pf⟩ := C79_compose A B (wide hA) (wide hB)
  obtain ⟨aa, ab, ac, ad, ae, af⟩ := hA
  obtain ⟨ba, bb, bc, bd, be, bf⟩ := hB
  have tri : ∀ x y z : ℝ, |x + y + z| ≤ |x| + |y| + |z| := fun x y z => (abs_add_le _ _).trans (add_le_add (abs_add_le _ _) le_rfl)
  have cx := twice_coord (out := ((A * B).apply p).x.real) (x := (productImage A B p).x) (pair_402 (mul_400 aa ba) (mul_400 ab bd))
    (pair_402 (mul_400 ad ba) (mul_400 ae bd)) hx hy pa (abs_add_le _ _) pd (abs_add_le _ _) (tri _ _ _)
    (size_402 (mul_400 aa bc) (mul_400 ab bf) ac) pc (by unfold productImage; ring)
  have cy := twice_coord (out := ((A * B).apply p).y.real) (x := (productImage A B p).y) (pair_402 (mul_400 aa bb) (mul_400 ab be))
    (pair_402 (mul_400 ad bb) (mul_400 ae be)) hx hy pb (abs_add_le _ _) pe (abs_add_le _ _) (tri _ _ _)
    (size_402 (mul_400 ad bc) (mul_400 ae bf) af) pf (by unfold productImage; ring)
  have ap := C79_apply (A * B) p
    (by unfold imageSize; simp only; rw [mul_comm p.x.real, mul_comm p.y.real]; exact cx.1)
    (by unfold imageSize; simp only; rw [mul_comm p.x.real, mul_comm p.y.real]; exact cy.1)
  unfold image imageSize at ap
  simp only [mul_comm p.x.real, mul_comm p.y.real] at ap
  exact ⟨cx.2 ap.1, cy.2 ap.2⟩

/-- **C79** two transforms applied one after the other are the exact images one after the other, up to `2 ^ -48` of the sum of the
absolute values of the terms. -/
theorem C79_twice (S T : Affine Double) (hS : WithinT (2 ^ 200) S) (hT : WithinT (2 ^ 200) T) (p : Vec2 Double)
    (hx : |p.x.real| ≤ 2 ^ 200) (hy : |p.y.real| ≤ 2 ^ 200) :
    |(T.apply (S.apply p)).x.real - (twiceImage S T p).x| ≤ 1 / 2 ^ 48 * (twiceSize S T p).x + 1 / 2 ^ 391 ∧
    |(T.apply (S.apply p)).y.real - (twiceImage S T p).y| ≤ 1 / 2 ^ 48 * (twiceSize S T p).y + 1 / 2 ^ 391 := by
  obtain ⟨sa, sb, sc, sd, se, sf⟩ := hS
  obtain ⟨ta, tb, tc, td, te, tf⟩ := hT
  have tri : ∀ x y z : ℝ, |x + y + z| ≤ |x| + |y| + |z| := fun x y z => (abs_add_le _ _).trans (add_le_add (abs_add_le _ _) le_rfl)
  have hX : (imageSize S p).x ≤ 2 ^ 402 := size_402 (mul_400 hx sa) (mul_400 hy sd) sc
  have hY : (imageSize S p).y ≤ 2 ^ 402 := size_402 (mul_400 hx sb) (mul_400 hy se) sf
  have h1000 : (2 : ℝ) ^ 402 ≤ 2 ^ 1000 := pow_le_of_le (by norm_num)
  have h402 : (2 : ℝ) ^ 200 ≤ 2 ^ 402 := pow_le_of_le (by norm_num)
  have ap := C79_apply S p (hX.trans h1000) (hY.trans h1000)
  have z : ∀ r : ℝ, |r - r| ≤ 1 / 2 ^ 51 * |r| + 1 / 2 ^ 1072 := fun r => by
    rw [sub_self, abs_zero]; have := abs_nonneg r; have := two_pow_pos 1072; positivity
  have cx := twice_coord (out := (T.apply (S.apply p)).x.real) (x := (twiceImage S T p).x) hX hY ta td ap.1 (tri _ _ _) ap.2 (tri _ _ _)
    le_rfl (tc.trans h402) (z T.c.real) (by unfold twiceImage; ring)
  have cy := twice_coord (out := (T.apply (S.apply p)).y.real) (x := (twiceImage S T p).y) hX hY tb te ap.1 (tri _ _ _) ap.2 (tri _ _ _)
    le_rfl (tf.trans h402) (z T.f.real) (by unfold twiceImage; ring)
  have ap2 := C79_apply T (S.apply p) cx.1 cy.1
  have ex := cx.2 ap2.1
  have ey := cy.2 ap2.2
  rw [mul_comm |T.a.real|, mul_comm |T.d.real|] at ex
  rw [mul_comm |T.b.real|, mul_comm |T.e.real|] at ey
  exact ⟨ex, ey⟩

theorem through_exact {o o' x s s' η : ℝ} (h1 : |o - x| ≤ 1 / 2 ^ 48 * s + η) (h2 : |o' - x| ≤ 1 / 2 ^ 48 * s' + η) :
    |o - o'| ≤ 1 / 2 ^ 48 * (s + s') + 2 * η := by
  have := abs_sub_le o x o'
  rw [abs_sub_comm x o'] at this
  linarith

/-- **C79** without translations, applying the product `S * T` is applying `S` first and `T` second (not the other way round,
C14), up to rounding. -/
theorem C79_composed_linear (S T : Affine Double) (hS : WithinT (2 ^ 200) S) (hT : WithinT (2 ^ 200) T) (p : Vec2 Double)
    (hx : |p.x.real| ≤ 2 ^ 200) (hy : |p.y.real| ≤ 2 ^ 200) (hs : S.c.real = 0 ∧ S.f.real = 0) (ht : T.c.real = 0 ∧ T.f.real = 0) :
    |((S * T).apply p).x.real - (T.apply (S.apply p)).x.real| ≤ 1 / 2 ^ 47 * (twiceSize S T p).x + 1 / 2 ^ 390 ∧
    |((S * T).apply p).y.real - (T.apply (S.apply p)).y.real| ≤ 1 / 2 ^ 47 * (twiceSize S T p).y + 1 / 2 ^ 390 := by
  have a := C79_product_apply S T hS hT p hx hy
  have b := C79_twice S T hS hT p hx hy
  have ex : twiceImage S T p = productImage S T p := by
    unfold twiceImage productImage image
    simp only [hs.1, hs.2, ht.1, ht.2]
    congr 1 <;> ring
  have es : productSize S T p = twiceSize S T p := by
    unfold twiceSize productSize imageSize
    simp only [hs.1, hs.2, ht.1, ht.2, abs_mul, abs_zero]
    congr 1 <;> ring
  rw [es] at a
  rw [ex] at b
  have cx := through_exact a.1 b.1
  have cy := through_exact a.2 b.2
  have e1 : 2 * ((1 : ℝ) / 2 ^ 391) = 1 / 2 ^ 390 := by
    rw [show (391 : ℕ) = 390 + 1 from rfl, pow_succ]
    have := two_pow_pos 390
    generalize (2 : ℝ) ^ 390 = P at *
    field_simp
  rw [e1] at cx cy
  generalize (1 : ℝ) / 2 ^ 390 = η at *
  constructor <;> linarith

/-- **C79** for transforms that compose in sequence in exact arithmetic (C14 says which), applying the product `S * T` is applying
`T` first and `S` second, up to rounding. -/
theorem C79_composed (S T : Affine Double) (hS : WithinT (2 ^ 200) S) (hT : WithinT (2 ^ 200) T) (p : Vec2 Double)
    (hx : |p.x.real| ≤ 2 ^ 200) (hy : |p.y.real| ≤ 2 ^ 200) (h14 : productImage S T p = twiceImage T S p) :
    |((S * T).apply p).x.real - (S.apply (T.apply p)).x.real| ≤
      1 / 2 ^ 48 * ((productSize S T p).x + (twiceSize T S p).x) + 1 / 2 ^ 390 ∧
    |((S * T).apply p).y.real - (S.apply (T.apply p)).y.real| ≤
      1 / 2 ^ 48 * ((productSize S T p).y + (twiceSize T S p).y) + 1 / 2 ^ 390 := by
  have a := C79_product_apply S T hS hT p hx hy
  have b := C79_twice T S hT hS p hx hy
  rw [← h14] at b
  have cx := through_exact a.1 b.1
  have cy := through_exact a.2 b.2
  have e1 : 2 * ((1 : ℝ) / 2 ^ 391) = 1 / 2 ^ 390 := by
    rw [show (391 : ℕ) = 390 + 1 from rfl, pow_succ]
    have := two_pow_pos 390
    generalize (2 : ℝ) ^ 390 = P at *
    field_simp
  rw [e1] at cx cy
  exact ⟨cx, cy⟩

/-- **C79** products of scales and translations compose in sequence, and so does any transform under a uniform scale with a
translation. -/
theorem C79_composed_scales (S T : Affine Double) (hS : WithinT (2 ^ 200) S) (hT : WithinT (2 ^ 200) T) (p : Vec2 Double)
    (hx : |p.x.real| ≤ 2 ^ 200) (hy : |p.y.real| ≤ 2 ^ 200) (hs : S.b.real = 0 ∧ S.d.real = 0)
    (h : T.b.real = 0 ∧ T.d.real = 0 ∨ S.a.real = S.e.real) :
    |((S * T).apply p).x.real - (S.apply (T.apply p)).x.real| ≤ 1 / 2 ^ 47 * (twiceSize T S p).x + 1 / 2 ^ 390 ∧
    |((S * T).apply p).y.real - (S.apply (T.apply p)).y.real| ≤ 1 / 2 ^ 47 * (twiceSize T S p).y + 1 / 2 ^ 390 := by
  have ex : productImage S T p = twiceImage T S p := by
    unfold twiceImage productImage image
    rcases h with ⟨h1, h2⟩ | h1
    · simp only [hs.1, hs.2, h1, h2]
      congr 1 <;> ring
    · simp only [hs.1, hs.2, h1]
      congr 1 <;> ring
  have es : productSize S T p = twiceSize T S p := by
    unfold twiceSize productSize imageSize
    rcases h with ⟨h1, h2⟩ | h1
    · simp only [hs.1, hs.2, h1, h2, abs_mul, abs_zero]
      congr 1 <;> ring
    · simp only [hs.1, hs.2, h1, abs_mul, abs_zero]
      congr 1 <;> ring
  obtain ⟨cx, cy⟩ := C79_composed S T hS hT p hx hy ex
  rw [es] at cx cy
  generalize (1 : ℝ) / 2 ^ 390 = η at *
  constructor <;> linarith

/-- **C79** `polygon *= S` and then `polygon *= T` give, without translations, the vertices that `polygon *= S * T` gives, up to
rounding, whatever happened to the polygon before. -/
theorem C79_composed_vertices (eps : Double) (S T : Affine Double) (hS : WithinT (2 ^ 200) S) (hT : WithinT (2 ^ 200) T)
    (hs : S.c.real = 0 ∧ S.f.real = 0) (ht : T.c.real = 0 ∧ T.f.real = 0) (vs : List (Vec2 Double)) (ops : List (PolyOp Double)) :
    let s := (Polygon.fromPoints vs).after eps ops
    let one := (Polygon.fromPoints vs).after eps (ops ++ [.imul (S * T)])
    let two := (Polygon.fromPoints vs).after eps (ops ++ [.imul S, .imul T])
    (∀ v ∈ s.verts, |v.x.real| ≤ 2 ^ 200 ∧ |v.y.real| ≤ 2 ^ 200) →
      one.verts.length = s.verts.length ∧ two.verts.length = s.verts.length ∧
      ∀ (i : Nat) (v w u : Vec2 Double), s.verts[i]? = some v → one.verts[i]? = some w → two.verts[i]? = some u →
        |w.x.real - u.x.real| ≤ 1 / 2 ^ 47 * (twiceSize S T v).x + 1 / 2 ^ 390 ∧
        |w.y.real - u.y.real| ≤ 1 / 2 ^ 47 * (twiceSize S T v).y + 1 / 2 ^ 390 := by
  intro s one two hv
  have step : ∀ (ops' : List (PolyOp Double)) (U : Affine Double), ((Polygon.fromPoints vs).after eps (ops' ++ [.imul U])).verts =
      ((Polygon.fromPoints vs).after eps ops').verts.map U.apply := by
    intro ops' U
    have e : (Polygon.fromPoints vs).after eps (ops' ++ [.imul U]) = ((Polygon.fromPoints vs).after eps ops').imul U := by
      simp only [Polygon.after, List.foldl_append]
      rfl
    rw [e]
    exact (C19_polygon eps vs ops' U).2
  have e1 : one.verts = s.verts.map (S * T).apply := step ops (S * T)
  have e2 : two.verts = (s.verts.map S.apply).map T.apply := by
    have := step (ops ++ [.imul S]) T
    rw [step ops S, List.append_assoc] at this
    exact this
  refine ⟨by rw [e1, List.length_map], by rw [e2, List.length_map, List.length_map], fun i v w u hi hw hu => ?_⟩
  rw [e1, List.getElem?_map, hi] at hw
  rw [e2, List.getElem?_map, List.getElem?_map, hi] at hu
  cases hw
  cases hu
  obtain ⟨a, b⟩ := hv v (List.mem_of_getElem? hi)
  exact C79_composed_linear S T hS hT v a b hs ht

/-- A shear after the transform `exT0`, which turns and stretches. -/
def exT1 : Affine Double := ⟨dbl 1, dbl 0, dbl 0, dbl 2, dbl 1, dbl 0⟩

example : WithinT (2 ^ 200) exT0 ∧ WithinT (2 ^ 200) exT1 ∧ (exT0.c.real = 0 ∧ exT0.f.real = 0) ∧ (exT1.c.real = 0 ∧ exT1.f.real = 0) ∧
    twiceSize exT0 exT1 (dvec 1 2) = ⟨31, 10⟩ ∧ twiceSize exT1 exT0 (dvec 1 2) = ⟨23, 26⟩ := by
  have n0 : (dbl 0).real = 0 := by simpa using dbl_int 0 (by norm_num)
  have n1 : (dbl 1).real = 1 := by simpa using dbl_int 1 (by norm_num)
  have n2 : (dbl 2).real = 2 := by simpa using dbl_int 2 (by norm_num)
  have n3 : (dbl 3).real = 3 := by simpa using dbl_int 3 (by norm_num)
  have n4 : (dbl 4).real = 4 := by simpa using dbl_int 4 (by norm_num)
  have m4 : (dbl (-4)).real = -4 := by simpa using dbl_int (-4) (by norm_num)
  have h32 : (32 : ℝ) ≤ 2 ^ 200 := le_trans (by norm_num) (pow_le_real (show 5 ≤ 200 by norm_num))
  refine ⟨?_, ?_, ⟨n0, n0⟩, ⟨n0, n0⟩, ?_, ?_⟩
  · refine ⟨?_, ?_, ?_, ?_, ?_, ?_⟩ <;> simp only [exT0, n3, n4, m4, n0] <;> refine le_trans ?_ h32 <;> norm_num
  · refine ⟨?_, ?_, ?_, ?_, ?_, ?_⟩ <;> simp only [exT1, n1, n2, n0] <;> refine le_trans ?_ h32 <;> norm_num
  · simp only [twiceSize, imageSize, exT0, exT1, dvec, n0, n1, n2, n3, n4, m4]; norm_num
  · simp only [twiceSize, imageSize, exT0, exT1, dvec, n0, n1, n2, n3, n4, m4]; norm_num

end Planar
