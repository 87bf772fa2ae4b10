import Verif.Props.Box
/- More about bounding boxes: size, centre and emptiness (C21, C23), what `fit` does to any polygon (C26). -/
set_option linter.unusedSectionVars false
namespace Planar

section Field
variable {K : Type} [Field K] [LinearOrder K] [IsStrictOrderedRing K]

/-- **C21** width, height and centre: the centre is as far from the left as from the right side and as far from the
bottom as from the top, and the opposite corner is one width and one height away. -/
theorem C21_size (b : Box K) :
    b.min + ⟨b.width, b.height⟩ = b.max ∧ b.center - b.min = b.max - b.center := by
  have h2 : (1 + 1 : K) ≠ 0 := by rw [one_add_one_eq_two]; exact two_ne_zero
  constructor
  · ext <;> simp [Box.width, Box.height]
  · ext <;> simp [Box.center] <;> field_simp <;> ring

/-- **C23** `is_empty` says exactly that the box has no area, that it contains no point, and that it has no interior
point; the hypothesis holds for every box the API builds (C21). -/
theorem C23_is_empty (b : Box K) (hx : b.min.x ≤ b.max.x) (hy : b.min.y ≤ b.max.y) :
    (b.isEmpty = true ↔ b.width * b.height = 0) ∧
    (b.isEmpty = true ↔ ∀ p, b.containsPoint p = false) ∧
    (b.isEmpty = true ↔ ∀ p, ¬ b.Interior p) := by
  have he : b.isEmpty = true ↔ b.max.x - b.min.x = 0 ∨ b.max.y - b.min.y = 0 := by
    simp [Box.isEmpty]
  have hc : ∀ p, b.Interior p → b.containsPoint p = true := fun p => (C23_no_double_count b b p).2.2.2
  have hE : ∀ p, b.isEmpty = true → b.containsPoint p = false := fun p => (C23_no_double_count b b p).2.1
  have hI : b.isEmpty = false → ∃ p, b.Interior p := by
    intro h
    have h' : ¬ (b.max.x - b.min.x = 0 ∨ b.max.y - b.min.y = 0) := by rw [← he]; simp [h]
    push Not at h'
    have h1 : b.min.x < b.max.x := lt_of_le_of_ne hx fun e => h'.1 (by rw [e, sub_self])
    have h2 : b.min.y < b.max.y := lt_of_le_of_ne hy fun e => h'.2 (by rw [e, sub_self])
    exact ⟨⟨(b.min.x + b.max.x) / 2, (b.min.y + b.max.y) / 2⟩, by
      simp only [Box.Interior]; refine ⟨?_, ?_, ?_, ?_⟩ <;> linarith⟩
  refine ⟨?_, ⟨fun h p => hE p h, fun h => ?_⟩, ⟨fun h p hp => ?_, fun h => ?_⟩⟩
  · rw [he, Box.width, Box.height, mul_eq_zero]
  · by_contra hne
    obtain ⟨p, hp⟩ := hI (by simpa using hne)
    exact absurd (h p) (by rw [hc p hp]; simp)
  · have := hE p h; rw [hc p hp] at this; cases this
  · by_contra hne
    obtain ⟨p, hp⟩ := hI (by simpa using hne)
    exact h p hp

/-- Scaling by `k` and then moving by `t`: what a shrunk or enlarged copy of a figure is (specification). -/
def ScaledCopy (k : K) (t : Vec2 K) (p q : Vec2 K) : Prop := q.x = k * p.x + t.x ∧ q.y = k * p.y + t.y

/-- **C26** what `fit` does to every polygon: a scaled copy of it, of the size of the largest copy that fits the frame (as
wide or as high as the frame, and not larger), whose box is centred not on the frame's centre but `(k - 1)` times the
polygon's own centre away from it: this is the error of the code (`C26_violated`). It fits in the frame if
and only if that displacement is no more than the room left. -/
theorem C26_exact (frame : Box K) (poly : Polygon K) (sb : Box K)
    (hf : frame.min.x ≤ frame.max.x ∧ frame.min.y ≤ frame.max.y)
    (hsb : Box.fromPoints poly.verts = .ok sb) (hbb : poly.bbox = none ∨ poly.bbox = some sb)
    (hw : 0 < sb.width) (hh : 0 < sb.height) :
    ∃ r rb k t, (frame.fitPolygon poly).1 = .ok r ∧ List.Forall₂ (ScaledCopy k t) poly.verts r.verts ∧
      0 ≤ k ∧ k * sb.width ≤ frame.width ∧ k * sb.height ≤ frame.height ∧
      (k * sb.width = frame.width ∨ k * sb.height = frame.height) ∧
      Box.fromPoints r.verts = .ok rb ∧ rb.width = k * sb.width ∧ rb.height = k * sb.height ∧
      rb.center = frame.center + sb.center.smul (k - 1) ∧
      ((∀ v ∈ r.verts, frame.Encloses v) ↔
        2 * |(k - 1) * sb.center.x| ≤ frame.width - rb.width ∧
        2 * |(k - 1) * sb.center.y| ≤ frame.height - rb.height) := by
  have two : (1 : K) + 1 = 2 := one_add_one_eq_two
  have hbox : ∃ s', poly.boundingBox = (.ok sb, s') ∧ s'.verts = poly.verts := by
    rcases hbb with h | h
    · exact ⟨{ poly with bbox := some sb }, by simp only [Polygon.boundingBox, h, hsb], rfl⟩
    · exact ⟨poly, by simp only [Polygon.boundingBox, h], rfl⟩
  obtain ⟨s', hs', hv⟩ := hbox
  obtain ⟨T, hT, happ⟩ := fitTransform_apply frame sb hw.ne' hh.ne'
  set k := fitScale frame sb with hk
  have hfw : 0 ≤ frame.width := sub_nonneg.mpr hf.1
  have hfh : 0 ≤ frame.height := sub_nonneg.mpr hf.2
  have hk0 : 0 ≤ k := le_min (div_nonneg hfw hw.le) (div_nonneg hfh hh.le)
  have hkw : k * sb.width ≤ frame.width := by
    have := min_le_left (frame.width / sb.width) (frame.height / sb.height)
    rw [le_div_iff₀ hw] at this; unfold fitScale at hk; rw [hk]; linarith
  have hkh : k * sb.height ≤ frame.height := by
    have := min_le_right (frame.width / sb.width) (frame.height / sb.height)
    rw [le_div_iff₀ hh] at this; unfold fitScale at hk; rw [hk]; linarith
  have htouch : k * sb.width = frame.width ∨ k * sb.height = frame.height := by
    rcases min_choice (frame.width / sb.width) (frame.height / sb.height) with h | h
    · left; rw [hk, fitScale, h, div_mul_cancel₀ _ hw.ne']
    · right; rw [hk, fitScale, h, div_mul_cancel₀ _ hh.ne']
  set t := frame.center - sb.center with ht
  have hverts : (s'.transformed T).verts = poly.verts.map fun p => ⟨k * p.x + t.x, k * p.y + t.y⟩ := by
    simp only [Polygon.transformed, Polygon.fromPoints, Polygon.cleared, Affine.applyPts, hv]
    apply List.map_congr_left
    intro p _
    change T.apply p = _
    rw [happ]
    ext <;> simp <;> ring
  set rb : Box K := ⟨⟨k * sb.min.x + t.x, k * sb.min.y + t.y⟩, ⟨k * sb.max.x + t.x, k * sb.max.y + t.y⟩⟩ with hrb
  have hsT := fromPoints_iff.mp hsb
  have hrT : Box.fromPoints (s'.transformed T).verts = .ok rb := by
    rw [fromPoints_iff, hverts]
    obtain ⟨h0, ⟨p1, m1, e1⟩, ⟨p2, m2, e2⟩, ⟨p3, m3, e3⟩, ⟨p4, m4, e4⟩⟩ := hsT
    refine ⟨?_, ⟨_, List.mem_map_of_mem m1, by simp [e1, hrb]⟩, ⟨_, List.mem_map_of_mem m2, by simp [e2, hrb]⟩,
      ⟨_, List.mem_map_of_mem m3, by simp [e3, hrb]⟩, ⟨_, List.mem_map_of_mem m4, by simp [e4, hrb]⟩⟩
    intro q hq
    obtain ⟨p, hp, rfl⟩ := List.mem_map.mp hq
    obtain ⟨a, b, c, d⟩ := h0 p hp
    refine ⟨?_, ?_, ?_, ?_⟩ <;> simp only [hrb] <;> gcongr
  have hrw : rb.width = k * sb.width := by simp only [hrb, Box.width]; ring
  have hrh : rb.height = k * sb.height := by simp only [hrb, Box.height]; ring
  have hrc : rb.center = frame.center + sb.center.smul (k - 1) := by
    ext <;> simp [hrb, Box.center, ht, two] <;> ring
  refine ⟨s'.transformed T, rb, k, t, by simp only [Box.fitPolygon, hs', hT], ?_, hk0, hkw, hkh, htouch, hrT, hrw, hrh,
    hrc, ?_⟩
  · rw [hverts, List.forall₂_map_right_iff]
    exact List.forall₂_same.mpr fun p _ => ⟨rfl, rfl⟩
  · have hin : (∀ v ∈ (s'.transformed T).verts, frame.Encloses v) ↔ frame.Encloses rb.min ∧ frame.Encloses rb.max := by
      have hT' := fromPoints_iff.mp hrT
      refine ⟨fun h => hT'.least frame h, fun ⟨h1, h2⟩ v hv => ?_⟩
      have := hT'.1 v hv
      exact ⟨h1.1.trans this.1, this.2.1.trans h2.2.1, h1.2.2.1.trans this.2.2.1, this.2.2.2.trans h2.2.2.2⟩
    have hcx : rb.center.x = frame.center.x + (k - 1) * sb.center.x := by rw [hrc]; simp; ring
    have hcy : rb.center.y = frame.center.y + (k - 1) * sb.center.y := by rw [hrc]; simp; ring
    have hrx : 0 ≤ rb.width := by rw [hrw]; positivity
    have hry : 0 ≤ rb.height := by rw [hrh]; positivity
    rw [hin]
    have ex : 2 * |(k - 1) * sb.center.x| ≤ frame.width - rb.width ↔
        frame.min.x ≤ rb.min.x ∧ rb.max.x ≤ frame.max.x := by
      have : (k - 1) * sb.center.x = (rb.min.x + rb.max.x) / 2 - (frame.min.x + frame.max.x) / 2 := by
        simp only [Box.center, two] at hcx ⊢; linarith
      rw [this, ← le_div_iff₀' two_pos, abs_le]
      simp only [Box.width]
      constructor
      · rintro ⟨a, b⟩; constructor <;> linarith
      · rintro ⟨a, b⟩; constructor <;> linarith
    have ey : 2 * |(k - 1) * sb.center.y| ≤ frame.height - rb.height ↔
        frame.min.y ≤ rb.min.y ∧ rb.max.y ≤ frame.max.y := by
      have : (k - 1) * sb.center.y = (rb.min.y + rb.max.y) / 2 - (frame.min.y + frame.max.y) / 2 := by
        simp only [Box.center, two] at hcy ⊢; linarith
      rw [this, ← le_div_iff₀' two_pos, abs_le]
      simp only [Box.height]
      constructor
      · rintro ⟨a, b⟩; constructor <;> linarith
      · rintro ⟨a, b⟩; constructor <;> linarith
    rw [ex, ey]
    simp only [Box.width, Box.height] at hrx hry
    constructor
    · rintro ⟨⟨a, b, c, d⟩, ⟨a', b', c', d'⟩⟩; exact ⟨⟨a, b'⟩, ⟨c, d'⟩⟩
    · rintro ⟨⟨a, b⟩, ⟨c, d⟩⟩
      refine ⟨⟨a, ?_, c, ?_⟩, ⟨?_, b, ?_, d⟩⟩ <;> linarith

/-- **C26** fitting a polygon of zero width or height raises ZeroDivisionError; fitting one with no vertex raises
ValueError. -/
theorem C26_degenerate (frame : Box K) (poly : Polygon K) (sb : Box K)
    (hbb : poly.bbox = none ∨ poly.bbox = some sb) :
    (Box.fromPoints poly.verts = .ok sb → (sb.width = 0 ∨ sb.height = 0) →
      (frame.fitPolygon poly).1 = .error .zeroDivisionError) ∧
    (poly.bbox = none → poly.verts = [] → (frame.fitPolygon poly).1 = .error .valueError) := by
  refine ⟨fun hsb h => ?_, fun hn he => ?_⟩
  · have hbox : ∃ s', poly.boundingBox = (.ok sb, s') := by
      rcases hbb with h | h
      · exact ⟨{ poly with bbox := some sb }, by simp only [Polygon.boundingBox, h, hsb]⟩
      · exact ⟨poly, by simp only [Polygon.boundingBox, h]⟩
    obtain ⟨s', hs'⟩ := hbox
    simp only [Box.fitPolygon, hs', Box.fitTransform]
    rcases h with h | h
    · simp [pydiv, h, bind, Except.bind]
    · by_cases h' : sb.width = 0
      · simp [pydiv, h', bind, Except.bind]
      · simp [pydiv, h, h', bind, Except.bind]
  · simp only [Box.fitPolygon, Polygon.boundingBox, hn, he, Box.fromPoints]

end Field

/-- A triangle and a frame meeting the hypotheses of `C26_exact`. -/
example : Box.fromPoints (K := ℚ) [⟨2, 2⟩, ⟨4, 2⟩, ⟨2, 4⟩] = .ok ⟨⟨2, 2⟩, ⟨4, 4⟩⟩ ∧
    0 < (⟨⟨2, 2⟩, ⟨4, 4⟩⟩ : Box ℚ).width ∧ 0 < (⟨⟨2, 2⟩, ⟨4, 4⟩⟩ : Box ℚ).height := by
  refine ⟨?_, by norm_num [Box.width], by norm_num [Box.height]⟩
  rw [fromPoints_iff]; norm_num [Box.Tight, Box.Encloses]

end Planar
