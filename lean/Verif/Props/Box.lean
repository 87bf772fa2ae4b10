import Verif.Lemmas.Rounded
import Verif.Props.Affine
import Verif.Model.BoxPoly
/- Properties C21-C27 (bounding boxes). -/
set_option linter.unusedSectionVars false
namespace Planar
open Spec

section Rounded
variable {K : Type} [LinearOrder K] [Add K] [Sub K] [Mul K] [Div K] [Neg K] [Zero K] [One K] [RoundedArith K]

/-- The point lies in the closed box between the two corners (specification). -/
def Box.Encloses (b : Box K) (p : Vec2 K) : Prop :=
  b.min.x ≤ p.x ∧ p.x ≤ b.max.x ∧ b.min.y ≤ p.y ∧ p.y ≤ b.max.y

/-- The box is the smallest one around the points: it encloses them and each of its four sides touches one
(specification). -/
def Box.Tight (b : Box K) (ps : List (Vec2 K)) : Prop :=
  (∀ p ∈ ps, b.Encloses p) ∧ (∃ p ∈ ps, p.x = b.min.x) ∧ (∃ p ∈ ps, p.x = b.max.x) ∧
    (∃ p ∈ ps, p.y = b.min.y) ∧ (∃ p ∈ ps, p.y = b.max.y)

@[ext] theorem Box.ext {a b : Box K} (h1 : a.min = b.min) (h2 : a.max = b.max) : a = b := by
  cases a; cases b; simp_all

theorem Box.Tight.nonempty {b : Box K} {ps : List (Vec2 K)} (h : b.Tight ps) : ps ≠ [] := by
  rintro rfl; obtain ⟨_, ⟨p, hp, -⟩, -⟩ := h; simp at hp

/-- A box around all the points encloses the tight box. -/
theorem Box.Tight.least {b : Box K} {ps : List (Vec2 K)} (h : b.Tight ps) (b' : Box K)
    (h' : ∀ p ∈ ps, b'.Encloses p) : b'.Encloses b.min ∧ b'.Encloses b.max := by
  obtain ⟨h0, ⟨p1, m1, e1⟩, ⟨p2, m2, e2⟩, ⟨p3, m3, e3⟩, ⟨p4, m4, e4⟩⟩ := h
  unfold Box.Encloses at *
  have a1 := h' _ m1; have a2 := h' _ m2; have a3 := h' _ m3; have a4 := h' _ m4
  rw [e1] at a1; rw [e2] at a2; rw [e3] at a3; rw [e4] at a4
  exact ⟨⟨a1.1, a1.2.1, a3.2.2.1, a3.2.2.2⟩, ⟨a2.1, a2.2.1, a4.2.2.1, a4.2.2.2⟩⟩

theorem Box.Tight.unique {b b' : Box K} {ps ps' : List (Vec2 K)} (h : b.Tight ps) (h' : b'.Tight ps')
    (hm : ∀ p, p ∈ ps ↔ p ∈ ps') : b = b' := by
  have h1 := h.least b' fun p hp => h'.1 p ((hm p).mp hp)
  have h2 := h'.least b fun p hp => h.1 p ((hm p).mpr hp)
  unfold Box.Encloses at *
  ext
  · exact le_antisymm h2.1.1 h1.1.1
  · exact le_antisymm h2.1.2.2.1 h1.1.2.2.1
  · exact le_antisymm h1.2.2.1 h2.2.2.1
  · exact le_antisymm h1.2.2.2.2 h2.2.2.2.2

theorem step_tight {mn mx : Vec2 K} {ps : List (Vec2 K)} (h : Box.Tight ⟨mn, mx⟩ ps) (q : Vec2 K) :
    Box.Tight ⟨(Box.step mn mx q).1, (Box.step mn mx q).2⟩ (ps ++ [q]) := by
  obtain ⟨h0, ⟨p1, m1, e1⟩, ⟨p2, m2, e2⟩, ⟨p3, m3, e3⟩, ⟨p4, m4, e4⟩⟩ := h
  have hx : mn.x ≤ mx.x := by have := h0 _ m1; exact this.1.trans this.2.1
  have hy : mn.y ≤ mx.y := by have := h0 _ m1; exact this.2.2.1.trans this.2.2.2
  have ex : (if q.x < mn.x then (q.x * 1, mx.x) else if q.x > mx.x then (mn.x, q.x * 1) else (mn.x, mx.x))
      = (min mn.x q.x, max mx.x q.x) := by
    split_ifs with a b
    · rw [min_eq_right a.le, max_eq_left (a.le.trans hx), f_mul_one]
    · rw [min_eq_left (hx.trans b.le), max_eq_right b.le, f_mul_one]
    · rw [min_eq_left (not_lt.mp a), max_eq_left (not_lt.mp b)]
  have ey : (if q.y < mn.y then (q.y * 1, mx.y) else if q.y > mx.y then (mn.y, q.y * 1) else (mn.y, mx.y))
      = (min mn.y q.y, max mx.y q.y) := by
    split_ifs with a b
    · rw [min_eq_right a.le, max_eq_left (a.le.trans hy), f_mul_one]
    · rw [min_eq_left (hy.trans b.le), max_eq_right b.le, f_mul_one]
    · rw [min_eq_left (not_lt.mp a), max_eq_left (not_lt.mp b)]
  have es : Box.step mn mx q = (⟨min mn.x q.x, min mn.y q.y⟩, ⟨max mx.x q.x, max mx.y q.y⟩) := by
    simp only [Box.step, ex, ey]
  rw [es]
  refine ⟨?_, ?_, ?_, ?_, ?_⟩
  · intro p hp
    rw [List.mem_append, List.mem_singleton] at hp
    simp only [Box.Encloses]
    rcases hp with hp | rfl
    · have := h0 p hp
      exact ⟨(min_le_left _ _).trans this.1, this.2.1.trans (le_max_left _ _),
        (min_le_left _ _).trans this.2.2.1, this.2.2.2.trans (le_max_left _ _)⟩
    · exact ⟨min_le_right _ _, le_max_right _ _, min_le_right _ _, le_max_right _ _⟩
  · rcases le_total mn.x q.x with h | h
    · exact ⟨p1, by simp [m1], by simp [min_eq_left h, e1]⟩
    · exact ⟨q, by simp, by simp [min_eq_right h]⟩
  · rcases le_total q.x mx.x with h | h
    · exact ⟨p2, by simp [m2], by simp [max_eq_left h, e2]⟩
    · exact ⟨q, by simp, by simp [max_eq_right h]⟩
  · rcases le_total mn.y q.y with h | h
    · exact ⟨p3, by simp [m3], by simp [min_eq_left h, e3]⟩
    · exact ⟨q, by simp, by simp [min_eq_right h]⟩
  · rcases le_total q.y mx.y with h | h
    · exact ⟨p4, by simp [m4], by simp [max_eq_left h, e4]⟩
    · exact ⟨q, by simp, by simp [max_eq_right h]⟩

theorem fold_tight (qs : List (Vec2 K)) : ∀ (acc : Vec2 K × Vec2 K) (ps : List (Vec2 K)),
    Box.Tight ⟨acc.1, acc.2⟩ ps →
    Box.Tight ⟨(qs.foldl (fun (acc : Vec2 K × Vec2 K) q => Box.step acc.1 acc.2 q) acc).1,
      (qs.foldl (fun (acc : Vec2 K × Vec2 K) q => Box.step acc.1 acc.2 q) acc).2⟩ (ps ++ qs) := by
  induction qs with
  | nil => intro acc ps h; simpa using h
  | cons q qs ih =>
    intro acc ps h
    have := ih _ _ (step_tight h q)
    simpa [List.append_assoc] using this

/-- The box of a non-empty list of points exists and is tight. -/
theorem fromPoints_tight {ps : List (Vec2 K)} (h : ps ≠ []) :
    ∃ b, Box.fromPoints ps = .ok b ∧ b.Tight ps := by
  obtain ⟨p, ps, rfl⟩ := List.exists_cons_of_ne_nil h
  refine ⟨_, rfl, ?_⟩
  have h0 : Box.Tight ⟨p, p⟩ [p] := by simp [Box.Tight, Box.Encloses]
  have := fold_tight ps (p, p) [p] h0
  simpa [Vec2.copy_fl] using this

theorem fromPoints_iff {ps : List (Vec2 K)} {b : Box K} :
    Box.fromPoints ps = .ok b ↔ b.Tight ps := by
  constructor
  · intro h
    have hne : ps ≠ [] := by rintro rfl; simp [Box.fromPoints] at h
    obtain ⟨b', h', ht⟩ := fromPoints_tight hne
    rw [h] at h'; simp only [Except.ok.injEq] at h'; rw [h']; exact ht
  · intro ht
    obtain ⟨b', h', ht'⟩ := fromPoints_tight ht.nonempty
    rw [h', ht'.unique ht fun _ => Iff.rfl]

/-- **C21** `BoundingBox(points)` raises ValueError exactly for no points; otherwise it is the smallest box enclosing
the points, independent of their order and multiplicity, with non-negative width and height. -/
theorem C21_bounding_box (ps : List (Vec2 K)) :
    (ps = [] → Box.fromPoints ps = .error .valueError) ∧
    (ps ≠ [] → ∃ b, Box.fromPoints ps = .ok b ∧ b.Tight ps ∧
      (∀ b' : Box K, (∀ p ∈ ps, b'.Encloses p) → b'.Encloses b.min ∧ b'.Encloses b.max) ∧
      0 ≤ b.width ∧ 0 ≤ b.height ∧
      ∀ ps', (∀ p, p ∈ ps ↔ p ∈ ps') → Box.fromPoints ps' = .ok b) := by
  constructor
  · rintro rfl; rfl
  · intro h
    obtain ⟨b, hb, ht⟩ := fromPoints_tight h
    refine ⟨b, hb, ht, ht.least, ?_, ?_, ?_⟩
    · obtain ⟨h0, ⟨p, hp, -⟩, -⟩ := ht
      have := h0 p hp
      exact f_sub_nonneg (this.1.trans this.2.1)
    · obtain ⟨h0, ⟨p, hp, -⟩, -⟩ := ht
      have := h0 p hp
      exact f_sub_nonneg (this.2.2.1.trans this.2.2.2)
    · intro ps' hm
      have hne : ps' ≠ [] := by
        rintro rfl
        obtain ⟨_, ⟨p, hp, -⟩, -⟩ := ht
        have := (hm p).mp hp; simp at this
      obtain ⟨b', hb', ht'⟩ := fromPoints_tight hne
      rw [hb', ht.unique ht' hm]

example : Box.fromPoints (K := ℚ) [⟨1, 5⟩, ⟨-2, 3⟩, ⟨4, 4⟩] = .ok ⟨⟨-2, 3⟩, ⟨4, 5⟩⟩ := by
  rw [fromPoints_iff]; norm_num [Box.Tight, Box.Encloses]

/-- The box of a shape: what `shape.bounding_box` returns for a shape with the given points. -/
theorem fromShapes_fold (bs : List (Box K)) (qss : List (List (Vec2 K)))
    (h : List.Forall₂ (fun b qs => Box.Tight b qs) bs qss) :
    ∀ (acc : Vec2 K × Vec2 K) (ps : List (Vec2 K)), Box.Tight ⟨acc.1, acc.2⟩ ps →
    Box.Tight ⟨(bs.foldl (fun (acc : Vec2 K × Vec2 K) q => Box.stepShape acc.1 acc.2 q) acc).1,
      (bs.foldl (fun (acc : Vec2 K × Vec2 K) q => Box.stepShape acc.1 acc.2 q) acc).2⟩
      (ps ++ qss.flatten) := by
  induction h with
  | nil => intro acc ps h; simpa using h
  | @cons b qs bs qss hb _ ih =>
    intro acc ps h
    have hstep : Box.Tight ⟨(Box.stepShape acc.1 acc.2 b).1, (Box.stepShape acc.1 acc.2 b).2⟩ (ps ++ qs) := by
      obtain ⟨mn, mx⟩ := acc
      have es : Box.stepShape mn mx b =
          (⟨min mn.x b.min.x, min mn.y b.min.y⟩, ⟨max mx.x b.max.x, max mx.y b.max.y⟩) := by
        have e1 : ∀ a b : K, (if b < a then b else a) = min a b := fun a b => pymin_eq_min a b
        have e2 : ∀ a b : K, (if b > a then b else a) = max a b := fun a b => pymax_eq_max a b
        simp only [Box.stepShape, e1, e2]
      rw [es]
      obtain ⟨h0, ⟨p1, m1, e1⟩, ⟨p2, m2, e2⟩, ⟨p3, m3, e3⟩, ⟨p4, m4, e4⟩⟩ := h
      obtain ⟨g0, ⟨q1, n1, f1⟩, ⟨q2, n2, f2⟩, ⟨q3, n3, f3⟩, ⟨q4, n4, f4⟩⟩ := hb
      refine ⟨?_, ?_, ?_, ?_, ?_⟩
      · intro p hp
        rw [List.mem_append] at hp
        simp only [Box.Encloses]
        rcases hp with hp | hp
        · have := h0 p hp
          exact ⟨(min_le_left _ _).trans this.1, this.2.1.trans (le_max_left _ _),
            (min_le_left _ _).trans this.2.2.1, this.2.2.2.trans (le_max_left _ _)⟩
        · have := g0 p hp
          exact ⟨(min_le_right _ _).trans this.1, this.2.1.trans (le_max_right _ _),
            (min_le_right _ _).trans this.2.2.1, this.2.2.2.trans (le_max_right _ _)⟩
      · rcases le_total mn.x b.min.x with h | h
        · exact ⟨p1, by simp [m1], by simp [min_eq_left h, e1]⟩
        · exact ⟨q1, by simp [n1], by simp [min_eq_right h, f1]⟩
      · rcases le_total b.max.x mx.x with h | h
        · exact ⟨p2, by simp [m2], by simp [max_eq_left h, e2]⟩
        · exact ⟨q2, by simp [n2], by simp [max_eq_right h, f2]⟩
      · rcases le_total mn.y b.min.y with h | h
        · exact ⟨p3, by simp [m3], by simp [min_eq_left h, e3]⟩
        · exact ⟨q3, by simp [n3], by simp [min_eq_right h, f3]⟩
      · rcases le_total b.max.y mx.y with h | h
        · exact ⟨p4, by simp [m4], by simp [max_eq_left h, e4]⟩
        · exact ⟨q4, by simp [n4], by simp [max_eq_right h, f4]⟩
    have := ih _ _ hstep
    simpa [List.append_assoc] using this

/-- **C22** `from_shapes` raises ValueError exactly for no shapes; given the boxes of shapes with the points `qss` it is
the box of all the points together, hence the smallest box enclosing all the shapes. -/
theorem C22_from_shapes (bs : List (Box K)) (qss : List (List (Vec2 K)))
    (h : List.Forall₂ (fun b qs => Box.fromPoints qs = .ok b) bs qss) :
    (bs = [] → Box.fromShapes bs = .error .valueError) ∧
    (bs ≠ [] → ∃ b, Box.fromShapes bs = .ok b ∧ Box.fromPoints qss.flatten = .ok b ∧
      b.Tight qss.flatten ∧ ∀ s ∈ bs, b.Encloses s.min ∧ b.Encloses s.max) := by
  constructor
  · rintro rfl; rfl
  · intro hne
    cases h with
    | nil => exact absurd rfl hne
    | @cons s qs bs qss hs hrest =>
      have hrest' : List.Forall₂ (fun b qs => Box.Tight b qs) bs qss :=
        hrest.imp fun _ _ h => fromPoints_iff.mp h
      have ht := fromShapes_fold bs qss hrest' (s.min, s.max) qs (fromPoints_iff.mp hs)
      have hok : Box.fromShapes (s :: bs) = .ok
        ⟨(bs.foldl (fun (acc : Vec2 K × Vec2 K) q => Box.stepShape acc.1 acc.2 q) (s.min, s.max)).1,
         (bs.foldl (fun (acc : Vec2 K × Vec2 K) q => Box.stepShape acc.1 acc.2 q) (s.min, s.max)).2⟩ := by
        simp [Box.fromShapes, Vec2.copy_fl]
      refine ⟨_, hok, fromPoints_iff.mpr ?_, ?_, ?_⟩
      · simpa using ht
      · simpa using ht
      · have hall : List.Forall₂ (fun b qs => Box.Tight b qs) (s :: bs) (qs :: qss) :=
          List.Forall₂.cons (fromPoints_iff.mp hs) hrest'
        have ht' := ht
        rw [← List.flatten_cons] at ht'
        intro s' hs'
        obtain ⟨i, hi, rfl⟩ := List.getElem_of_mem hs'
        have hlen := hall.length_eq
        have hti : Box.Tight (s :: bs)[i] (qs :: qss)[i] := List.forall₂_iff_get.mp hall |>.2 i hi (hlen ▸ hi)
        apply hti.least
        intro p hp
        exact ht'.1 p (List.mem_flatten.mpr ⟨_, List.getElem_mem _, hp⟩)

example : List.Forall₂ (fun b qs => Box.fromPoints qs = .ok b)
    [⟨⟨0, 0⟩, ⟨2, 1⟩⟩, ⟨⟨1, 1⟩, ⟨3, 3⟩⟩] [[⟨0, 0⟩, ⟨2, (1:ℚ)⟩], [⟨1, 3⟩, ⟨3, 1⟩]] := by
  refine .cons ?_ (.cons ?_ .nil) <;> rw [fromPoints_iff] <;> norm_num [Box.Tight, Box.Encloses]

theorem containsPoint_iff (b : Box K) (p : Vec2 K) : b.containsPoint p = true ↔
    b.min.x ≤ p.x ∧ p.x < b.max.x ∧ b.min.y < p.y ∧ p.y ≤ b.max.y := by
  simp only [Box.containsPoint, Bool.and_eq_true, decide_eq_true_eq, and_assoc]

/-- The point is strictly inside the box (specification). -/
def Box.Interior (b : Box K) (p : Vec2 K) : Prop :=
  b.min.x < p.x ∧ p.x < b.max.x ∧ b.min.y < p.y ∧ p.y < b.max.y

/-- **C23** a box contains the points inside it, no point outside it, and an empty box contains nothing. -/
theorem C23_inside (b : Box K) (p : Vec2 K) :
    (b.isEmpty = true → b.containsPoint p = false) ∧
    (b.containsPoint p = true → b.Encloses p) ∧ (b.Interior p → b.containsPoint p = true) := by
  refine ⟨?_, ?_, ?_⟩
  · intro h
    rw [Bool.eq_false_iff, Ne, containsPoint_iff]
    rintro ⟨h1, h2, h3, h4⟩
    simp only [Box.isEmpty, Vec2.sub_x, Vec2.sub_y, Bool.or_eq_true, beq_iff_eq] at h
    rcases h with h | h
    · exact absurd (f_eq_of_sub _ _ h) (h1.trans_lt h2).ne'
    · exact absurd (f_eq_of_sub _ _ h) (h3.trans_le h4).ne'
  · rw [containsPoint_iff]; rintro ⟨h1, h2, h3, h4⟩; exact ⟨h1, h2.le, h3.le, h4⟩
  · rintro ⟨h1, h2, h3, h4⟩; rw [containsPoint_iff]; exact ⟨h1.le, h2, h3, h4.le⟩

/-- **C23** no gaps: cutting a box at any x or any y gives two parts that share no point and together contain exactly the
points of the box. -/
theorem C23_no_gaps (b : Box K) (p : Vec2 K) (c : K) :
    (b.min.x ≤ c → c ≤ b.max.x → let l : Box K := ⟨b.min, ⟨c, b.max.y⟩⟩; let r : Box K := ⟨⟨c, b.min.y⟩, b.max⟩
      (b.containsPoint p = true ↔ l.containsPoint p = true ∨ r.containsPoint p = true) ∧
      ¬ (l.containsPoint p = true ∧ r.containsPoint p = true)) ∧
    (b.min.y ≤ c → c ≤ b.max.y → let l : Box K := ⟨b.min, ⟨b.max.x, c⟩⟩; let r : Box K := ⟨⟨b.min.x, c⟩, b.max⟩
      (b.containsPoint p = true ↔ l.containsPoint p = true ∨ r.containsPoint p = true) ∧
      ¬ (l.containsPoint p = true ∧ r.containsPoint p = true)) := by
  constructor
  · intro h1 h2
    simp only [containsPoint_iff]
    rcases lt_or_ge p.x c with h | h
    · have h' := not_le.mpr h
      have := lt_of_lt_of_le h h2
      tauto
    · have h' := not_lt.mpr h
      have := h1.trans h
      tauto
  · intro h1 h2
    simp only [containsPoint_iff]
    rcases lt_or_ge c p.y with h | h
    · have h' := not_le.mpr h
      have := lt_of_le_of_lt h1 h
      tauto
    · have h' := not_lt.mpr h
      have := h.trans h2
      tauto

example : Box.containsPoint (K := ℚ) ⟨⟨0, 0⟩, ⟨2, 2⟩⟩ ⟨0, 2⟩ = true ∧
    Box.containsPoint (K := ℚ) ⟨⟨0, 0⟩, ⟨2, 2⟩⟩ ⟨2, 0⟩ = false := by
  rw [Bool.eq_false_iff, Ne, containsPoint_iff, containsPoint_iff]; norm_num

/-- The box with two given opposite corners. -/
theorem fromPoints_pair (p q : Vec2 K) : Box.fromPoints [p, q] =
    .ok ⟨⟨min p.x q.x, min p.y q.y⟩, ⟨max p.x q.x, max p.y q.y⟩⟩ := by
  rw [fromPoints_iff]
  refine ⟨?_, ?_, ?_, ?_, ?_⟩
  · intro r hr
    simp at hr
    rcases hr with rfl | rfl <;> simp [Box.Encloses]
  · simp only [List.mem_cons, List.not_mem_nil, or_false, exists_eq_or_imp, exists_eq_left]
    rcases le_total p.x q.x with h | h <;> simp [h]
  · simp only [List.mem_cons, List.not_mem_nil, or_false, exists_eq_or_imp, exists_eq_left]
    rcases le_total p.x q.x with h | h <;> simp [h]
  · simp only [List.mem_cons, List.not_mem_nil, or_false, exists_eq_or_imp, exists_eq_left]
    rcases le_total p.y q.y with h | h <;> simp [h]
  · simp only [List.mem_cons, List.not_mem_nil, or_false, exists_eq_or_imp, exists_eq_left]
    rcases le_total p.y q.y with h | h <;> simp [h]

end Rounded

section Field
variable {K : Type} [Field K] [LinearOrder K] [IsStrictOrderedRing K]

/-- **C23** two boxes containing a common point have overlapping interiors, so boxes that only share boundary never both
claim a point; an empty box contains nothing. -/
theorem C23_no_double_count (b b' : Box K) (p : Vec2 K) :
    (b.containsPoint p = true → b'.containsPoint p = true → ∃ q, b.Interior q ∧ b'.Interior q) ∧
    (b.isEmpty = true → b.containsPoint p = false) ∧
    (b.containsPoint p = true → b.Encloses p) ∧ (b.Interior p → b.containsPoint p = true) := by
  refine ⟨?_, ?_, ?_, ?_⟩
  · rw [containsPoint_iff, containsPoint_iff]
    rintro ⟨h1, h2, h3, h4⟩ ⟨g1, g2, g3, g4⟩
    refine ⟨⟨(p.x + min b.max.x b'.max.x) / 2, (p.y + max b.min.y b'.min.y) / 2⟩, ?_⟩
    have x1 : p.x < min b.max.x b'.max.x := lt_min h2 g2
    have y1 : max b.min.y b'.min.y < p.y := max_lt h3 g3
    have x2 := min_le_left b.max.x b'.max.x
    have x3 := min_le_right b.max.x b'.max.x
    have y2 := le_max_left b.min.y b'.min.y
    have y3 := le_max_right b.min.y b'.min.y
    simp only [Box.Interior]
    refine ⟨⟨?_, ?_, ?_, ?_⟩, ⟨?_, ?_, ?_, ?_⟩⟩ <;> linarith
  · intro h
    rw [Bool.eq_false_iff, Ne, containsPoint_iff]
    rintro ⟨h1, h2, h3, h4⟩
    simp only [Box.isEmpty, Vec2.sub_x, Vec2.sub_y, Bool.or_eq_true, beq_iff_eq] at h
    rcases h with h | h <;> linarith
  · rw [containsPoint_iff]; rintro ⟨h1, h2, h3, h4⟩; exact ⟨h1, h2.le, h3.le, h4⟩
  · rintro ⟨h1, h2, h3, h4⟩; rw [containsPoint_iff]; exact ⟨h1.le, h2, h3, h4.le⟩

theorem box_pair_facts (p q : Vec2 K) (b : Box K) (h : Box.fromPoints [p, q] = .ok b) :
    b.center = ⟨(p.x + q.x) / 2, (p.y + q.y) / 2⟩ ∧ b.width = |q.x - p.x| ∧ b.height = |q.y - p.y| := by
  rw [fromPoints_pair] at h
  simp only [Except.ok.injEq] at h
  subst h
  have two : (1 : K) + 1 = 2 := one_add_one_eq_two
  refine ⟨?_, ?_, ?_⟩
  · ext <;> simp [Box.center, two, min_add_max]
  · simp only [Box.width]; rw [max_sub_min_eq_abs]
  · simp only [Box.height]; rw [max_sub_min_eq_abs]

/-- **C24** `from_center` has the given centre and size; `inflate` keeps the centre and changes width and height by
the amounts (in absolute value). -/
theorem C24_center (c : Vec2 K) (w h : K) (b : Box K) (d : Vec2 K) (k : K) :
    (∃ r, Box.fromCenter c w h = .ok r ∧ r.center = c ∧ r.width = |w| ∧ r.height = |h|) ∧
    (∃ r, b.inflateV d = .ok r ∧ r.center = b.center ∧ r.width = |b.width + d.x| ∧
      r.height = |b.height + d.y|) ∧
    b.inflateS k = b.inflateV ⟨k, k⟩ := by
  have two : (1 : K) + 1 = 2 := one_add_one_eq_two
  refine ⟨?_, ?_, ?_⟩
  · obtain ⟨r, hr⟩ : ∃ r, Box.fromCenter c w h = .ok r := ⟨_, fromPoints_pair _ _⟩
    obtain ⟨h1, h2, h3⟩ := box_pair_facts _ _ _ hr
    refine ⟨r, hr, ?_, ?_, ?_⟩
    · rw [h1]; ext <;> simp <;> ring
    · rw [h2]; simp only [two]; congr 1; ring
    · rw [h3]; simp only [two]; congr 1; ring
  · obtain ⟨r, hr⟩ : ∃ r, b.inflateV d = .ok r := ⟨_, fromPoints_pair _ _⟩
    obtain ⟨h1, h2, h3⟩ := box_pair_facts _ _ _ hr
    refine ⟨r, hr, ?_, ?_, ?_⟩
    · rw [h1]; ext <;> simp [Box.center, two]
    · rw [h2]; simp only [two, Vec2.add_x, Vec2.sub_x, Vec2.copy_eq, Box.width]; congr 1; ring
    · rw [h3]; simp only [two, Vec2.add_y, Vec2.sub_y, Vec2.copy_eq, Box.height]; congr 1; ring
  · simp [Box.inflateS]

/-- **C25** fit of a box: inside the frame, centred, of the same aspect ratio, touching in one dimension;
ZeroDivisionError when the box has a zero width or height. -/
theorem C25_fit_box (frame s : Box K) (hf : frame.min.x ≤ frame.max.x ∧ frame.min.y ≤ frame.max.y) :
    (0 < s.width → 0 < s.height → ∃ r, frame.fitBox s = .ok r ∧
      frame.Encloses r.min ∧ frame.Encloses r.max ∧ r.center = frame.center ∧
      r.width * s.height = r.height * s.width ∧
      (r.width = frame.width ∨ r.height = frame.height)) ∧
    ((s.width = 0 ∨ s.height = 0) → frame.fitBox s = .error .zeroDivisionError) := by
  have two : (1 : K) + 1 = 2 := one_add_one_eq_two
  constructor
  · intro hw hh
    have hfw : 0 ≤ frame.width := sub_nonneg.mpr hf.1
    have hfh : 0 ≤ frame.height := sub_nonneg.mpr hf.2
    set k := min (frame.width / s.width) (frame.height / s.height) with hk
    have hk0 : 0 ≤ k := le_min (div_nonneg hfw hw.le) (div_nonneg hfh hh.le)
    have hkw : s.width * k ≤ frame.width := by
      have := min_le_left (frame.width / s.width) (frame.height / s.height)
      rw [← hk, le_div_iff₀ hw] at this; linarith
    have hkh : s.height * k ≤ frame.height := by
      have := min_le_right (frame.width / s.width) (frame.height / s.height)
      rw [← hk, le_div_iff₀ hh] at this; linarith
    have hfit : frame.fitBox s = Box.fromCenter frame.center (s.width * k) (s.height * k) := by
      simp only [Box.fitBox, pydiv_ok hw.ne', pydiv_ok hh.ne', pymin_eq_min, ← hk]
      rfl
    have hbw : 0 ≤ s.width * k := mul_nonneg hw.le hk0
    have hbh : 0 ≤ s.height * k := mul_nonneg hh.le hk0
    obtain ⟨r, hr, h1, h2, h3⟩ := (C24_center frame.center (s.width * k) (s.height * k) frame ⟨0,0⟩ 0).1
    rw [abs_of_nonneg hbw] at h2
    rw [abs_of_nonneg hbh] at h3
    have hc := h1
    rw [Vec2.ext_iff'] at hc
    simp only [Box.center, two] at hc
    obtain ⟨c1, c2⟩ := hc
    have c1' : r.min.x + r.max.x = frame.min.x + frame.max.x := by
      have := congrArg (· * (2:K)) c1; simpa using this
    have c2' : r.min.y + r.max.y = frame.min.y + frame.max.y := by
      have := congrArg (· * (2:K)) c2; simpa using this
    have w1 : r.max.x - r.min.x ≤ frame.max.x - frame.min.x := by
      have : r.width ≤ frame.width := by rw [h2]; exact hkw
      exact this
    have w2 : r.max.y - r.min.y ≤ frame.max.y - frame.min.y := by
      have : r.height ≤ frame.height := by rw [h3]; exact hkh
      exact this
    have w3 : 0 ≤ r.max.x - r.min.x := by
      have : 0 ≤ r.width := by rw [h2]; exact hbw
      exact this
    have w4 : 0 ≤ r.max.y - r.min.y := by
      have : 0 ≤ r.height := by rw [h3]; exact hbh
      exact this
    refine ⟨r, by rw [hfit, hr], ?_, ?_, h1, ?_, ?_⟩
    · refine ⟨?_, ?_, ?_, ?_⟩ <;> linarith
    · refine ⟨?_, ?_, ?_, ?_⟩ <;> linarith
    · rw [h2, h3]; ring
    · rcases min_choice (frame.width / s.width) (frame.height / s.height) with h | h
      · left; rw [h2, hk, h]; field_simp
      · right; rw [h3, hk, h]; field_simp
  · intro h
    by_cases hw : s.width = 0
    · simp only [Box.fitBox, hw, pydiv_zero]; rfl
    · have hh : s.height = 0 := by tauto
      simp only [Box.fitBox, hh, pydiv_zero, pydiv_ok hw]; rfl

example : Box.fitBox (K := ℚ) ⟨⟨0, 0⟩, ⟨4, 2⟩⟩ ⟨⟨10, 10⟩, ⟨11, 11⟩⟩ = .ok ⟨⟨1, 0⟩, ⟨3, 2⟩⟩ := by
  have h1 : Box.width (K := ℚ) ⟨⟨10, 10⟩, ⟨11, 11⟩⟩ = 1 := by norm_num [Box.width]
  have h2 : Box.height (K := ℚ) ⟨⟨10, 10⟩, ⟨11, 11⟩⟩ = 1 := by norm_num [Box.height]
  simp only [Box.fitBox, h1, h2, pydiv_ok one_ne_zero, bind, Except.bind, Box.fromCenter, fromPoints_pair]
  norm_num [Box.center, Box.width, Box.height]

/-! ### C26 -/

/-- The scale factor `fit` uses. -/
def fitScale (frame s : Box K) : K := min (frame.width / s.width) (frame.height / s.height)

theorem fitTransform_apply (frame s : Box K) (hw : s.width ≠ 0) (hh : s.height ≠ 0) :
    ∃ T, frame.fitTransform s = .ok T ∧
      ∀ p, T.apply p = p.smul (fitScale frame s) + (frame.center - s.center) := by
  refine ⟨_, by simp only [Box.fitTransform, pydiv_ok hw, pydiv_ok hh]; rfl, ?_⟩
  intro p
  ext <;> simp [Affine.mul, Affine.translation, Affine.scaleS, fitScale]

/-- **C26** (partial) fitting a polygon puts it inside the frame when its box is centred at the origin or already has the
frame's size (scale 1). The general claim fails, see `C26_violated`: the polygon is scaled about the origin, not about
its centre. -/
theorem C26_fit_polygon_partial (frame : Box K) (poly : Polygon K) (sb : Box K)
    (hf : frame.min.x ≤ frame.max.x ∧ frame.min.y ≤ frame.max.y)
    (hsb : Box.fromPoints poly.verts = .ok sb) (hbb : poly.bbox = none ∨ poly.bbox = some sb)
    (hw : 0 < sb.width) (hh : 0 < sb.height)
    (hfix : sb.center = Vec2.null ∨ fitScale frame sb = 1) :
    ∃ r, (frame.fitPolygon poly).1 = .ok r ∧ r.verts.length = poly.verts.length ∧
      ∀ v ∈ r.verts, frame.Encloses v := by
  have two : (1 : K) + 1 = 2 := one_add_one_eq_two
  have hbox : ∃ s', poly.boundingBox = (.ok sb, s') ∧ s'.verts = poly.verts := by
    rcases hbb with h | h
    · exact ⟨{ poly with bbox := some sb }, by simp only [Polygon.boundingBox, h, hsb], rfl⟩
    · exact ⟨poly, by simp only [Polygon.boundingBox, h], rfl⟩
  obtain ⟨s', hs', hv⟩ := hbox
  obtain ⟨T, hT, happ⟩ := fitTransform_apply frame sb hw.ne' hh.ne'
  refine ⟨s'.transformed T, ?_, ?_, ?_⟩
  · simp only [Box.fitPolygon, hs', hT]
  · simp [Polygon.transformed, Polygon.fromPoints, Polygon.cleared, Affine.applyPts, hv]
  · intro v hv'
    simp only [Polygon.transformed, Polygon.fromPoints, Polygon.cleared, Affine.applyPts, hv,
      List.mem_map] at hv'
    obtain ⟨p, hp, rfl⟩ := hv'
    have hpe := (fromPoints_iff.mp hsb).1 p hp
    change frame.Encloses (T.apply p)
    rw [happ]
    set k := fitScale frame sb with hk
    have hfw : 0 ≤ frame.width := sub_nonneg.mpr hf.1
    have hfh : 0 ≤ frame.height := sub_nonneg.mpr hf.2
    have hk0 : 0 ≤ k := le_min (div_nonneg hfw hw.le) (div_nonneg hfh hh.le)
    have hkw : sb.width * k ≤ frame.width := by
      have := min_le_left (frame.width / sb.width) (frame.height / sb.height)
      rw [le_div_iff₀ hw] at this; unfold fitScale at hk; rw [hk]; linarith
    have hkh : sb.height * k ≤ frame.height := by
      have := min_le_right (frame.width / sb.width) (frame.height / sb.height)
      rw [le_div_iff₀ hh] at this; unfold fitScale at hk; rw [hk]; linarith
    have hcen : sb.center.smul k = sb.center := by
      rcases hfix with h | h
      · rw [h]; ext <;> simp
      · rw [h]; ext <;> simp
    have e : p.smul k + (frame.center - sb.center) = (p - sb.center).smul k + frame.center := by
      have h1 := congrArg Vec2.x hcen
      have h2 := congrArg Vec2.y hcen
      simp only [Vec2.smul_x, Vec2.smul_y] at h1 h2
      ext
      · simp; linear_combination h1
      · simp; linear_combination h2
    rw [e]
    obtain ⟨p1, p2, p3, p4⟩ := hpe
    have gx : |(p.x - (sb.min.x + sb.max.x) / 2) * k| ≤ frame.width / 2 := by
      rw [abs_mul, abs_of_nonneg hk0]
      have : |p.x - (sb.min.x + sb.max.x) / 2| ≤ sb.width / 2 := by
        rw [abs_le]; simp only [Box.width]; constructor <;> linarith
      calc _ ≤ sb.width / 2 * k := mul_le_mul_of_nonneg_right this hk0
        _ ≤ _ := by linarith
    have gy : |(p.y - (sb.min.y + sb.max.y) / 2) * k| ≤ frame.height / 2 := by
      rw [abs_mul, abs_of_nonneg hk0]
      have : |p.y - (sb.min.y + sb.max.y) / 2| ≤ sb.height / 2 := by
        rw [abs_le]; simp only [Box.height]; constructor <;> linarith
      calc _ ≤ sb.height / 2 * k := mul_le_mul_of_nonneg_right this hk0
        _ ≤ _ := by linarith
    rw [abs_le] at gx gy
    simp only [Box.Encloses, Box.center, two, Vec2.add_x, Vec2.add_y, Vec2.smul_x, Vec2.smul_y,
      Vec2.sub_x, Vec2.sub_y, Box.width, Box.height] at *
    refine ⟨?_, ?_, ?_, ?_⟩ <;> linarith [gx.1, gx.2, gy.1, gy.2]

/-- **C26** is violated: the triangle (2,2),(4,2),(2,4) fitted in the box from (0,0) to (1,1) sticks out. -/
theorem C26_violated : ∃ (frame : Box ℚ) (poly r : Polygon ℚ),
    (frame.fitPolygon poly).1 = .ok r ∧ poly.verts.length = 3 ∧ frame.min.x < frame.max.x ∧
    frame.min.y < frame.max.y ∧ ∃ v ∈ r.verts, ¬ frame.Encloses v := by
  have hb : Box.fromPoints (K := ℚ) [⟨2, 2⟩, ⟨4, 2⟩, ⟨2, 4⟩] = .ok ⟨⟨2, 2⟩, ⟨4, 4⟩⟩ := by
    rw [fromPoints_iff]; norm_num [Box.Tight, Box.Encloses]
  obtain ⟨T, hT, happ⟩ := fitTransform_apply (K := ℚ) ⟨⟨0, 0⟩, ⟨1, 1⟩⟩ ⟨⟨2, 2⟩, ⟨4, 4⟩⟩
    (by norm_num [Box.width]) (by norm_num [Box.height])
  refine ⟨⟨⟨0, 0⟩, ⟨1, 1⟩⟩, Polygon.fromPoints [⟨2, 2⟩, ⟨4, 2⟩, ⟨2, 4⟩],
    Polygon.fromPoints (T.applyPts [⟨2, 2⟩, ⟨4, 2⟩, ⟨2, 4⟩]), ?_, rfl, ?_, ?_, T.apply ⟨2, 2⟩, ?_, ?_⟩
  · simp only [Box.fitPolygon, Polygon.boundingBox, Polygon.fromPoints, Polygon.cleared, hb, hT]
    rfl
  · norm_num
  · norm_num
  · exact List.mem_map.mpr ⟨⟨2, 2⟩, by simp, rfl⟩
  · rw [happ]
    norm_num [Box.Encloses, fitScale, Box.width, Box.height, Box.center]

/-! ### C27 -/

/-- **C27** the image of a box under a transform whose matrix is exactly rectilinear (off-diagonal or diagonal entries
zero), and which the code takes as rectilinear (EPSILON > 0): the box of all four transformed corners; every point of the
closed box is mapped into it, and for an invertible transform every point of it is such an image. -/
theorem C27_rectilinear (eps : K) (heps : 0 < eps) (b : Box K) (T : Affine K)
    (hb : b.min.x ≤ b.max.x ∧ b.min.y ≤ b.max.y)
    (hT : (T.a = 0 ∧ T.e = 0) ∨ (T.b = 0 ∧ T.d = 0)) :
    ∃ r, b.mulT eps T = .ok (.box r) ∧
      Box.fromPoints [T.apply b.min, T.apply ⟨b.min.x, b.max.y⟩, T.apply b.max, T.apply ⟨b.max.x, b.min.y⟩] = .ok r ∧
      (∀ p, b.Encloses p → r.Encloses (T.apply p)) ∧
      (T.determinant ≠ 0 → ∀ q, r.Encloses q → ∃ p, b.Encloses p ∧ T.apply p = q) := by
  have hrect : T.isRectilinear eps = true := by
    rcases hT with ⟨h1, h2⟩ | ⟨h1, h2⟩ <;> simp [Affine.isRectilinear, h1, h2, heps]
  have hok := fromPoints_pair (T.apply b.min) (T.apply b.max)
  refine ⟨_, by simp only [Box.mulT, hrect, if_true, hok]; rfl, ?_⟩
  have hmono : ∀ u v w k : K, u ≤ v → v ≤ w → min (u * k) (w * k) ≤ v * k ∧ v * k ≤ max (u * k) (w * k) := by
    intro u v w k huv hvw
    rcases le_total 0 k with h | h
    · exact ⟨(min_le_left _ _).trans (mul_le_mul_of_nonneg_right huv h),
        (mul_le_mul_of_nonneg_right hvw h).trans (le_max_right _ _)⟩
    · exact ⟨(min_le_right _ _).trans (mul_le_mul_of_nonpos_right hvw h),
        (mul_le_mul_of_nonpos_right huv h).trans (le_max_left _ _)⟩
  have henc : ∀ p, b.Encloses p → Box.Encloses ⟨⟨min (T.apply b.min).x (T.apply b.max).x,
      min (T.apply b.min).y (T.apply b.max).y⟩, ⟨max (T.apply b.min).x (T.apply b.max).x,
      max (T.apply b.min).y (T.apply b.max).y⟩⟩ (T.apply p) := by
    rintro p ⟨h1, h2, h3, h4⟩
    simp only [Box.Encloses, Affine.apply_x, Affine.apply_y]
    rcases hT with ⟨e1, e2⟩ | ⟨e1, e2⟩ <;>
      simp only [e1, e2, mul_zero, zero_add, add_zero, min_add_add_right, max_add_add_right,
        add_le_add_iff_right]
    · exact ⟨(hmono _ _ _ _ h3 h4).1, (hmono _ _ _ _ h3 h4).2, (hmono _ _ _ _ h1 h2).1, (hmono _ _ _ _ h1 h2).2⟩
    · exact ⟨(hmono _ _ _ _ h1 h2).1, (hmono _ _ _ _ h1 h2).2, (hmono _ _ _ _ h3 h4).1, (hmono _ _ _ _ h3 h4).2⟩
  refine ⟨?_, henc, ?_⟩
  · rw [fromPoints_iff]
    refine ⟨?_, ?_, ?_, ?_, ?_⟩
    · intro r hr
      simp only [List.mem_cons, List.not_mem_nil, or_false] at hr
      rcases hr with rfl | rfl | rfl | rfl <;> apply henc <;>
        exact ⟨by simp [hb], by simp [hb], by simp [hb], by simp [hb]⟩
    · rcases le_total (T.apply b.min).x (T.apply b.max).x with h | h
      · exact ⟨T.apply b.min, by simp, by simp only [min_eq_left h]⟩
      · exact ⟨T.apply b.max, by simp, by simp only [min_eq_right h]⟩
    · rcases le_total (T.apply b.min).x (T.apply b.max).x with h | h
      · exact ⟨T.apply b.max, by simp, by simp only [max_eq_right h]⟩
      · exact ⟨T.apply b.min, by simp, by simp only [max_eq_left h]⟩
    · rcases le_total (T.apply b.min).y (T.apply b.max).y with h | h
      · exact ⟨T.apply b.min, by simp, by simp only [min_eq_left h]⟩
      · exact ⟨T.apply b.max, by simp, by simp only [min_eq_right h]⟩
    · rcases le_total (T.apply b.min).y (T.apply b.max).y with h | h
      · exact ⟨T.apply b.max, by simp, by simp only [max_eq_right h]⟩
      · exact ⟨T.apply b.min, by simp, by simp only [max_eq_left h]⟩
  · intro hdet q hq
    have hinv : ∀ u w k t : K, k ≠ 0 → u ≤ w → min (u * k) (w * k) ≤ t → t ≤ max (u * k) (w * k) →
        u ≤ t / k ∧ t / k ≤ w := by
      intro u w k t hk huw h1 h2
      rcases lt_or_gt_of_ne hk with h | h
      · rw [min_eq_right (mul_le_mul_of_nonpos_right huw h.le)] at h1
        rw [max_eq_left (mul_le_mul_of_nonpos_right huw h.le)] at h2
        exact ⟨(le_div_iff_of_neg h).mpr h2, (div_le_iff_of_neg h).mpr h1⟩
      · rw [min_eq_left (mul_le_mul_of_nonneg_right huw h.le)] at h1
        rw [max_eq_right (mul_le_mul_of_nonneg_right huw h.le)] at h2
        exact ⟨(le_div_iff₀ h).mpr h1, (div_le_iff₀ h).mpr h2⟩
    obtain ⟨q1, q2, q3, q4⟩ := hq
    simp only [Affine.apply_x, Affine.apply_y] at q1 q2 q3 q4
    simp only [Affine.determinant] at hdet
    rcases hT with ⟨e1, e2⟩ | ⟨e1, e2⟩ <;>
      simp only [e1, e2, mul_zero, zero_mul, zero_add, add_zero, min_add_add_right, max_add_add_right,
        sub_zero, zero_sub, neg_ne_zero] at q1 q2 q3 q4 hdet
    · have hb' := left_ne_zero_of_mul hdet
      have hd' := right_ne_zero_of_mul hdet
      obtain ⟨x1, x2⟩ := hinv b.min.x b.max.x T.b (q.y - T.f) hb' hb.1 (by linarith) (by linarith)
      obtain ⟨y1, y2⟩ := hinv b.min.y b.max.y T.d (q.x - T.c) hd' hb.2 (by linarith) (by linarith)
      refine ⟨⟨(q.y - T.f) / T.b, (q.x - T.c) / T.d⟩, ⟨x1, x2, y1, y2⟩, ?_⟩
      ext <;> simp [e1, e2] <;> field_simp <;> ring
    · have ha' := left_ne_zero_of_mul hdet
      have he' := right_ne_zero_of_mul hdet
      obtain ⟨x1, x2⟩ := hinv b.min.x b.max.x T.a (q.x - T.c) ha' hb.1 (by linarith) (by linarith)
      obtain ⟨y1, y2⟩ := hinv b.min.y b.max.y T.e (q.y - T.f) he' hb.2 (by linarith) (by linarith)
      refine ⟨⟨(q.x - T.c) / T.a, (q.y - T.f) / T.e⟩, ⟨x1, x2, y1, y2⟩, ?_⟩
      ext <;> simp [e1, e2] <;> field_simp <;> ring

example : let T : Affine ℚ := ⟨0, 2, 1, -3, 0, 5⟩
    (T.a = 0 ∧ T.e = 0) ∧ T.determinant ≠ 0 := by norm_num [Affine.determinant]

end Field
end Planar
