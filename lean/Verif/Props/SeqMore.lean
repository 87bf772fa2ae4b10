import Verif.Props.Seq
import Verif.Props.VecMore
/-
More of C30: division by a vector, reflected division, floor division in all its forms.
-/
set_option linter.unusedSectionVars false
namespace Planar

/-- A comprehension over a function that raises `e` outside `P`. -/
theorem mapM_guarded {α β : Type} (f : α → Py β) (g : α → β) (P : α → Prop) (e : PyErr)
    (hf : ∀ a, (P a → f a = .ok (g a)) ∧ (¬ P a → f a = .error e)) (l : List α) :
    ((∀ a ∈ l, P a) → l.mapM f = .ok (l.map g)) ∧ ((∃ a ∈ l, ¬ P a) → l.mapM f = .error e) := by
  induction l with
  | nil => exact ⟨fun _ => rfl, by rintro ⟨a, h, -⟩; cases h⟩
  | cons a l ih =>
    constructor
    · intro h
      rw [List.mapM_cons, (hf a).1 (h a (by simp)), ih.1 fun b hb => h b (by simp [hb])]; rfl
    · rintro ⟨b, hb, hP⟩
      rw [List.mapM_cons]
      by_cases ha : P a
      · have : b ∈ l := by
          rcases List.mem_cons.mp hb with rfl | h
          · exact absurd ha hP
          · exact h
        rw [(hf a).1 ha, ih.2 ⟨b, this, hP⟩]; rfl
      · rw [(hf a).2 ha]; rfl

theorem zip_map_eq {K : Type} (f : Vec2 K → Vec2 K → Vec2 K) (s o : Vecs K) :
    (s.zip o).map (fun ab => f ab.1 ab.2) = List.zipWith f s o := by
  induction s generalizing o with
  | nil => simp
  | cons a s ih => cases o <;> simp [ih]

section
variable {K : Type} [Field K] [LinearOrder K] [IsStrictOrderedRing K]

/-- `v` divided by `w` component by component (specification). -/
def quot (v w : Vec2 K) : Vec2 K := ⟨v.x / w.x, v.y / w.y⟩

/-- Neither component is zero. -/
def NoZero (w : Vec2 K) : Prop := w.x ≠ 0 ∧ w.y ≠ 0

theorem vdiv_guarded (v w : Vec2 K) :
    (NoZero w → v.vdiv w = .ok (quot v w)) ∧ (¬ NoZero w → v.vdiv w = .error .zeroDivisionError) := by
  refine ⟨fun h => (C01_div_vector v w).1 h, fun h => (C01_div_vector v w).2 ?_⟩
  unfold NoZero at h; tauto

/-- **C30** division by a vector and reflected division (`other / array`): element-wise, or ZeroDivisionError; lengths must
agree. -/
theorem C30_division_more (s o : Vecs K) (v : Vec2 K) :
    (NoZero v → ∃ out, Vec2Array.truediv s (.vec v) = .ok out ∧ EachElement (fun a => quot a v) s out) ∧
    (¬ NoZero v → s ≠ [] → Vec2Array.truediv s (.vec v) = .error .zeroDivisionError) ∧
    (s.length = o.length → (∀ a ∈ s, NoZero a) → ∃ out, Vec2Array.rtruediv s o = .ok out ∧
      Elementwise (fun a b => quot b a) s o out) ∧
    (s.length = o.length → (∃ a ∈ s, ¬ NoZero a) → Vec2Array.rtruediv s o = .error .zeroDivisionError) ∧
    (s.length ≠ o.length → Vec2Array.rtruediv s o = .error .valueError) := by
  have hv := mapM_guarded (fun a : Vec2 K => a.vdiv v) (fun a => quot a v) (fun _ => NoZero v)
    .zeroDivisionError (fun a => vdiv_guarded a v) s
  have hr := mapM_guarded (fun ab : Vec2 K × Vec2 K => ab.2.vdiv ab.1) (fun ab => quot ab.2 ab.1)
    (fun ab => NoZero ab.1) .zeroDivisionError (fun ab => vdiv_guarded ab.2 ab.1) (s.zip o)
  refine ⟨?_, ?_, ?_, ?_, ?_⟩
  · intro h
    refine ⟨_, ?_, map_each (fun a => quot a v) s⟩
    simp only [Vec2Array.truediv, Vec2.copy_eq]
    exact hv.1 fun _ _ => h
  · intro h hs
    obtain ⟨a, t, rfl⟩ := List.exists_cons_of_ne_nil hs
    simp only [Vec2Array.truediv, Vec2.copy_eq]
    exact hv.2 ⟨a, by simp, h⟩
  · intro hl h
    refine ⟨_, ?_, zipWith_elementwise (fun a b => quot b a) s o hl⟩
    simp only [Vec2Array.rtruediv, hl, if_true]
    rw [hr.1 fun ab hab => h _ (List.of_mem_zip hab).1, zip_map_eq (fun a b => quot b a)]
  · rintro hl ⟨a, ha, hz⟩
    simp only [Vec2Array.rtruediv, hl, if_true]
    obtain ⟨i, hi, rfl⟩ := List.getElem_of_mem ha
    refine hr.2 ⟨(s[i], o[i]'(hl ▸ hi)), ?_, hz⟩
    rw [List.mem_iff_getElem?]
    exact ⟨i, by rw [List.getElem?_zip_eq_some]; exact ⟨List.getElem?_eq_getElem _, List.getElem?_eq_getElem _⟩⟩
  · intro hl; simp [Vec2Array.rtruediv, hl]
end

/-- `v // w` component by component (specification). -/
noncomputable def fquot (v w : Vec2 ℝ) : Vec2 ℝ := ⟨(⌊v.x / w.x⌋ : ℝ), (⌊v.y / w.y⌋ : ℝ)⟩

theorem vfdiv_guarded (v w : Vec2 ℝ) :
    (NoZero w → v.vfdiv w = .ok (fquot v w)) ∧ (¬ NoZero w → v.vfdiv w = .error .zeroDivisionError) := by
  have h := C01_floordiv v w 1
  refine ⟨fun hw => h.2.2.1 hw, fun hw => h.2.2.2.1 ?_⟩
  unfold NoZero at hw; tauto

theorem sfdiv_guarded (v : Vec2 ℝ) (k : ℝ) :
    (k ≠ 0 → v.sfdiv k = .ok (fquot v ⟨k, k⟩)) ∧ (¬ k ≠ 0 → v.sfdiv k = .error .zeroDivisionError) := by
  have h := C01_floordiv v ⟨1, 1⟩ k
  exact ⟨fun hk => h.1 hk, fun hk => h.2.1 (by tauto)⟩

/-- **C30** floor division of an array by an array of the same length, a vector or a number, and reflected: element-wise,
or ZeroDivisionError; the in-place form agrees; lengths must agree. -/
theorem C30_floordiv (s o : Vecs ℝ) (v : Vec2 ℝ) (k : ℝ) (arg : ArrArg ℝ) :
    (s.length = o.length → (∀ b ∈ o, NoZero b) →
      ∃ out, Vec2Array.floordiv s (.arr o) = .ok out ∧ Elementwise fquot s o out) ∧
    (s.length = o.length → (∃ b ∈ o, ¬ NoZero b) → Vec2Array.floordiv s (.arr o) = .error .zeroDivisionError) ∧
    (NoZero v → ∃ out, Vec2Array.floordiv s (.vec v) = .ok out ∧ EachElement (fun a => fquot a v) s out) ∧
    (k ≠ 0 → ∃ out, Vec2Array.floordiv s (.num k) = .ok out ∧ EachElement (fun a => fquot a ⟨k, k⟩) s out) ∧
    (s.length = o.length → (∀ a ∈ s, NoZero a) →
      ∃ out, Vec2Array.rfloordiv s o = .ok out ∧ Elementwise (fun a b => fquot b a) s o out) ∧
    (s.length ≠ o.length → Vec2Array.floordiv s (.arr o) = .error .valueError ∧
      Vec2Array.rfloordiv s o = .error .valueError ∧ Vec2Array.ifloordiv s (.arr o) = (.error .valueError, s)) ∧
    InPlaceAgrees s (Vec2Array.floordiv s arg) (Vec2Array.ifloordiv s arg) := by
  have hp := mapM_guarded (fun ab : Vec2 ℝ × Vec2 ℝ => ab.1.vfdiv ab.2) (fun ab => fquot ab.1 ab.2)
    (fun ab => NoZero ab.2) .zeroDivisionError (fun ab => vfdiv_guarded ab.1 ab.2) (s.zip o)
  have hr := mapM_guarded (fun ab : Vec2 ℝ × Vec2 ℝ => ab.2.vfdiv ab.1) (fun ab => fquot ab.2 ab.1)
    (fun ab => NoZero ab.1) .zeroDivisionError (fun ab => vfdiv_guarded ab.2 ab.1) (s.zip o)
  have hv := mapM_guarded (fun a : Vec2 ℝ => a.vfdiv v) (fun a => fquot a v) (fun _ => NoZero v)
    .zeroDivisionError (fun a => vfdiv_guarded a v) s
  have hk := mapM_guarded (fun a : Vec2 ℝ => a.sfdiv k) (fun a => fquot a ⟨k, k⟩) (fun _ => k ≠ 0)
    .zeroDivisionError (fun a => sfdiv_guarded a k) s
  have ha : ∀ p : Py (Vecs ℝ), InPlaceAgrees s p (Vec2Array.assign s p) := by
    intro p; cases p <;> rfl
  refine ⟨?_, ?_, ?_, ?_, ?_, ?_, ?_⟩
  · intro hl h
    refine ⟨_, ?_, zipWith_elementwise fquot s o hl⟩
    simp only [Vec2Array.floordiv, hl, if_true]
    rw [hp.1 fun ab hab => h _ (List.of_mem_zip hab).2, zip_map_eq fquot]
  · rintro hl ⟨b, hb, hz⟩
    simp only [Vec2Array.floordiv, hl, if_true]
    obtain ⟨i, hi, rfl⟩ := List.getElem_of_mem hb
    refine hp.2 ⟨(s[i]'(hl ▸ hi), o[i]), ?_, hz⟩
    rw [List.mem_iff_getElem?]
    exact ⟨i, by rw [List.getElem?_zip_eq_some]; exact ⟨List.getElem?_eq_getElem _, List.getElem?_eq_getElem _⟩⟩
  · intro h
    refine ⟨_, ?_, map_each (fun a => fquot a v) s⟩
    simp only [Vec2Array.floordiv, Vec2.copy_eq]
    exact hv.1 fun _ _ => h
  · intro h
    refine ⟨_, ?_, map_each (fun a => fquot a ⟨k, k⟩) s⟩
    simp only [Vec2Array.floordiv]
    exact hk.1 fun _ _ => h
  · intro hl h
    refine ⟨_, ?_, zipWith_elementwise (fun a b => fquot b a) s o hl⟩
    simp only [Vec2Array.rfloordiv, hl, if_true]
    rw [hr.1 fun ab hab => h _ (List.of_mem_zip hab).1, zip_map_eq (fun a b => fquot b a)]
  · intro hl; simp [Vec2Array.floordiv, Vec2Array.rfloordiv, Vec2Array.ifloordiv, hl]
  · cases arg with
    | arr o =>
      by_cases h : s.length = o.length
      · simp only [Vec2Array.floordiv, Vec2Array.ifloordiv, h, if_true]; exact ha _
      · simp [InPlaceAgrees, Vec2Array.floordiv, Vec2Array.ifloordiv, h]
    | vec v => exact ha _
    | num k => exact ha _

/-- Witness: arrays without zero components and of equal length. -/
example : ∃ out, Vec2Array.floordiv [⟨7, 8⟩, (⟨9, 1⟩ : Vec2 ℝ)] (.arr [⟨2, 3⟩, ⟨4, -1⟩]) = .ok out ∧
    Elementwise fquot [⟨7, 8⟩, ⟨9, 1⟩] [⟨2, 3⟩, ⟨4, -1⟩] out :=
  (C30_floordiv _ _ ⟨1, 1⟩ 1 (.num 1)).1 rfl (by
    intro b hb
    simp only [List.mem_cons, List.not_mem_nil, or_false] at hb
    rcases hb with rfl | rfl <;> constructor <;> norm_num)

end Planar
