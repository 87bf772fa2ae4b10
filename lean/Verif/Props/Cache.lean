import Verif.Lemmas.Rounded
import Verif.Props.Affine
/- Property C20 (cached properties of transforms) for every history of reads, inversions and changes of EPSILON. -/
set_option linter.unusedSectionVars false
namespace Planar
open Spec
open AffObj

section
variable {K : Type} [LinearOrder K] [Add K] [Sub K] [Mul K] [Div K] [Neg K] [Zero K] [One K] [RoundedArith K]

/-- The value a fresh computation gives for a property of the transform, with the tolerance `eps` (specification: no
cache, no object state besides being the module's `identity` object). -/
def freshValue (eps : K) (T : Affine K) (isIdObj : Bool) : AffProp → AffVal K
  | .determinant => .num T.determinant
  | .isIdentity => .flag (T.isIdentity eps isIdObj)
  | .isRectilinear => .flag (T.isRectilinear eps)
  | .isConformal => .flag (T.isConformal eps)
  | .isOrthonormal => .flag (T.isOrthonormal eps)
  | .isDegenerate => .flag (T.isDegenerate eps)

/-- Does the event change EPSILON? -/
def Event.keepsEps : Event K → Prop
  | .setEpsilon _ => False
  | _ => True

/-- The value a read of `p` would return in a state. -/
def valueAt (w : K × AffObj K) (p : AffProp) : AffVal K := (w.2.read w.1 p).1

/-- The `__dict__` has an entry for the property. -/
def cachedVal (o : AffObj K) : AffProp → Option (AffVal K)
  | .determinant => o.cDet.map .num
  | .isIdentity => o.cIdentity.map .flag
  | .isRectilinear => o.cRectilinear.map .flag
  | .isConformal => o.cConformal.map .flag
  | .isOrthonormal => o.cOrthonormal.map .flag
  | .isDegenerate => o.cDegenerate.map .flag

theorem read_of_cached {eps : K} {o : AffObj K} {p : AffProp} {v : AffVal K}
    (h : cachedVal o p = some v) : (o.read eps p).1 = v := by
  cases p <;> simp only [cachedVal, Option.map_eq_some_iff] at h <;> obtain ⟨x, hx, rfl⟩ := h <;>
    simp [AffObj.read, readDet, readIdentity, readRectilinear, readConformal, readOrthonormal, readDegenerate, hx]

theorem cached_after_read (eps : K) (o : AffObj K) (p : AffProp) :
    cachedVal (o.read eps p).2 p = some (o.read eps p).1 := by
  cases p <;> simp only [AffObj.read, cachedVal, readDet, readIdentity, readRectilinear, readConformal,
    readOrthonormal, readDegenerate]
  all_goals split <;> simp_all

theorem cached_mono_read (eps : K) (o : AffObj K) (q p : AffProp) (v : AffVal K)
    (h : cachedVal o p = some v) : cachedVal (o.read eps q).2 p = some v := by
  revert h
  rcases o with ⟨T, i, cd, ci, cr, cc, co, cg⟩
  cases q
  · cases cd <;> cases p <;> simp +contextual [AffObj.read, cachedVal, readDet, readIdentity, readRectilinear, readConformal, readOrthonormal, readDegenerate]
  · cases ci <;> cases p <;> simp +contextual [AffObj.read, cachedVal, readDet, readIdentity, readRectilinear, readConformal, readOrthonormal, readDegenerate]
  · cases cr <;> cases p <;> simp +contextual [AffObj.read, cachedVal, readDet, readIdentity, readRectilinear, readConformal, readOrthonormal, readDegenerate]
  · cases cc <;> cases p <;> simp +contextual [AffObj.read, cachedVal, readDet, readIdentity, readRectilinear, readConformal, readOrthonormal, readDegenerate]
  · cases co <;> cases cc <;> cases p <;> simp +contextual [AffObj.read, cachedVal, readDet, readIdentity, readRectilinear, readConformal, readOrthonormal, readDegenerate]
  · cases cg <;> cases cd <;> cases p <;> simp +contextual [AffObj.read, cachedVal, readDet, readIdentity, readRectilinear, readConformal, readOrthonormal, readDegenerate]

/-- An entry present after a read was there before or is the value a read would give. -/
theorem cached_read_cases (eps : K) (o : AffObj K) (q p : AffProp) :
    cachedVal (o.read eps q).2 p = cachedVal o p ∨
    cachedVal (o.read eps q).2 p = some (o.read eps p).1 := by
  rcases o with ⟨T, i, cd, ci, cr, cc, co, cg⟩
  cases q
  · cases cd <;> cases p <;> simp [AffObj.read, cachedVal, readDet, readIdentity, readRectilinear, readConformal, readOrthonormal, readDegenerate]
  · cases ci <;> cases p <;> simp [AffObj.read, cachedVal, readDet, readIdentity, readRectilinear, readConformal, readOrthonormal, readDegenerate]
  · cases cr <;> cases p <;> simp [AffObj.read, cachedVal, readDet, readIdentity, readRectilinear, readConformal, readOrthonormal, readDegenerate]
  · cases cc <;> cases p <;> simp [AffObj.read, cachedVal, readDet, readIdentity, readRectilinear, readConformal, readOrthonormal, readDegenerate]
  · cases co <;> cases cc <;> cases p <;> simp [AffObj.read, cachedVal, readDet, readIdentity, readRectilinear, readConformal, readOrthonormal, readDegenerate]
  · cases cg <;> cases cd <;> cases p <;> simp [AffObj.read, cachedVal, readDet, readIdentity, readRectilinear, readConformal, readOrthonormal, readDegenerate]

theorem invert_snd (eps : K) (o : AffObj K) :
    (o.invert eps).2 = (o.read eps .isDegenerate).2 ∨
    (o.invert eps).2 = ((o.read eps .isDegenerate).2.read eps .determinant).2 := by
  simp only [invert, AffObj.read]
  split
  · left; rfl
  · right; rfl

theorem cached_mono_step (w : K × AffObj K) (e : Event K) (p : AffProp) (v : AffVal K)
    (h : cachedVal w.2 p = some v) : cachedVal (step w e).2 p = some v := by
  cases e with
  | read q => exact cached_mono_read _ _ _ _ _ h
  | invert =>
    simp only [step]
    rcases invert_snd w.1 w.2 with h' | h' <;> rw [h']
    · exact cached_mono_read _ _ _ _ _ h
    · exact cached_mono_read _ _ _ _ _ (cached_mono_read _ _ _ _ _ h)
  | setEpsilon e => exact h

theorem cached_mono_run (es : List (Event K)) (w : K × AffObj K) (p : AffProp) (v : AffVal K)
    (h : cachedVal w.2 p = some v) : cachedVal (run w es).2 p = some v := by
  induction es generalizing w with
  | nil => exact h
  | cons e es ih => exact ih _ (cached_mono_step w e p v h)

/-- **C20** once a property of the object has been read it keeps its answer through every later history, even one that
changes EPSILON. -/
theorem C20_stable (w : K × AffObj K) (p : AffProp) (later : List (Event K)) :
    valueAt (run (step w (.read p)) later) p = valueAt w p := by
  have h : cachedVal (step w (.read p)).2 p = some (valueAt w p) := cached_after_read _ _ _
  exact read_of_cached (cached_mono_run later _ p _ h)

/-- The object is consistent with the tolerance `eps`: each cached entry is the fresh value. -/
def Coherent (eps : K) (o : AffObj K) : Prop :=
  ∀ p v, cachedVal o p = some v → v = freshValue eps o.T o.isIdObj p

theorem read_T (eps : K) (o : AffObj K) (q : AffProp) :
    (o.read eps q).2.T = o.T ∧ (o.read eps q).2.isIdObj = o.isIdObj := by
  rcases o with ⟨T, i, cd, ci, cr, cc, co, cg⟩
  cases q
  · cases cd <;> simp [AffObj.read, readDet, readIdentity, readRectilinear, readConformal, readOrthonormal, readDegenerate]
  · cases ci <;> simp [AffObj.read, readDet, readIdentity, readRectilinear, readConformal, readOrthonormal, readDegenerate]
  · cases cr <;> simp [AffObj.read, readDet, readIdentity, readRectilinear, readConformal, readOrthonormal, readDegenerate]
  · cases cc <;> simp [AffObj.read, readDet, readIdentity, readRectilinear, readConformal, readOrthonormal, readDegenerate]
  · cases co <;> cases cc <;> simp [AffObj.read, readDet, readIdentity, readRectilinear, readConformal, readOrthonormal, readDegenerate]
  · cases cg <;> cases cd <;> simp [AffObj.read, readDet, readIdentity, readRectilinear, readConformal, readOrthonormal, readDegenerate]

theorem coherent_value {eps : K} {o : AffObj K} (h : Coherent eps o) (p : AffProp) :
    (o.read eps p).1 = freshValue eps o.T o.isIdObj p := by
  rcases hc : cachedVal o p with _ | v
  · have hconf := h .isConformal
    have hdet := h .determinant
    cases p <;> simp only [cachedVal, Option.map_eq_none_iff, Option.map_eq_some_iff, freshValue] at hc hconf hdet <;>
      simp only [AffObj.read, readDet, readIdentity, readRectilinear, readConformal, readOrthonormal,
        readDegenerate, freshValue, hc, Affine.isDegenerate, Affine.isOrthonormal]
    · rcases h2 : o.cConformal with _ | b
      · simp
      · have := hconf (.flag b) ⟨b, h2, rfl⟩
        simp only [AffVal.flag.injEq] at this
        simp [this]
    · rcases h2 : o.cDet with _ | b
      · simp
      · have := hdet (.num b) ⟨b, h2, rfl⟩
        simp only [AffVal.num.injEq] at this
        simp [this]
  · rw [read_of_cached hc]; exact h p v hc

theorem coherent_read {eps : K} {o : AffObj K} (h : Coherent eps o) (q : AffProp) :
    Coherent eps (o.read eps q).2 := by
  intro p v hv
  rw [(read_T eps o q).1, (read_T eps o q).2]
  rcases cached_read_cases eps o q p with h' | h' <;> rw [h'] at hv
  · exact h p v hv
  · rw [Option.some.injEq] at hv
    rw [← hv]; exact coherent_value h p

theorem coherent_fresh (eps : K) (T : Affine K) (b : Bool) : Coherent eps (AffObj.fresh T b) := by
  intro p v hv
  cases p <;> simp [cachedVal, fresh] at hv

theorem run_T (es : List (Event K)) (w : K × AffObj K) :
    (run w es).2.T = w.2.T ∧ (run w es).2.isIdObj = w.2.isIdObj := by
  induction es generalizing w with
  | nil => exact ⟨rfl, rfl⟩
  | cons e es ih =>
    have hs : (step w e).2.T = w.2.T ∧ (step w e).2.isIdObj = w.2.isIdObj := by
      cases e with
      | read q => exact read_T _ _ _
      | invert =>
        simp only [step]
        rcases invert_snd w.1 w.2 with h' | h' <;> rw [h']
        · exact read_T _ _ _
        · rw [(read_T _ _ _).1, (read_T _ _ _).2]; exact read_T _ _ _
      | setEpsilon e => exact ⟨rfl, rfl⟩
    have := ih (step w e)
    rw [hs.1, hs.2] at this
    exact this

theorem coherent_run (es : List (Event K)) (w : K × AffObj K) (hk : ∀ e ∈ es, Event.keepsEps e)
    (h : Coherent w.1 w.2) : (run w es).1 = w.1 ∧ Coherent w.1 (run w es).2 := by
  induction es generalizing w with
  | nil => exact ⟨rfl, h⟩
  | cons e es ih =>
    have hs : (step w e).1 = w.1 ∧ Coherent w.1 (step w e).2 := by
      cases e with
      | read q => exact ⟨rfl, coherent_read h q⟩
      | invert =>
        refine ⟨rfl, ?_⟩
        simp only [step]
        rcases invert_snd w.1 w.2 with h' | h' <;> rw [h']
        · exact coherent_read h _
        · exact coherent_read (coherent_read h _) _
      | setEpsilon e => exact absurd (hk _ List.mem_cons_self) (by simp [Event.keepsEps])
    have := ih (step w e) (fun e' he => hk e' (List.mem_cons_of_mem _ he)) (by rw [hs.1]; exact hs.2)
    rw [hs.1] at this
    exact this

/-- **C20** while EPSILON is unchanged every read of every property gives what a fresh computation on the transform
gives, whatever was read before. -/
theorem C20_fresh (eps : K) (T : Affine K) (b : Bool) (history : List (Event K))
    (hk : ∀ e ∈ history, Event.keepsEps e) (p : AffProp) :
    valueAt (run (eps, AffObj.fresh T b) history) p = freshValue eps T b p := by
  obtain ⟨h1, h2⟩ := coherent_run history (eps, AffObj.fresh T b) hk (coherent_fresh eps T b)
  obtain ⟨h3, h4⟩ := run_T history (eps, AffObj.fresh T b)
  have := coherent_value h2 p
  rw [h3, h4] at this
  unfold valueAt
  rw [h1]; exact this

/-- **C20** the determinant is right in every history at all. -/
theorem C20_determinant (eps : K) (T : Affine K) (b : Bool) (history : List (Event K)) :
    valueAt (run (eps, AffObj.fresh T b) history) .determinant = .num T.determinant := by
  have key : ∀ (es : List (Event K)) (w : K × AffObj K),
      (∀ v, cachedVal w.2 .determinant = some v → v = .num w.2.T.determinant) →
      (∀ v, cachedVal (run w es).2 .determinant = some v → v = .num (run w es).2.T.determinant) := by
    intro es
    induction es with
    | nil => intro w h; exact h
    | cons e es ih =>
      intro w h
      refine ih (step w e) ?_
      have hr : ∀ (eps : K) (o : AffObj K) q,
          (∀ v, cachedVal o .determinant = some v → v = .num o.T.determinant) →
          ∀ v, cachedVal (o.read eps q).2 .determinant = some v →
            v = .num (o.read eps q).2.T.determinant := by
        intro eps o q ho v hv
        rw [(read_T eps o q).1]
        rcases cached_read_cases eps o q .determinant with h' | h' <;> rw [h'] at hv
        · exact ho v hv
        · rw [Option.some.injEq] at hv
          rcases hc : cachedVal o .determinant with _ | v'
          · rw [← hv]
            simp only [cachedVal, Option.map_eq_none_iff] at hc
            simp [AffObj.read, readDet, hc]
          · rw [read_of_cached hc] at hv
            rw [← hv]; exact ho _ hc
      cases e with
      | read q => exact hr _ _ _ h
      | invert =>
        simp only [step]
        rcases invert_snd w.1 w.2 with h' | h' <;> rw [h']
        · exact hr _ _ _ h
        · exact hr _ _ _ (hr _ _ _ h)
      | setEpsilon e => exact h
  have h := key history (eps, AffObj.fresh T b) (by simp [fresh, cachedVal])
  have hT : (run (eps, AffObj.fresh T b) history).2.T = T := (run_T history (eps, AffObj.fresh T b)).1
  rw [hT] at h
  unfold valueAt
  rcases hc : cachedVal (run (eps, AffObj.fresh T b) history).2 .determinant with _ | v
  · simp only [cachedVal, Option.map_eq_none_iff] at hc
    simp [AffObj.read, readDet, hc, hT]
  · rw [read_of_cached hc]; exact h v hc

/-- **C20** the answer kept after a change of EPSILON is the old one: a transform asked with EPSILON = 1/100000 still says
"not degenerate" after `set_epsilon(1)`, while an equal transform not asked before says "degenerate". -/
theorem C20_set_epsilon_stale : ∃ T : Affine ℚ,
    valueAt (run (1/100000, AffObj.fresh T false) [.read .isDegenerate, .setEpsilon 1]) .isDegenerate = .flag false ∧
    valueAt (run (1/100000, AffObj.fresh T false) [.setEpsilon 1]) .isDegenerate = .flag true := by
  refine ⟨⟨1/2, 0, 0, 0, 1/2, 0⟩, ?_, ?_⟩ <;>
    norm_num [valueAt, run, step, AffObj.read, readDegenerate, readDet, fresh, Affine.determinant]

/-- What `~T` computes from the current state: the flag and the determinant a read gives, then the entries of the
transform. -/
theorem invert_fst (w : K × AffObj K) :
    (w.2.invert w.1).1 = if (w.2.readDegenerate w.1).1 then .error .notInvertible
      else (do
        let idet ← pydiv 1 (w.2.readDegenerate w.1).2.readDet.1
        let T := w.2.T
        return ⟨T.e*idet, -T.b*idet, -T.c*(T.e*idet) - T.f*(-T.b*idet), -T.d*idet, T.a*idet,
          -T.c*(-T.d*idet) - T.f*(T.a*idet)⟩) := by
  have h1 : (w.2.readDegenerate w.1).2.T = w.2.T := (read_T w.1 w.2 .isDegenerate).1
  have h2 : (w.2.readDegenerate w.1).2.readDet.2.T = w.2.T := by
    rw [← h1]; exact (read_T w.1 (w.2.readDegenerate w.1).2 .determinant).1
  unfold AffObj.invert
  simp only [h2]
  split <;> rfl

/-- **C20** inverting after any history: a transform whose `is_degenerate` reads true (the kept answer, which is old if
EPSILON changed) cannot be inverted; one whose `is_degenerate` reads false is inverted as a new equal transform is
with any tolerance that does not call it degenerate. -/
theorem C20_invert_any (eps : K) (T : Affine K) (b : Bool) (history : List (Event K)) :
    let w := run (eps, AffObj.fresh T b) history
    (valueAt w .isDegenerate = .flag true → (w.2.invert w.1).1 = .error .notInvertible) ∧
    (valueAt w .isDegenerate = .flag false → ∀ eps', T.isDegenerate eps' = false →
      (w.2.invert w.1).1 = T.invert eps') := by
  intro w
  have hT : w.2.T = T := (run_T history (eps, AffObj.fresh T b)).1
  have hd := C20_determinant eps T b (history ++ [.read .isDegenerate])
  have hrun : run (eps, AffObj.fresh T b) (history ++ [.read .isDegenerate])
      = (w.1, (w.2.readDegenerate w.1).2) := by
    simp only [run, List.foldl_append, List.foldl_cons, List.foldl_nil, w, step, AffObj.read]
  rw [hrun] at hd
  simp only [valueAt, AffObj.read, AffVal.num.injEq] at hd
  refine ⟨fun h => ?_, fun h eps' he => ?_⟩
  · simp only [valueAt, AffObj.read, AffVal.flag.injEq] at h
    rw [invert_fst, if_pos h]
  · simp only [valueAt, AffObj.read, AffVal.flag.injEq] at h
    rw [invert_fst, if_neg (by simp [h]), hd, hT]
    simp only [Affine.invert, he, Bool.false_eq_true, if_false]

/-- **C20** while EPSILON is unchanged, inverting after any reads and inversions gives what inverting a new equal
transform gives. -/
theorem C20_invert (eps : K) (T : Affine K) (b : Bool) (history : List (Event K))
    (hk : ∀ e ∈ history, Event.keepsEps e) :
    ((run (eps, AffObj.fresh T b) history).2.invert eps).1 = T.invert eps := by
  have h1 : (run (eps, AffObj.fresh T b) history).1 = eps :=
    (coherent_run history (eps, AffObj.fresh T b) hk (coherent_fresh eps T b)).1
  have hf := C20_fresh eps T b history hk .isDegenerate
  have h := C20_invert_any eps T b history
  simp only [hf, freshValue, h1, AffVal.flag.injEq] at h
  cases hb : T.isDegenerate eps
  · exact h.2 hb eps hb
  · rw [h.1 hb]; simp [Affine.invert, hb]

/-- The stale answer decides: after `set_epsilon(1)` the transform asked before is still inverted, an equal new one
raises. -/
example : let T : Affine ℚ := ⟨1/2, 0, 0, 0, 1/2, 0⟩
    let w := run (1/100000, AffObj.fresh T false) [.read .isDegenerate, .setEpsilon 1]
    (w.2.invert w.1).1 = .ok ⟨2, 0, 0, 0, 2, 0⟩ ∧ T.invert 1 = .error .notInvertible := by
  refine ⟨?_, ?_⟩
  · rw [(C20_invert_any (1/100000) (⟨1/2, 0, 0, 0, 1/2, 0⟩ : Affine ℚ) false _).2
      (by norm_num [valueAt, run, step, AffObj.read, readDegenerate, readDet, fresh, Affine.determinant])
      (1/100000) (by norm_num [Affine.isDegenerate, Affine.determinant])]
    norm_num [Affine.invert, Affine.isDegenerate, Affine.determinant, pydiv, bind, Except.bind, pure, Except.pure]
  · norm_num [Affine.invert, Affine.isDegenerate, Affine.determinant]

/-- A history with reads, an inversion and no change of EPSILON. -/
example : ∀ e ∈ [Event.read .isOrthonormal, .invert, .read (K := ℚ) .determinant], Event.keepsEps e := by
  intro e he
  simp at he
  rcases he with rfl | rfl | rfl <;> trivial

end
end Planar
