import Verif.Lemmas.Grid
import Verif.Lemmas.PolyState
import Verif.Lemmas.Sort
/- On a grid the orientation tests are exact, so the floating point run of every polygon algorithm without division takes
the branches of the exact run. -/
set_option linter.unusedSectionVars false
namespace Planar
open Spec Polygon

variable {F : Type} [Field F] [LinearOrder F] [IsStrictOrderedRing F] {R : Rounding F} {u : F} {B : ℤ}

/-! ### Comparisons -/

theorem val_lt (a b : Fl R) : a < b ↔ a.val < b.val := Iff.rfl
theorem val_le (a b : Fl R) : a ≤ b ↔ a.val ≤ b.val := Iff.rfl
theorem val_eq (a b : Fl R) : a = b ↔ a.val = b.val := ⟨fun h => by rw [h], Fl.ext⟩
theorem val_beq (a b : Fl R) : (a == b) = (a.val == b.val) := by
  rw [Bool.eq_iff_iff, beq_iff_eq, beq_iff_eq, val_eq]
theorem val_zero : (0 : Fl R).val = 0 := rfl

theorem exact_beq (a b : Vec2 (Fl R)) : (a == b) = (a.exact == b.exact) := by
  rw [Bool.eq_iff_iff, beq_iff_eq, beq_iff_eq, exact_inj]

theorem grid_zero (hB : 0 ≤ B) : Grid u B (0 : Fl R) := ⟨0, by simpa using hB, by simp [val_zero]⟩

theorem onGrid_null (hB : 0 ≤ B) : OnGrid u B (Vec2.null : Vec2 (Fl R)) := ⟨grid_zero hB, grid_zero hB⟩

/-! ### Lists -/

theorem pyGet_map {α β : Type} (f : α → β) (l : List α) (i : Int) : pyGet (l.map f) i = (pyGet l i).map f := by
  unfold pyGet
  rw [List.length_map]
  cases pyIndex l.length i with
  | none => rfl
  | some k =>
    simp only [List.getElem?_map]
    cases l[k]? <;> rfl

theorem pyGet_mem {α : Type} {l : List α} {i : Int} {a : α} (h : pyGet l i = .ok a) : a ∈ l := by
  unfold pyGet at h
  cases hk : pyIndex l.length i with
  | none => rw [hk] at h; cases h
  | some k =>
    rw [hk] at h
    simp only at h
    cases hl : l[k]? with
    | none => rw [hl] at h; cases h
    | some b => rw [hl] at h; cases h; exact List.mem_of_getElem? hl

theorem exact_null : (Vec2.null : Vec2 (Fl R)).exact = Vec2.null := rfl

theorem nth_exact (vs : List (Vec2 (Fl R))) (i : Int) : nth (vs.map Vec2.exact) i = (nth vs i).exact := by
  unfold nth
  rw [pyGet_map]
  cases pyGet vs i <;> rfl

theorem nth_grid (hB : 0 ≤ B) {vs : List (Vec2 (Fl R))} (h : ∀ v ∈ vs, OnGrid u B v) (i : Int) : OnGrid u B (nth vs i) := by
  unfold nth
  cases hg : pyGet vs i with
  | ok v => exact h v (pyGet_mem hg)
  | error e => exact onGrid_null hB

/-! ### The winding test -/

theorem FineGrid.windStep (hG : FineGrid R u B) {p v0 v1 : Vec2 (Fl R)} (hp : OnGrid u B p) (h0 : OnGrid u B v0)
    (h1 : OnGrid u B v1) : Polygon.windStep p v0 v1 = Polygon.windStep p.exact v0.exact v1.exact := by
  unfold Polygon.windStep
  simp only [ge_iff_le, val_le, hG.turn hp h0 h1, val_zero, exact_y, exact_x]
  rfl

theorem FineGrid.windLoop (hG : FineGrid R u B) {p : Vec2 (Fl R)} (hp : OnGrid u B p) : ∀ (vs : List (Vec2 (Fl R))),
    (∀ v ∈ vs, OnGrid u B v) → ∀ (v0 : Vec2 (Fl R)) (w : Int), OnGrid u B v0 →
    Polygon.windLoop p vs v0 w = Polygon.windLoop p.exact (vs.map Vec2.exact) v0.exact w := by
  intro vs
  induction vs with
  | nil => intro _ v0 w _; rfl
  | cons v vs ih =>
    intro h v0 w h0
    have hv := h v List.mem_cons_self
    simp only [Polygon.windLoop, List.map_cons]
    rw [ih (fun x hx => h x (List.mem_cons_of_mem _ hx)) _ _ hv, hG.windStep hp h0 hv]

theorem FineGrid.pnpWinding (hG : FineGrid R u B) {p : Vec2 (Fl R)} (hp : OnGrid u B p) {vs : List (Vec2 (Fl R))}
    (h : ∀ v ∈ vs, OnGrid u B v) : Polygon.pnpWinding vs p = Polygon.pnpWinding (vs.map Vec2.exact) p.exact := by
  unfold Polygon.pnpWinding
  rw [hG.windLoop hp vs h _ _ (nth_grid hG.pos.le h _), nth_exact]

/-! ### Convexity -/

theorem lexDir_exact (v : Vec2 (Fl R)) : lexDir v.exact = lexDir v := by
  unfold lexDir
  simp only [gt_iff_lt, val_lt, val_zero, exact_x, exact_y]
  rfl

theorem truthy_exact (v : Vec2 (Fl R)) : v.exact.truthy = v.truthy := by
  unfold Vec2.truthy
  simp only [bne, val_beq, val_zero, exact_x, exact_y]

theorem FineGrid.vsub (hG : FineGrid R u B) {v w : Vec2 (Fl R)} (hv : OnGrid u B v) (hw : OnGrid u B w) :
    (v - w).exact = v.exact - w.exact ∧ OnGrid u (2 * B) (v - w) := by
  have h1 := hG.sub hv.1 hw.1
  have h2 := hG.sub hv.2 hw.2
  exact ⟨by
    change (⟨(v.x - w.x).val, (v.y - w.y).val⟩ : Vec2 F) = ⟨v.x.val - w.x.val, v.y.val - w.y.val⟩
    rw [h1.1, h2.1], h1.2, h2.2⟩

theorem FineGrid.edgeVectors (hG : FineGrid R u B) {vs : List (Vec2 (Fl R))} (h : ∀ v ∈ vs, OnGrid u B v) :
    Polygon.edgeVectors (vs.map Vec2.exact) = (Polygon.edgeVectors vs).map Vec2.exact ∧
    ∀ d ∈ Polygon.edgeVectors vs, OnGrid u (2 * B) d := by
  unfold Polygon.edgeVectors
  rw [List.length_map, List.map_map]
  refine ⟨List.map_congr_left fun i _ => ?_, ?_⟩
  · simp only [Function.comp, nth_exact]
    exact (hG.vsub (nth_grid hG.pos.le h _) (nth_grid hG.pos.le h _)).1.symm
  · intro d hd
    obtain ⟨i, -, rfl⟩ := List.mem_map.mp hd
    exact (hG.vsub (nth_grid hG.pos.le h _) (nth_grid hG.pos.le h _)).2

theorem FineGrid.vcross (hG : FineGrid R u B) {v w : Vec2 (Fl R)} (hv : OnGrid u (2 * B) v) (hw : OnGrid u (2 * B) w) :
    (v.cross w).val = v.exact.cross w.exact := hG.cross hv.1 hw.2 hv.2 hw.1

theorem FineGrid.classifyLoop (hG : FineGrid R u B) : ∀ (ds : List (Vec2 (Fl R))), (∀ d ∈ ds, OnGrid u (2 * B) d) →
    ∀ (d : Vec2 (Fl R)) (k : Int) (dc : Nat) (sg : Int) (n : Nat), OnGrid u (2 * B) d →
    Polygon.classifyLoop (ds.map Vec2.exact) d.exact k dc sg n = Polygon.classifyLoop ds d k dc sg n := by
  intro ds
  induction ds with
  | nil => intro _ d k dc sg n _; rfl
  | cons e ds ih =>
    intro h d k dc sg n hd
    have he := h e List.mem_cons_self
    have ih' := fun d k dc sg n hd => ih (fun x hx => h x (List.mem_cons_of_mem _ hx)) d k dc sg n hd
    simp only [Polygon.classifyLoop, List.map_cons, lexDir_exact, gt_iff_lt, val_lt, hG.vcross hd he, val_zero,
      ih' e _ _ _ _ he]

theorem FineGrid.classifyRun (hG : FineGrid R u B) {vs : List (Vec2 (Fl R))} (h : ∀ v ∈ vs, OnGrid u B v) :
    Polygon.classifyRun (vs.map Vec2.exact) = Polygon.classifyRun vs := by
  have hl := hG.vsub (nth_grid hG.pos.le h (-1)) (nth_grid hG.pos.le h (-2))
  obtain ⟨e1, e2⟩ := hG.edgeVectors h
  unfold Polygon.classifyRun
  simp only [nth_exact]
  rw [e1, ← hl.1, lexDir_exact, List.filter_map]
  have : (Vec2.truthy ∘ Vec2.exact : Vec2 (Fl R) → Bool) = Vec2.truthy := funext truthy_exact
  rw [this]
  exact hG.classifyLoop _ (fun d hd => e2 d (List.mem_of_mem_filter hd)) _ _ _ _ _ hl.2

/-! ### Polylines -/

/-- Both numbers of a `(y, x)` pair. -/
def exactPair (p : Fl R × Fl R) : F × F := (p.1.val, p.2.val)

/-- The running extremes with exact numbers. -/
def exactExt (e : YExt (Fl R)) : YExt F :=
  ⟨e.minY.val, e.maxY.val, e.minX.val, e.maxX.val, e.minI, e.maxI, e.leftI, e.rightI⟩

theorem yExtStep_exact (e : YExt (Fl R)) (iv : Nat × Vec2 (Fl R)) :
    yExtStep (exactExt e) (iv.1, iv.2.exact) = exactExt (yExtStep e iv) := by
  unfold yExtStep
  by_cases h1 : iv.2.y < e.minY <;> by_cases h2 : iv.2.y > e.maxY <;> by_cases h3 : iv.2.x < e.minX <;>
    by_cases h4 : iv.2.x > e.maxX <;>
    simp only [h1, h2, h3, h4, if_true, if_false] <;>
    simp only [gt_iff_lt, val_lt] at h1 h2 h3 h4 <;>
    simp [exactExt, h1, h2, h3, h4]

theorem yExtremes_exact (vs : List (Vec2 (Fl R))) : yExtremes (vs.map Vec2.exact) = exactExt (yExtremes vs) := by
  have key : ∀ (l : List (Nat × Vec2 (Fl R))) (e : YExt (Fl R)),
      (l.map fun iv => (iv.1, iv.2.exact)).foldl yExtStep (exactExt e) = exactExt (l.foldl yExtStep e) := by
    intro l
    induction l with
    | nil => intro e; rfl
    | cons a l ih => intro e; simp only [List.map_cons, List.foldl_cons, yExtStep_exact, ih]
  unfold yExtremes
  simp only [nth_exact, List.length_map]
  rw [← key, List.zip_map_right]
  rfl

theorem upward_exact (pl : List (Fl R × Fl R)) : upward (pl.map exactPair) = (upward pl).map exactPair := by
  unfold upward
  rw [List.head?_map, List.getLast?_map]
  cases pl.head? <;> cases pl.getLast? <;> simp only [Option.map]
  rename_i a b
  have : (exactPair a).1 > (exactPair b).1 ↔ a.1 > b.1 := by simp only [exactPair, gt_iff_lt, val_lt]
  simp only [this]
  split
  · rw [List.map_reverse]
  · rfl

theorem upward_mem {pl : List (Fl R × Fl R)} {p : Fl R × Fl R} (h : p ∈ upward pl) : p ∈ pl := by
  unfold upward at h
  split at h
  · split at h
    · exact List.mem_reverse.mp h
    · exact h
  · exact h

theorem splitYPolylines_exact (vs : List (Vec2 (Fl R))) :
    splitYPolylines (vs.map Vec2.exact) =
      ((splitYPolylines vs).1.map exactPair, (splitYPolylines vs).2.map exactPair) := by
  unfold splitYPolylines
  rw [yExtremes_exact]
  have hyx : (vs.map Vec2.exact).map (fun v => (v.y, v.x)) = (vs.map fun v => (v.y, v.x)).map exactPair := by
    simp only [List.map_map]; rfl
  simp only [hyx, exactExt]
  split
  · split <;> simp only [← List.map_take, ← List.map_drop, ← List.map_append, upward_exact]
  · split <;> simp only [← List.map_take, ← List.map_drop, ← List.map_append, upward_exact]

/-- The points of a polyline are vertices. -/
theorem splitYPolylines_mem {vs : List (Vec2 (Fl R))} {p : Fl R × Fl R}
    (h : p ∈ (splitYPolylines vs).1 ∨ p ∈ (splitYPolylines vs).2) : ∃ v ∈ vs, p = (v.y, v.x) := by
  have key : p ∈ vs.map (fun v => (v.y, v.x)) := by
    have ht : ∀ (l : List (Fl R × Fl R)) (i j : Nat), p ∈ upward ((l.take i).drop j) → p ∈ l := fun l i j h =>
      List.mem_of_mem_take (List.mem_of_mem_drop (upward_mem h))
    have ha : ∀ (l : List (Fl R × Fl R)) (i j : Nat), p ∈ upward (l.drop i ++ l.take j) → p ∈ l := by
      intro l i j h
      rcases List.mem_append.mp (upward_mem h) with h | h
      · exact List.mem_of_mem_drop h
      · exact List.mem_of_mem_take h
    unfold splitYPolylines at h
    simp only at h
    split_ifs at h <;> rcases h with h | h <;> first | exact ht _ _ _ h | exact ha _ _ _ h
  obtain ⟨v, hv, rfl⟩ := List.mem_map.mp key
  exact ⟨v, hv, rfl⟩

end Planar
