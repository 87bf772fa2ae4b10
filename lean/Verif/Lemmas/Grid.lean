import Verif.Lemmas.Rounded
import Verif.Model.Tangents
import Verif.Model.Hull
/- Arithmetic on a grid is not rounded. -/
set_option linter.unusedSectionVars false
namespace Planar
open Spec

section IEEE
variable {F : Type} [Field F] [LinearOrder F] [IsStrictOrderedRing F] [FloorRing F]

theorem roundPos_grid {p : ℕ} (hp : 1 ≤ p) {x : F} (hx : 0 < x) (n e : ℤ) (hn : n ≤ 2 ^ p) (h : x = n * 2 ^ e) :
    roundPos p x = x := by
  have h2 : (0 : F) < 2 ^ e := zpow_pos (by norm_num) _
  -- it is enough that the spacing divides the grid
  have key : ∀ (n e : ℤ), x = n * 2 ^ e → Int.log 2 x < p + e → roundPos p x = x := by
    intro n e h hlog
    obtain ⟨k, hk⟩ : ∃ k : ℕ, e = (Int.log 2 x + 1 - p) + k := ⟨(e - (Int.log 2 x + 1 - p)).toNat, by omega⟩
    refine roundPos_fixed (n * 2 ^ k) ?_
    rw [ulp]
    conv_lhs => rw [h, hk, zpow_add₀ (by norm_num)]
    push_cast
    rw [zpow_natCast]; ring
  rcases eq_or_lt_of_le hn with he | hlt
  · obtain ⟨q, rfl⟩ : ∃ q, p = q + 1 := ⟨p - 1, by omega⟩
    have hx' : x = 2 ^ ((q : ℤ) + 1 + e) := by
      rw [h, he, zpow_add₀ (by norm_num), zpow_add₀ (by norm_num), zpow_natCast]; push_cast; ring
    refine key (2 ^ q) (e + 1) ?_ ?_
    · rw [hx']; push_cast
      rw [← zpow_natCast, ← zpow_add₀ (by norm_num)]; congr 1; ring
    · rw [hx']
      have := Int.log_zpow (R := F) (b := 2) (by norm_num) ((q : ℤ) + 1 + e)
      push_cast at this ⊢
      rw [this]; omega
  · refine key n e h ?_
    rw [← Int.lt_zpow_iff_log_lt (b := 2) (by norm_num) hx, h]
    push_cast
    rw [zpow_add₀ (by norm_num), zpow_natCast]
    refine mul_lt_mul_of_pos_right ?_ h2
    calc (n : F) < ((2 ^ p : ℤ) : F) := Int.cast_lt.mpr hlt
      _ = 2 ^ p := by push_cast; rfl

/-- Multiples of a power of two with at most `p` digits are not rounded. -/
theorem roundTo_grid {p : ℕ} (hp : 1 ≤ p) (n e : ℤ) (hn : |n| ≤ 2 ^ p) : roundTo p ((n : F) * 2 ^ e) = n * 2 ^ e := by
  obtain ⟨h1, h2⟩ := abs_le.mp hn
  rcases lt_trichotomy ((n : F) * 2 ^ e) 0 with h | h | h
  · rw [roundTo_neg h, roundPos_grid hp (n := -n) (e := e) (by linarith) (by omega) (by push_cast; ring), neg_neg]
  · rw [h, roundTo_zero]
  · rw [roundTo_pos h, roundPos_grid hp h n e h2 rfl]

end IEEE

variable {F : Type} [Field F] [LinearOrder F] [IsStrictOrderedRing F] {R : Rounding F}

/-- The multiples of `u` up to `N * u` are floats. -/
def Exact (R : Rounding F) (N : ℤ) (u : F) : Prop := ∀ n : ℤ, |n| ≤ N → R.rnd (n * u) = n * u

/-- A float that is a multiple of `u`, at most `B * u`. -/
def Grid (u : F) (B : ℤ) (a : Fl R) : Prop := ∃ n : ℤ, |n| ≤ B ∧ a.val = n * u

theorem Grid.mono {u : F} {B C : ℤ} {a : Fl R} (h : Grid u B a) (hBC : B ≤ C) : Grid u C a := by
  obtain ⟨n, h1, h2⟩ := h; exact ⟨n, h1.trans hBC, h2⟩

theorem Grid.add {u : F} {B C N : ℤ} {a b : Fl R} (hE : Exact R N u) (ha : Grid u B a) (hb : Grid u C b)
    (hN : B + C ≤ N) : (a + b).val = a.val + b.val ∧ Grid u (B + C) (a + b) := by
  obtain ⟨m, h1, h2⟩ := ha
  obtain ⟨n, h3, h4⟩ := hb
  have h5 : |m + n| ≤ B + C := (abs_add_le m n).trans (by omega)
  have h6 : a.val + b.val = ((m + n : ℤ) : F) * u := by rw [h2, h4]; push_cast; ring
  have h7 : (a + b).val = a.val + b.val := by rw [Fl.add_val, h6, hE _ (h5.trans hN)]
  exact ⟨h7, m + n, h5, by rw [h7, h6]⟩

theorem Grid.sub {u : F} {B C N : ℤ} {a b : Fl R} (hE : Exact R N u) (ha : Grid u B a) (hb : Grid u C b)
    (hN : B + C ≤ N) : (a - b).val = a.val - b.val ∧ Grid u (B + C) (a - b) := by
  obtain ⟨m, h1, h2⟩ := ha
  obtain ⟨n, h3, h4⟩ := hb
  have h5 : |m - n| ≤ B + C := (abs_sub m n).trans (by omega)
  have h6 : a.val - b.val = ((m - n : ℤ) : F) * u := by rw [h2, h4]; push_cast; ring
  have h7 : (a - b).val = a.val - b.val := by rw [Fl.sub_val, h6, hE _ (h5.trans hN)]
  exact ⟨h7, m - n, h5, by rw [h7, h6]⟩

theorem Grid.mul {u w : F} {B C N : ℤ} {a b : Fl R} (hE : Exact R N (u * w)) (ha : Grid u B a) (hb : Grid w C b)
    (hB : 0 ≤ B) (hN : B * C ≤ N) : (a * b).val = a.val * b.val ∧ Grid (u * w) (B * C) (a * b) := by
  obtain ⟨m, h1, h2⟩ := ha
  obtain ⟨n, h3, h4⟩ := hb
  have h5 : |m * n| ≤ B * C := by rw [abs_mul]; exact mul_le_mul h1 h3 (abs_nonneg _) hB
  have h6 : a.val * b.val = ((m * n : ℤ) : F) * (u * w) := by rw [h2, h4]; push_cast; ring
  have h7 : (a * b).val = a.val * b.val := by rw [Fl.mul_val, h6, hE _ (h5.trans hN)]
  exact ⟨h7, m * n, h5, by rw [h7, h6]⟩

/-- Both coordinates are on the grid. -/
def OnGrid (u : F) (B : ℤ) (v : Vec2 (Fl R)) : Prop := Grid u B v.x ∧ Grid u B v.y

/-- The vector of the exact coordinates. -/
def Vec2.exact (v : Vec2 (Fl R)) : Vec2 F := ⟨v.x.val, v.y.val⟩

@[simp] theorem exact_x (v : Vec2 (Fl R)) : v.exact.x = v.x.val := rfl
@[simp] theorem exact_y (v : Vec2 (Fl R)) : v.exact.y = v.y.val := rfl

theorem exact_inj {v w : Vec2 (Fl R)} : v.exact = w.exact ↔ v = w := by
  constructor
  · intro h
    have hx := congrArg Vec2.x h; have hy := congrArg Vec2.y h
    cases v; cases w
    exact congrArg₂ Vec2.mk (Fl.ext hx) (Fl.ext hy)
  · rintro rfl; rfl

/-- The two roundings that a grid of `B` steps of `u` needs: differences and products of differences. -/
structure FineGrid (R : Rounding F) (u : F) (B : ℤ) : Prop where
  one : Exact R (8 * B * B) u
  two : Exact R (8 * B * B) (u * u)
  pos : 0 < B

variable {u : F} {B : ℤ}

theorem FineGrid.sub (hG : FineGrid R u B) {a b : Fl R} (ha : Grid u B a) (hb : Grid u B b) :
    (a - b).val = a.val - b.val ∧ Grid u (2 * B) (a - b) := by
  have := Grid.sub hG.one ha hb (by nlinarith [hG.pos])
  rwa [← two_mul] at this

/-- Products of differences, and differences of such products, are not rounded. -/
theorem FineGrid.cross (hG : FineGrid R u B) {a b c d : Fl R} (ha : Grid u (2 * B) a) (hb : Grid u (2 * B) b)
    (hc : Grid u (2 * B) c) (hd : Grid u (2 * B) d) :
    (a * b - c * d).val = a.val * b.val - c.val * d.val := by
  have h := hG.pos
  obtain ⟨h1, h2⟩ := Grid.mul hG.two ha hb (by omega) (by nlinarith)
  obtain ⟨h3, h4⟩ := Grid.mul hG.two hc hd (by omega) (by nlinarith)
  rw [(Grid.sub hG.two h2 h4 (by nlinarith)).1, h1, h3]

/-- The expression in all the orientation tests. -/
theorem FineGrid.turn (hG : FineGrid R u B) {p v0 v1 : Vec2 (Fl R)} (hp : OnGrid u B p) (h0 : OnGrid u B v0)
    (h1 : OnGrid u B v1) :
    ((v1.x - v0.x) * (p.y - v0.y) - (p.x - v0.x) * (v1.y - v0.y)).val =
      (v1.exact.x - v0.exact.x) * (p.exact.y - v0.exact.y) - (p.exact.x - v0.exact.x) * (v1.exact.y - v0.exact.y) := by
  have a1 := hG.sub h1.1 h0.1
  have a2 := hG.sub hp.2 h0.2
  have a3 := hG.sub hp.1 h0.1
  have a4 := hG.sub h1.2 h0.2
  rw [hG.cross a1.2 a2.2 a3.2 a4.2, a1.1, a2.1, a3.1, a4.1]; rfl

end Planar
