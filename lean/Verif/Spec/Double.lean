import Verif.Spec.Rounded
/- IEEE floating point numbers with a smallest and a largest exponent: gradual underflow, and overflow to infinity. What is
left out: NaN (the invalid operations inf - inf, 0 * inf, inf / inf, 0 / 0), and the difference between 0.0 and -0.0. -/
namespace Planar.Spec
variable {F : Type} [Field F] [LinearOrder F] [IsStrictOrderedRing F] [FloorRing F]

/-- The distance of neighbouring floats near `x`, with `p` binary digits and steps of at least `2 ^ e`. -/
def ulpMin (p : ℕ) (e : ℤ) (x : F) : F := 2 ^ max (Int.log 2 x + 1 - p) e

/-- Rounding a positive number to the nearest float, ties to even. -/
def roundPosMin (p : ℕ) (e : ℤ) (x : F) : F := nearestEven (x / ulpMin p e x) * ulpMin p e x

/-- Rounding a number to the nearest float, ties to even. -/
def roundMin (p : ℕ) (e : ℤ) (x : F) : F :=
  if 0 < x then roundPosMin p e x else if x < 0 then -roundPosMin p e (-x) else 0

theorem ulpMin_pos (p : ℕ) (e : ℤ) (x : F) : 0 < ulpMin p e x := zpow_pos (by norm_num) _

theorem nearestEven_nonneg {z : F} (h : 0 ≤ z) : 0 ≤ nearestEven z := by
  have := nearestEven_mono h
  have h0 := nearestEven_int (F := F) 0
  rw [Int.cast_zero] at h0
  rwa [h0] at this

theorem roundPosMin_nonneg (p : ℕ) (e : ℤ) {x : F} (hx : 0 < x) : 0 ≤ roundPosMin p e x :=
  mul_nonneg (Int.cast_nonneg (nearestEven_nonneg (div_nonneg hx.le (ulpMin_pos p e x).le))) (ulpMin_pos p e x).le

/-- A multiple of the spacing stays. -/
theorem roundPosMin_mul {p : ℕ} {e : ℤ} {x : F} (n : ℤ) (h : x = n * ulpMin p e x) : roundPosMin p e x = x := by
  have hu := ulpMin_pos p e x
  have : x / ulpMin p e x = n := by rw [div_eq_iff hu.ne']; exact h
  unfold roundPosMin
  rw [this, nearestEven_int, ← h]

/-- The floats: at most `2 ^ p` steps of at least `2 ^ e`. -/
theorem roundPosMin_float {p : ℕ} (hp : 1 ≤ p) {e : ℤ} {x : F} (hx : 0 < x) (n k : ℤ) (hk : e ≤ k) (hn : n ≤ 2 ^ p)
    (h : x = n * 2 ^ k) : roundPosMin p e x = x := by
  have key : ∀ (n k : ℤ), e ≤ k → x = n * 2 ^ k → Int.log 2 x < p + k → roundPosMin p e x = x := by
    intro n k hk h hlog
    obtain ⟨d, hd⟩ : ∃ d : ℕ, k = max (Int.log 2 x + 1 - p) e + d :=
      ⟨(k - max (Int.log 2 x + 1 - p) e).toNat, by omega⟩
    refine roundPosMin_mul (n * 2 ^ d) ?_
    rw [ulpMin]
    conv_lhs => rw [h, hd, zpow_add₀ (by norm_num)]
    push_cast
    rw [zpow_natCast]; ring
  have h2 : (0 : F) < 2 ^ k := zpow_pos (by norm_num) _
  rcases eq_or_lt_of_le hn with he | hlt
  · obtain ⟨q, rfl⟩ : ∃ q, p = q + 1 := ⟨p - 1, by omega⟩
    have hx' : x = 2 ^ ((q : ℤ) + 1 + k) := by
      rw [h, he, zpow_add₀ (by norm_num), zpow_add₀ (by norm_num), zpow_natCast]; push_cast; ring
    refine key (2 ^ q) (k + 1) (by omega) ?_ ?_
    · rw [hx']; push_cast
      rw [← zpow_natCast, ← zpow_add₀ (by norm_num)]; congr 1; ring
    · rw [hx']
      have := Int.log_zpow (R := F) (b := 2) (by norm_num) ((q : ℤ) + 1 + k)
      push_cast at this ⊢
      rw [this]; omega
  · refine key n k hk h ?_
    rw [← Int.lt_zpow_iff_log_lt (b := 2) (by norm_num) hx, h]
    push_cast
    rw [zpow_add₀ (by norm_num), zpow_natCast]
    refine mul_lt_mul_of_pos_right ?_ h2
    calc (n : F) < ((2 ^ p : ℤ) : F) := Int.cast_lt.mpr hlt
      _ = 2 ^ p := by push_cast; rfl

/-- The rounded number is a float. -/
theorem roundPosMin_steps {p : ℕ} {e : ℤ} {x : F} (hx : 0 < x) :
    ∃ n k : ℤ, e ≤ k ∧ 0 ≤ n ∧ n ≤ 2 ^ p ∧ roundPosMin p e x = n * 2 ^ k := by
  refine ⟨nearestEven (x / ulpMin p e x), max (Int.log 2 x + 1 - p) e, le_max_right _ _,
    nearestEven_nonneg (div_nonneg hx.le (ulpMin_pos p e x).le), ?_, rfl⟩
  have h2 := Int.lt_zpow_succ_log_self (b := 2) (by norm_num) x
  push_cast at h2
  have h3 : x / ulpMin p e x ≤ ((2 ^ p : ℤ) : F) := by
    rw [div_le_iff₀ (ulpMin_pos p e x)]
    push_cast
    refine h2.le.trans ?_
    rw [ulpMin, ← zpow_natCast, ← zpow_add₀ (by norm_num)]
    exact zpow_le_zpow_right₀ (by norm_num) (by omega)
  have := nearestEven_mono h3
  rwa [nearestEven_int] at this

theorem roundPosMin_mono {p : ℕ} (hp : 1 ≤ p) {e : ℤ} {x y : F} (hx : 0 < x) (h : x ≤ y) :
    roundPosMin p e x ≤ roundPosMin p e y := by
  have hy : 0 < y := hx.trans_le h
  have hlog := Int.log_mono_right (b := 2) hx h
  by_cases heq : max (Int.log 2 x + 1 - p) e = max (Int.log 2 y + 1 - p) e
  · have hu : ulpMin p e x = ulpMin p e y := by unfold ulpMin; rw [heq]
    unfold roundPosMin
    rw [hu]
    have := ulpMin_pos p e y
    refine mul_le_mul_of_nonneg_right (Int.cast_le.mpr (nearestEven_mono ?_)) this.le
    gcongr
  · -- there is a power of two between them
    have h1 : Int.log 2 x < Int.log 2 y := by omega
    have h2 : e < Int.log 2 y + 1 - p := by omega
    have hxl := Int.lt_zpow_succ_log_self (b := 2) (by norm_num) x
    have hyl := Int.zpow_log_le_self (b := 2) (by norm_num) hy
    push_cast at hxl hyl
    refine le_trans (b := (2 : F) ^ Int.log 2 y) ?_ ?_
    · obtain ⟨d, hd⟩ : ∃ d : ℕ, Int.log 2 y = max (Int.log 2 x + 1 - p) e + d :=
        ⟨(Int.log 2 y - max (Int.log 2 x + 1 - p) e).toNat, by omega⟩
      have e1 : (2 : F) ^ Int.log 2 y = ((2 ^ d : ℤ) : F) * ulpMin p e x := by
        rw [ulpMin, hd, zpow_add₀ (by norm_num)]; push_cast; rw [zpow_natCast]; ring
      rw [e1]
      refine mul_le_mul_of_nonneg_right (Int.cast_le.mpr ?_) (ulpMin_pos p e x).le
      have h3 : x / ulpMin p e x ≤ ((2 ^ d : ℤ) : F) := by
        rw [div_le_iff₀ (ulpMin_pos p e x), ← e1]
        exact hxl.le.trans (zpow_le_zpow_right₀ (by norm_num) (by omega))
      have := nearestEven_mono h3
      rwa [nearestEven_int] at this
    · obtain ⟨d, hd⟩ : ∃ d : ℕ, Int.log 2 y = max (Int.log 2 y + 1 - p) e + d :=
        ⟨(Int.log 2 y - max (Int.log 2 y + 1 - p) e).toNat, by omega⟩
      have e1 : (2 : F) ^ Int.log 2 y = ((2 ^ d : ℤ) : F) * ulpMin p e y := by
        conv_lhs => rw [hd]
        rw [ulpMin, zpow_add₀ (by norm_num)]; push_cast; rw [zpow_natCast]; ring
      rw [e1]
      refine mul_le_mul_of_nonneg_right (Int.cast_le.mpr ?_) (ulpMin_pos p e y).le
      have h3 : ((2 ^ d : ℤ) : F) ≤ y / ulpMin p e y := by
        rw [le_div_iff₀ (ulpMin_pos p e y), ← e1]; exact hyl
      have := nearestEven_mono h3
      rwa [nearestEven_int] at this

theorem roundMin_pos {p : ℕ} {e : ℤ} {x : F} (hx : 0 < x) : roundMin p e x = roundPosMin p e x := if_pos hx
theorem roundMin_neg {p : ℕ} {e : ℤ} {x : F} (hx : x < 0) : roundMin p e x = -roundPosMin p e (-x) := by
  unfold roundMin; rw [if_neg (by linarith), if_pos hx]
theorem roundMin_zero (p : ℕ) (e : ℤ) : roundMin p e (0 : F) = 0 := by unfold roundMin; simp

/-- At most `2 ^ p` steps of at least `2 ^ e`: not rounded. -/
theorem roundMin_float {p : ℕ} (hp : 1 ≤ p) {e : ℤ} (n k : ℤ) (hk : e ≤ k) (hn : |n| ≤ 2 ^ p) :
    roundMin p e ((n : F) * 2 ^ k) = n * 2 ^ k := by
  obtain ⟨h1, h2⟩ := abs_le.mp hn
  rcases lt_trichotomy ((n : F) * 2 ^ k) 0 with h | h | h
  · rw [roundMin_neg h, roundPosMin_float hp (n := -n) (k := k) (by linarith) hk (by omega) (by push_cast; ring), neg_neg]
  · rw [h, roundMin_zero]
  · rw [roundMin_pos h, roundPosMin_float hp h n k hk h2 rfl]

theorem roundMin_steps {p : ℕ} {e : ℤ} (x : F) : ∃ n k : ℤ, e ≤ k ∧ |n| ≤ 2 ^ p ∧ roundMin p e x = n * 2 ^ k := by
  rcases lt_trichotomy x 0 with h | h | h
  · obtain ⟨n, k, h1, h2, h3, h4⟩ := roundPosMin_steps (p := p) (e := e) (show 0 < -x by linarith)
    exact ⟨-n, k, h1, by rw [abs_neg, abs_of_nonneg h2]; exact h3, by rw [roundMin_neg h, h4]; push_cast; ring⟩
  · exact ⟨0, e, le_rfl, by simp, by rw [h, roundMin_zero]; simp⟩
  · obtain ⟨n, k, h1, h2, h3, h4⟩ := roundPosMin_steps (p := p) (e := e) h
    exact ⟨n, k, h1, by rw [abs_of_nonneg h2]; exact h3, by rw [roundMin_pos h, h4]⟩

theorem roundMin_odd (p : ℕ) (e : ℤ) (x : F) : roundMin p e (-x) = -roundMin p e x := by
  rcases lt_trichotomy x 0 with hx | hx | hx
  · rw [roundMin_neg hx, roundMin_pos (by linarith), neg_neg]
  · rw [hx, neg_zero, roundMin_zero, neg_zero]
  · rw [roundMin_pos hx, roundMin_neg (by linarith), neg_neg]

theorem roundMin_mono {p : ℕ} (hp : 1 ≤ p) (e : ℤ) {x y : F} (h : x ≤ y) : roundMin p e x ≤ roundMin p e y := by
  rcases lt_trichotomy x 0 with hx | hx | hx <;> rcases lt_trichotomy y 0 with hy | hy | hy
  · rw [roundMin_neg hx, roundMin_neg hy, neg_le_neg_iff]
    exact roundPosMin_mono hp (by linarith) (by linarith)
  · rw [roundMin_neg hx, hy, roundMin_zero]
    have := roundPosMin_nonneg p e (show 0 < -x by linarith); linarith
  · rw [roundMin_neg hx, roundMin_pos hy]
    have := roundPosMin_nonneg p e (show 0 < -x by linarith)
    have := roundPosMin_nonneg p e hy; linarith
  · linarith
  · rw [hx, hy]
  · rw [hx, roundMin_zero, roundMin_pos hy]
    exact roundPosMin_nonneg p e hy
  · linarith
  · linarith
  · rw [roundMin_pos hx, roundMin_pos hy]
    exact roundPosMin_mono hp hx h

/-- Rounding to nearest, ties to even, with `p + 1` binary digits and steps of at least `2 ^ -e`. -/
def ieeeMin (F : Type) [Field F] [LinearOrder F] [IsStrictOrderedRing F] [FloorRing F] (p e : ℕ) : Rounding F where
  rnd := roundMin (p + 1) (-e)
  mono _ _ h := roundMin_mono (by omega) _ h
  odd := roundMin_odd _ _
  idem x := by
    obtain ⟨n, k, h1, h2, h3⟩ := roundMin_steps (p := p + 1) (e := -e) x
    rw [h3, roundMin_float (by omega) n k h1 h2]
  zero := roundMin_zero _ _
  one := by
    have := roundMin_float (F := F) (p := p + 1) (by omega) (e := -e) 1 0 (by omega) (by simp [one_le_pow₀])
    simpa using this
  gradual x y hx hy h := by
    -- floats are multiples of the smallest step
    have mult : ∀ z : F, roundMin (p + 1) (-e) z = z → ∃ n : ℤ, z = n * 2 ^ (-(e : ℤ)) := by
      intro z hz
      obtain ⟨n, k, h1, -, h3⟩ := roundMin_steps (p := p + 1) (e := -e) z
      obtain ⟨d, hd⟩ : ∃ d : ℕ, k = -(e : ℤ) + d := ⟨(k + e).toNat, by omega⟩
      refine ⟨n * 2 ^ d, ?_⟩
      rw [← hz, h3, hd, zpow_add₀ (by norm_num)]
      push_cast; rw [zpow_natCast]; ring
    obtain ⟨m, hm⟩ := mult x hx
    obtain ⟨n, hn⟩ := mult y hy
    have h2 : (0 : F) < 2 ^ (-(e : ℤ)) := zpow_pos (by norm_num) _
    have step : roundMin (p + 1) (-e) ((2 : F) ^ (-(e : ℤ))) = 2 ^ (-(e : ℤ)) := by
      have := roundMin_float (F := F) (p := p + 1) (by omega) (e := -e) 1 (-e) le_rfl (by simp [one_le_pow₀])
      simpa using this
    have hxy : x - y = ((m - n : ℤ) : F) * 2 ^ (-(e : ℤ)) := by rw [hm, hn]; push_cast; ring
    have big : ∀ z : F, 2 ^ (-(e : ℤ)) ≤ z → 0 < roundMin (p + 1) (-e) z := by
      intro z hz
      have := roundMin_mono (p := p + 1) (by omega) (-e) hz
      rw [step] at this
      exact h2.trans_le this
    rcases lt_trichotomy m n with hmn | hmn | hmn
    · have h3 : (2 : F) ^ (-(e : ℤ)) ≤ -(x - y) := by
        rw [hxy, ← neg_mul, ← Int.cast_neg]
        have : (1 : F) ≤ ((-(m - n) : ℤ) : F) := by exact_mod_cast (by omega : (1 : ℤ) ≤ -(m - n))
        nlinarith
      have := big _ h3
      rw [roundMin_odd, h] at this
      simp at this
    · rw [hm, hn, hmn]
    · have h3 : (2 : F) ^ (-(e : ℤ)) ≤ x - y := by
        rw [hxy]
        have : (1 : F) ≤ ((m - n : ℤ) : F) := by exact_mod_cast (by omega : (1 : ℤ) ≤ m - n)
        nlinarith
      have := big _ h3
      rw [h] at this
      exact absurd this (lt_irrefl 0)

/-- Overflow: what reaches `top` becomes `inf`. -/
def saturate (top inf x : F) : F := if top ≤ x then inf else if x ≤ -top then -inf else x

theorem saturate_mono {top inf : F} (h0 : 0 < top) (h : top ≤ inf) {x y : F} (hxy : x ≤ y) :
    saturate top inf x ≤ saturate top inf y := by
  unfold saturate; split_ifs <;> linarith

theorem saturate_odd {top inf : F} (h0 : 0 < top) (x : F) : saturate top inf (-x) = -saturate top inf x := by
  unfold saturate; split_ifs <;> first | linarith | rfl | (rw [neg_neg])

theorem saturate_of_lt {top inf x : F} (h : |x| < top) : saturate top inf x = x := by
  obtain ⟨h1, h2⟩ := abs_lt.mp h
  unfold saturate
  rw [if_neg (by linarith), if_neg (by linarith)]

/-- Rounding to nearest, ties to even, with `p + 1` binary digits, steps of at least `2 ^ -e`, and overflow to an infinity
of what reaches `2 ^ t` after rounding. The infinity is the number `2 ^ w` with a `w` so large (`hw`) that it absorbs all
finite numbers, as the infinity of IEEE does: sums and differences with finite numbers, products with numbers other than
zero and quotients by finite numbers are infinite, the quotient of a finite number by it is zero. -/
def ieeeSat (F : Type) [Field F] [LinearOrder F] [IsStrictOrderedRing F] [FloorRing F] (p e t w : ℕ) (ht : 1 ≤ t)
    (hw : t ≤ w) : Rounding F where
  rnd x := saturate (2 ^ t) (2 ^ w) (roundMin (p + 1) (-e) x)
  mono _ _ h := saturate_mono (by positivity) (pow_le_pow_right₀ (by norm_num) hw) (roundMin_mono (by omega) _ h)
  odd x := by rw [roundMin_odd, saturate_odd (by positivity)]
  idem x := by
    have h2 : (0 : F) < 2 ^ t := by positivity
    have hle : (2 : F) ^ t ≤ 2 ^ w := pow_le_pow_right₀ (by norm_num) hw
    have hinf : roundMin (p + 1) (-e) ((2 : F) ^ w) = 2 ^ w := by
      have := roundMin_float (F := F) (p := p + 1) (by omega) (e := -e) 1 w (by omega) (by simp [one_le_pow₀])
      simpa using this
    have hid : roundMin (p + 1) (-e) (roundMin (p + 1) (-e) x) = roundMin (p + 1) (-e) x := by
      obtain ⟨n, k, h1, h2, h3⟩ := roundMin_steps (p := p + 1) (e := -e) x
      rw [h3, roundMin_float (by omega) n k h1 h2]
    by_cases h1 : (2 : F) ^ t ≤ roundMin (p + 1) (-e) x
    · have e1 : saturate ((2 : F) ^ t) (2 ^ w) (roundMin (p + 1) (-e) x) = 2 ^ w := if_pos h1
      rw [e1, hinf]; exact if_pos hle
    · by_cases h3 : roundMin (p + 1) (-e) x ≤ -(2 : F) ^ t
      · have e1 : saturate ((2 : F) ^ t) (2 ^ w) (roundMin (p + 1) (-e) x) = -2 ^ w := by
          unfold saturate; rw [if_neg h1, if_pos h3]
        rw [e1, roundMin_odd, hinf, saturate_odd h2]
        congr 1; exact if_pos hle
      · rw [saturate_of_lt (abs_lt.mpr ⟨not_le.mp h3, not_le.mp h1⟩), hid,
          saturate_of_lt (abs_lt.mpr ⟨not_le.mp h3, not_le.mp h1⟩)]
  zero := by rw [roundMin_zero]; exact saturate_of_lt (by rw [abs_zero]; positivity)
  one := by
    have h1 := (ieeeMin F p e).one
    change roundMin (p + 1) (-e) (1 : F) = 1 at h1
    rw [h1]
    exact saturate_of_lt (by rw [abs_one]; exact one_lt_pow₀ (by norm_num) (by omega))
  gradual x y hx hy h := by
    have h2 : (0 : F) < 2 ^ t := by positivity
    have hle : (2 : F) ^ t ≤ 2 ^ w := pow_le_pow_right₀ (by norm_num) hw
    have hinf : roundMin (p + 1) (-e) ((2 : F) ^ w) = 2 ^ w := by
      have := roundMin_float (F := F) (p := p + 1) (by omega) (e := -e) 1 w (by omega) (by simp [one_le_pow₀])
      simpa using this
    have fix : ∀ z : F, saturate (2 ^ t) (2 ^ w) (roundMin (p + 1) (-e) z) = z → roundMin (p + 1) (-e) z = z := by
      intro z hz
      unfold saturate at hz
      split_ifs at hz with h1 h3
      · rw [← hz, hinf]
      · rw [← hz, roundMin_odd, hinf]
      · exact hz
    refine (ieeeMin F p e).gradual x y (fix x hx) (fix y hy) ?_
    unfold saturate at h
    split_ifs at h with h1 h3
    · linarith
    · linarith
    · exact h

/-- IEEE double precision (binary64), Python's floats: 53 binary digits, steps of at least `2 ^ -1074`, overflow at
`2 ^ 1024`. -/
abbrev double : Rounding ℚ := ieeeSat ℚ 52 1074 1024 5000 (by norm_num) (by norm_num)

abbrev Double : Type := Fl double

theorem double_rnd (x : ℚ) : double.rnd x = saturate (2 ^ 1024) (2 ^ 5000) (roundMin 53 (-1074) x) := rfl

/-- At most `2 ^ 53` steps of a power of two within the exponents are a double. -/
theorem double_float (n k : ℤ) (hk : -1074 ≤ k) (hk' : k ≤ 970) (hn : |n| ≤ 2 ^ 53) :
    double.rnd ((n : ℚ) * 2 ^ k) = n * 2 ^ k := by
  rw [double_rnd, roundMin_float (by norm_num) n k hk hn]
  refine saturate_of_lt ?_
  have h1 : |(n : ℚ)| ≤ 2 ^ 53 := by exact_mod_cast hn
  have h2 : (0 : ℚ) < 2 ^ k := zpow_pos (by norm_num) _
  rw [abs_mul, abs_of_pos h2]
  calc |(n : ℚ)| * 2 ^ k ≤ 2 ^ 53 * 2 ^ (970 : ℤ) :=
        mul_le_mul h1 (zpow_le_zpow_right₀ (by norm_num) hk') h2.le (by norm_num)
    _ = 2 ^ 1023 := by rw [show (970 : ℤ) = ((970 : ℕ) : ℤ) from rfl, zpow_natCast, ← pow_add]
    _ < 2 ^ 1024 := pow_lt_pow_right₀ (by norm_num) (by norm_num)

/-- The infinity of doubles. -/
def dinf : Double := Fl.round double (2 ^ 1024)

/-- It is larger than all other doubles and absorbs them, as in IEEE. -/
theorem dinf_val : dinf.val = 2 ^ 5000 := by decide +kernel

theorem double_cases (x : ℚ) (hx : double.rnd x = x) : |x| < 2 ^ 1024 ∨ x = 2 ^ 5000 ∨ x = -2 ^ 5000 := by
  rw [double_rnd] at hx
  unfold saturate at hx
  split_ifs at hx with h1 h2
  · exact .inr (.inl hx.symm)
  · exact .inr (.inr hx.symm)
  · left
    rw [← hx]
    exact abs_lt.mpr ⟨not_le.mp h2, not_le.mp h1⟩

theorem double_overflow {x : ℚ} (h : 2 ^ 1024 ≤ x) : double.rnd x = 2 ^ 5000 := by
  have h1 := double.mono _ _ h
  have h2 : double.rnd (2 ^ 1024) = 2 ^ 5000 := by decide +kernel
  rw [h2] at h1
  rcases double_cases _ (double.idem x) with h3 | h3 | h3
  · exact absurd (h1.trans_lt (abs_lt.mp h3).2) (not_lt.mpr (pow_le_pow_right₀ (by norm_num) (by norm_num)))
  · exact h3
  · have h4 : (0 : ℚ) < 2 ^ 5000 := by positivity
    rw [h3] at h1
    generalize (2 : ℚ) ^ 5000 = W at h1 h4
    linarith

/-- `inf + y == inf`, `inf - y == inf`, `inf * z == inf`, `inf / z == inf` and `y / inf == 0` for finite `y` and positive
finite `z`, and everything finite is less than `inf`. -/
theorem dinf_laws (y : Double) (hy : |y.val| < 2 ^ 1024) :
    y < dinf ∧ dinf + y = dinf ∧ dinf - y = dinf ∧ y / dinf = 0 ∧ (0 < y → dinf * y = dinf ∧ dinf / y = dinf) := by
  obtain ⟨y1, y2⟩ := abs_lt.mp hy
  have hbig : (2 : ℚ) ^ 1024 + 2 ^ 1024 ≤ 2 ^ 5000 := by
    rw [← two_mul, ← pow_succ']; exact pow_le_pow_right₀ (by norm_num) (by norm_num)
  have hinf : ∀ x : ℚ, 2 ^ 1024 ≤ x → (Fl.round double x) = dinf := by
    intro x hx
    apply Fl.ext
    rw [dinf_val]
    exact double_overflow hx
  have htop : (0 : ℚ) < 2 ^ 1024 := by positivity
  have lin : y.val < 2 ^ 5000 ∧ 2 ^ 1024 ≤ 2 ^ 5000 + y.val ∧ 2 ^ 1024 ≤ 2 ^ 5000 - y.val ∧ -2 ^ 5000 < y.val := by
    clear hinf hy
    generalize (2 : ℚ) ^ 5000 = W at *
    generalize (2 : ℚ) ^ 1024 = T at *
    refine ⟨?_, ?_, ?_, ?_⟩ <;> linarith
  refine ⟨?_, hinf _ ?_, hinf _ ?_, ?_, ?_⟩
  · rw [Fl.lt_iff, dinf_val]; exact lin.1
  · rw [dinf_val]; exact lin.2.1
  · rw [dinf_val]; exact lin.2.2.1
  · apply Fl.ext
    rw [Fl.div_val, dinf_val, Fl.zero_val]
    have hs : double.rnd (2 ^ 1024 / 2 ^ 5000) = 0 := by decide +kernel
    have hp : (0 : ℚ) < 2 ^ 5000 := by positivity
    have h1 := double.mono (y.val / 2 ^ 5000) (2 ^ 1024 / 2 ^ 5000) (by gcongr)
    have h2 := double.mono (-(2 ^ 1024 / 2 ^ 5000)) (y.val / 2 ^ 5000) (by
      rw [← neg_div]; gcongr)
    rw [double.odd, hs] at h2
    rw [hs] at h1
    linarith
  · intro h0
    rw [Fl.lt_iff, Fl.zero_val] at h0
    -- positive doubles are at least the smallest one
    have hmin : (1 : ℚ) / 2 ^ 1074 ≤ y.val := by
      have hfix := y.fixed
      rw [double_rnd] at hfix
      obtain ⟨n, k, hk, -, hn⟩ := roundMin_steps (p := 53) (e := -1074) y.val
      have hy' : roundMin 53 (-1074) y.val = y.val := by
        unfold saturate at hfix
        split_ifs at hfix
        · exact absurd hfix lin.1.ne'
        · exact absurd hfix lin.2.2.2.ne
        · exact hfix
      rw [hy'] at hn
      rw [hn]
      have hk2 : (0 : ℚ) < 2 ^ k := zpow_pos (by norm_num) _
      have hn1 : (1 : ℚ) ≤ n := by
        rw [hn] at h0
        have : (0 : ℚ) < n := (pos_iff_pos_of_mul_pos h0).mpr hk2
        exact_mod_cast this
      have hk3 : (2 : ℚ) ^ (-1074 : ℤ) ≤ 2 ^ k := zpow_le_zpow_right₀ (by norm_num) hk
      have e1 : (1 : ℚ) / 2 ^ 1074 = 2 ^ (-1074 : ℤ) := by
        rw [zpow_neg, one_div]; rfl
      rw [e1]
      calc (2 : ℚ) ^ (-1074 : ℤ) ≤ 2 ^ k := hk3
        _ ≤ n * 2 ^ k := le_mul_of_one_le_left hk2.le hn1
    refine ⟨hinf _ ?_, hinf _ ?_⟩
    · rw [dinf_val]
      calc (2 : ℚ) ^ 1024 ≤ 2 ^ 3926 := pow_le_pow_right₀ (by norm_num) (by norm_num)
        _ = 2 ^ 5000 * (1 / 2 ^ 1074) := by
          rw [mul_one_div, eq_div_iff (by positivity), ← pow_add]
        _ ≤ 2 ^ 5000 * y.val := mul_le_mul_of_nonneg_left hmin (by positivity)
    · rw [dinf_val, le_div_iff₀ h0]
      calc (2 : ℚ) ^ 1024 * y.val ≤ 2 ^ 1024 * 2 ^ 1024 := mul_le_mul_of_nonneg_left y2.le (by positivity)
        _ = 2 ^ 2048 := by rw [← pow_add]
        _ ≤ 2 ^ 5000 := pow_le_pow_right₀ (by norm_num) (by norm_num)

end Planar.Spec
