import Verif.Proofs.Exists
/-!
# Arithmetic properties of the API (C08–C20, C24, C36, C40, C42)

`Holds b x s`: the bytes `b` are the canonical representation of the rational `x` with scale `s`
(`Verif/SpecApi.lean`). All theorems hold for every build configuration (debug or release, either length-word
endianness).
-/
namespace PgNumeric.Props
open PgNumeric Spec

/-- Non-vacuity used below: a concrete number is held by some bytes. -/
theorem witness [Build] {x : ℚ} {s : Int} (n : ℤ) (hs : x * 10 ^ s = n) (h0 : 0 ≤ s) (h1 : s ≤ 16383)
    (hl : |x| < 10 ^ 40) : ∃ b, Holds b x s :=
  exists_holds ⟨n, hs⟩ h0 h1 (lt_limit hl)

theorem cast [Build] {b : Bin} {x y : ℚ} {s t : Int} (h : Holds b x s) (hx : x = y) (hs : s = t) : Holds b y t := by
  rw [← hx, ← hs]; exact h

/-- C07 (uniqueness): value and scale determine the bytes. -/
theorem C07_bytes_unique [Build] {a b : Bin} {x : ℚ} {s : Int} (ha : Holds a x s) (hb : Holds b x s) : a = b :=
  ha.unique hb

/-- C07 (shape): the digits stored in `b` are base-10000 digits without leading or trailing zero, zero is stored
without digits, with weight 0 and positive sign, and the scale covers every digit. -/
theorem C07_canonical_shape [Build] {b : Bin} {x : ℚ} {s : Int} (h : Holds b x s) :
    ∃ v, b.asVar = .ok v ∧ (∀ d ∈ v.digits, 0 ≤ d ∧ d ≤ 9999) ∧ v.digits.head? ≠ some 0 ∧ v.digits.getLast? ≠ some 0 ∧
      (x = 0 → v.digits = [] ∧ v.weight = 0 ∧ v.sign = .pos) ∧ (∃ n : ℤ, x * 10 ^ s = n) := by
  obtain ⟨v, hv, rfl, rfl, -, -, e⟩ := h.exists_var
  refine ⟨v, e, fun d hd => ?_, hv.stripped.1, hv.stripped.2.1, fun h0 => ?_, hv.scale⟩
  · have := hv.digits d hd; omega
  · have hz := (stripped_zero_iff hv.digits hv.stripped).1 h0
    exact ⟨hz, hv.stripped.2.2 hz⟩

/-- C07 (surjectivity): every rational below `10^131072` with at most 16383 decimals is representable. -/
theorem C07_representable [Build] {x : ℚ} {s : Int} (hs : HasScale x s) (h0 : 0 ≤ s) (h1 : s ≤ 16383)
    (hl : |x| < limit) : ∃ b, Holds b x s := exists_holds hs h0 h1 hl

example [Build] : ∃ b, Holds b (-123456789 / 1000) 4 := witness (-1234567890) (by norm_num) (by norm_num) (by norm_num) (by norm_num [abs_lt])

/-- C08: addition is exact, with scale the maximum, and fails only if the sum does not fit. -/
theorem C08_add_exact [Build] {a b : Bin} {x y : ℚ} {s t : Int} (ha : Holds a x s) (hb : Holds b y t) :
    (|x + y| < limit → ∃ r, Num.checkedAdd a b = .ok (some r) ∧ Holds r (x + y) (max s t)) ∧
    (limit ≤ |x + y| → Num.checkedAdd a b = .ok none) := Num.checkedAdd_spec ha hb

example [Build] : ∃ a b r, Holds a (1/10) 1 ∧ Holds b (-25/100) 3 ∧ Num.checkedAdd a b = .ok (some r) ∧ Holds r (-3/20) 3 := by
  obtain ⟨a, ha⟩ := witness (x := 1/10) (s := 1) 1 (by norm_num) (by norm_num) (by norm_num) (by norm_num [abs_lt])
  obtain ⟨b, hb⟩ := witness (x := -25/100) (s := 3) (-250) (by norm_num) (by norm_num) (by norm_num) (by norm_num [abs_lt])
  obtain ⟨r, e, h⟩ := (C08_add_exact ha hb).1 (lt_limit (by norm_num [abs_lt]))
  refine ⟨a, b, r, ha, hb, e, ?_⟩
  norm_num at h ⊢
  exact h

/-- C09: subtraction is exact, with scale the maximum, and fails only if the difference does not fit. -/
theorem C09_sub_exact [Build] {a b : Bin} {x y : ℚ} {s t : Int} (ha : Holds a x s) (hb : Holds b y t) :
    (|x - y| < limit → ∃ r, Num.checkedSub a b = .ok (some r) ∧ Holds r (x - y) (max s t)) ∧
    (limit ≤ |x - y| → Num.checkedSub a b = .ok none) := Num.checkedSub_spec ha hb

example [Build] : ∃ a b r, Holds a 10000 0 ∧ Holds b (1/10000) 4 ∧ Num.checkedSub a b = .ok (some r) ∧ Holds r (99999999/10000) 4 := by
  obtain ⟨a, ha⟩ := witness (x := 10000) (s := 0) 10000 (by norm_num) (by norm_num) (by norm_num) (by norm_num [abs_lt])
  obtain ⟨b, hb⟩ := witness (x := 1/10000) (s := 4) 1 (by norm_num) (by norm_num) (by norm_num) (by norm_num [abs_lt])
  obtain ⟨r, e, h⟩ := (C09_sub_exact ha hb).1 (lt_limit (by norm_num [abs_lt]))
  refine ⟨a, b, r, ha, hb, e, ?_⟩
  norm_num at h ⊢
  exact h

/-- C10: the product is exact with the sum of the scales. -/
theorem C10_mul_exact [Build] {a b : Bin} {x y : ℚ} {s t : Int} (ha : Holds a x s) (hb : Holds b y t)
    (hs : s + t ≤ 16383) (hl : |x * y| < limit) :
    ∃ r, Num.checkedMul a b = .ok (some r) ∧ Holds r (x * y) (s + t) := (Num.checkedMul_spec ha hb).1 hs hl

/-- C10 (converse): whatever `checked_mul` returns is the exact product. -/
theorem C10_mul_sound [Build] {a b r : Bin} {x y : ℚ} {s t : Int} (ha : Holds a x s) (hb : Holds b y t)
    (h : Num.checkedMul a b = .ok (some r)) : Holds r (x * y) (s + t) := by
  obtain ⟨h1, h2, h3, h4⟩ := Num.checkedMul_spec ha hb
  rcases le_or_gt (s + t) 16383 with hs | hs
  · rcases lt_or_ge |x * y| limit with hl | hl
    · obtain ⟨r', e, hr⟩ := h1 hs hl
      rw [h] at e; cases e; exact hr
    · rw [h2 hs hl] at h; cases h
  · by_cases h0 : x * y = 0
    · rw [h4 hs h0] at h
      split at h <;> cases h
    · rw [h3 hs h0] at h; cases h

example [Build] : ∃ a b r, Holds a (-15/10) 1 ∧ Holds b (225/100) 2 ∧ Num.checkedMul a b = .ok (some r) ∧ Holds r (-3375/1000) 3 := by
  obtain ⟨a, ha⟩ := witness (x := -15/10) (s := 1) (-15) (by norm_num) (by norm_num) (by norm_num) (by norm_num [abs_lt])
  obtain ⟨b, hb⟩ := witness (x := 225/100) (s := 2) 225 (by norm_num) (by norm_num) (by norm_num) (by norm_num [abs_lt])
  obtain ⟨r, e, h⟩ := C10_mul_exact ha hb (by norm_num) (lt_limit (by norm_num [abs_lt]))
  refine ⟨a, b, r, ha, hb, e, ?_⟩
  norm_num at h ⊢
  exact h

/-- C11: overflow of addition and subtraction is reported exactly when the exact result does not fit. -/
theorem C11_overflow_add_sub [Build] {a b : Bin} {x y : ℚ} {s t : Int} (ha : Holds a x s) (hb : Holds b y t) :
    (Num.checkedAdd a b = .ok none ↔ 10 ^ 131072 ≤ |x + y|) ∧ (Num.checkedSub a b = .ok none ↔ 10 ^ 131072 ≤ |x - y|) := by
  change (_ ↔ limit ≤ _) ∧ (_ ↔ limit ≤ _)
  constructor
  · refine ⟨fun h => ?_, (C08_add_exact ha hb).2⟩
    by_contra hc
    obtain ⟨r, e, -⟩ := (C08_add_exact ha hb).1 (not_le.1 hc)
    rw [h] at e; cases e
  · refine ⟨fun h => ?_, (C09_sub_exact ha hb).2⟩
    by_contra hc
    obtain ⟨r, e, -⟩ := (C09_sub_exact ha hb).1 (not_le.1 hc)
    rw [h] at e; cases e

/-- C11: overflow of multiplication, for a non-zero product or a scale sum that fits: `None` exactly when the
product does not fit or the scale sum exceeds 16383. -/
theorem C11_overflow_mul_partial [Build] {a b : Bin} {x y : ℚ} {s t : Int} (ha : Holds a x s) (hb : Holds b y t)
    (hz : x * y ≠ 0 ∨ s + t ≤ 16383 ∨ Build.debug = false) :
    Num.checkedMul a b = .ok none ↔ (10 ^ 131072 ≤ |x * y| ∨ 16383 < s + t) := by
  change _ ↔ (limit ≤ _ ∨ _)
  obtain ⟨h1, h2, h3, h4⟩ := Num.checkedMul_spec ha hb
  constructor
  · intro h
    by_contra hc
    push Not at hc
    obtain ⟨r, e, -⟩ := h1 hc.2 hc.1
    rw [h] at e; cases e
  · intro h
    rcases le_or_gt (s + t) 16383 with hs | hs
    · exact h2 hs (h.resolve_right (by omega))
    · by_cases h0 : x * y = 0
      · rw [h4 hs h0]
        rcases hz with hz | hz | hz
        · exact absurd h0 hz
        · omega
        · rw [hz]; rfl
      · exact h3 hs h0

/-- C11 (defect): in a debug build the remaining case — a zero product whose scale sum exceeds 16383 — does not
return `None` but trips the debug assertion of `zero_scaled`. -/
theorem C11_zero_scale_panics [Build] {a b : Bin} {x y : ℚ} {s t : Int} (ha : Holds a x s) (hb : Holds b y t)
    (hd : Build.debug = true) (hs : 16383 < s + t) (h0 : x * y = 0) :
    Num.checkedMul a b = .error .assert := by
  rw [(Num.checkedMul_spec ha hb).2.2.2 hs h0, hd]; rfl

example [Build] : ∃ a b, Holds a 0 10000 ∧ Holds b 0 10000 := by
  obtain ⟨a, ha⟩ := witness (x := 0) (s := 10000) 0 (by simp) (by norm_num) (by norm_num) (by norm_num)
  exact ⟨a, a, ha, ha⟩

/-- The limit is reached: `9…9 + 9…9` overflows. -/
example [Build] : ∃ a, Holds a (limit - 1) 0 ∧ Num.checkedAdd a a = .ok none := by
  have h1 : (1:ℚ) ≤ limit := by unfold limit; exact one_le_pow₀ (by norm_num)
  have h2 : (2:ℚ) ≤ limit := by
    unfold limit
    calc (2:ℚ) ≤ 10 ^ 1 := by norm_num
      _ ≤ _ := pow_le_pow_right₀ (by norm_num) (by norm_num)
  obtain ⟨a, ha⟩ := exists_holds (x := limit - 1) (s := 0) ⟨10 ^ 131072 - 1, by unfold limit; push_cast; simp⟩
    (by norm_num) (by norm_num) (by rw [abs_of_nonneg (by linarith)]; linarith)
  refine ⟨a, ha, (C11_overflow_add_sub ha ha).1.2 ?_⟩
  change limit ≤ _
  rw [abs_of_nonneg (by linarith)]; linarith

/-- C12: division by a non-zero number returns the exact quotient rounded half away from zero at the selected
scale, or `None` exactly when that does not fit. -/
theorem C12_div_rounded [Build] {a b : Bin} {x y : ℚ} {s t : Int} (ha : Holds a x s) (hb : Holds b y t) (hy : y ≠ 0) :
    let q := quotientScale x y s t
    (|roundHalfAway (x / y) q| < limit → ∃ r, Num.checkedDiv a b = .ok (some r) ∧ Holds r (roundHalfAway (x / y) q) q) ∧
    (limit ≤ |roundHalfAway (x / y) q| → Num.checkedDiv a b = .ok none) := Num.checkedDiv_spec ha hb hy

/-- The rounding function of the specification is within half a unit, ties going away from zero. -/
theorem C12_round_meaning (x : ℚ) (q : Int) :
    |roundHalfAway x q - x| * 10 ^ q ≤ 1 / 2 ∧ HasScale (roundHalfAway x q) q ∧
    (|roundHalfAway x q - x| * 10 ^ q = 1 / 2 → |x| < |roundHalfAway x q|) := by
  have hT := T_zpow_pos q
  have key : ∀ m : ℚ, 0 ≤ m → |rmag m q - m| * 10 ^ q ≤ 1 / 2 ∧ (|rmag m q - m| * 10 ^ q = 1 / 2 → m < rmag m q) := by
    intro m hm
    have e : rmag m q - m = ((⌊m * 10 ^ q + 1 / 2⌋ : ℤ) - m * 10 ^ q) / 10 ^ q := by
      unfold rmag; field_simp
    have h1 := Int.floor_le (m * 10 ^ q + 1 / 2)
    have h2 := Int.lt_floor_add_one (m * 10 ^ q + 1 / 2)
    have e2 : |rmag m q - m| * 10 ^ q = |((⌊m * 10 ^ q + 1 / 2⌋ : ℤ) : ℚ) - m * 10 ^ q| := by
      rw [e, abs_div, abs_of_pos hT, div_mul_cancel₀ _ hT.ne']
    rw [e2]
    constructor
    · rw [abs_le]; constructor <;> linarith
    · intro h
      have hp : 0 < rmag m q - m := by
        rw [e]
        apply div_pos _ hT
        rcases abs_cases (((⌊m * 10 ^ q + 1 / 2⌋ : ℤ) : ℚ) - m * 10 ^ q) with ⟨h3, h4⟩ | ⟨h3, h4⟩ <;> linarith
      linarith
  refine ⟨?_, roundHalfAway_hasScale x q, ?_⟩
  · rcases le_or_gt 0 x with h | h
    · rw [roundHalfAway_of_nonneg h]; exact (key x h).1
    · have : x = -(-x) := by ring
      rw [this, roundHalfAway_neg, roundHalfAway_of_nonneg (by linarith), ← abs_neg]
      have := (key (-x) (by linarith)).1
      rwa [show -(-rmag (-x) q - - -x) = rmag (-x) q - -x by ring]
  · rcases le_or_gt 0 x with h | h
    · rw [roundHalfAway_of_nonneg h]
      intro hh
      have := (key x h).2 hh
      rw [abs_of_nonneg h, abs_of_nonneg (by linarith)]; exact this
    · have e : x = -(-x) := by ring
      intro hh
      rw [e, roundHalfAway_neg, roundHalfAway_of_nonneg (by linarith)] at hh ⊢
      rw [show -rmag (-x) q - - -x = -(rmag (-x) q - -x) by ring, abs_neg] at hh
      have := (key (-x) (by linarith)).2 hh
      rw [neg_neg, abs_neg, abs_of_neg h, abs_of_nonneg (by linarith)]
      exact this

example [Build] : ∃ a b r, Holds a 1 0 ∧ Holds b 3 0 ∧ Num.checkedDiv a b = .ok (some r) ∧
    Holds r (roundHalfAway (1/3) (quotientScale 1 3 0 0)) (quotientScale 1 3 0 0) := by
  obtain ⟨a, ha⟩ := witness (x := 1) (s := 0) 1 (by norm_num) (by norm_num) (by norm_num) (by norm_num [abs_lt])
  obtain ⟨b, hb⟩ := witness (x := 3) (s := 0) 3 (by norm_num) (by norm_num) (by norm_num) (by norm_num [abs_lt])
  obtain ⟨r, e, h⟩ := (C12_div_rounded ha hb (by norm_num)).1 (by
    have h1 := (C12_round_meaning (1/3) (quotientScale 1 3 0 0)).1
    have h2 : (1:ℚ) ≤ 10 ^ (quotientScale 1 3 0 0) := one_le_zpow₀ (by norm_num) (Num.quotientScale_bounds _ _ le_rfl).1
    apply lt_limit
    have h3 : |roundHalfAway (1/3) (quotientScale 1 3 0 0) - 1/3| ≤ 1/2 := by
      refine le_trans ?_ h1
      exact le_mul_of_one_le_right (abs_nonneg _) h2
    rw [abs_le] at h3
    rw [abs_lt]
    constructor <;> norm_num <;> linarith [h3.1, h3.2])
  exact ⟨a, b, r, ha, hb, e, h⟩

/-- C13: the quotient scale is between 0 and 1000, at least both operand scales unless capped at 1000, and a
non-zero quotient has at least 16 significant digits (`|x/y| ≥ 10^16` units of the last place) unless capped. -/
theorem C13_quotient_scale [Build] {a b : Bin} {x y : ℚ} {s t : Int} (ha : Holds a x s) (hb : Holds b y t) :
    let q := quotientScale x y s t
    0 ≤ q ∧ q ≤ 1000 ∧ (q < 1000 → s ≤ q ∧ t ≤ q) ∧
    (q < 1000 → x ≠ 0 → y ≠ 0 → (10:ℚ) ^ (16:ℤ) ≤ |x / y| * 10 ^ q) := by
  intro q
  obtain ⟨u, hu, rfl, rfl, -⟩ := ha.exists_var
  obtain ⟨v, hv, rfl, rfl, -⟩ := hb.exists_var
  have e := Num.selectDivScale_exact hu hv
  have hb := selectDivScale_bounds u v
  have hg := selectDivScale_ge u v
  rw [e] at hb hg
  refine ⟨hb.1, hb.2, fun h => ⟨?_, ?_⟩, fun h hx hy => ?_⟩
  · have := hg.resolve_right (by omega); omega
  · have := hg.resolve_right (by omega); omega
  · have := selectDivScale_digits hu hv hx hy (by rw [e]; exact h)
    rwa [e] at this

/-- C14: division by zero. -/
theorem C14_div_by_zero [Build] {a b : Bin} {x : ℚ} {s t : Int} (ha : Holds a x s) (hb : Holds b 0 t) :
    Num.checkedDiv a b = .ok none ∧ Num.checkedDivTrunc a b = .ok none ∧ Num.checkedRem a b = .ok none ∧
    Num.opDiv a b = .error (.panic "attempt to divide by zero") ∧
    Num.opRem a b = .error (.panic "attempt to divide by zero") := by
  obtain ⟨h1, h2, h3⟩ := Num.checkedDiv_byZero ha hb
  obtain ⟨h4, h5⟩ := Num.overflowing_byZero ha hb
  refine ⟨h1, h2, h3, ?_, ?_⟩
  · unfold Num.opDiv; rw [h4]; rfl
  · unfold Num.opRem; rw [h5]; rfl

/-- C14: with a non-zero divisor the operators never report division by zero. -/
theorem C14_nonzero_divisor [Build] {a b : Bin} {x y : ℚ} {s t : Int} (ha : Holds a x s) (hb : Holds b y t) (hy : y ≠ 0) :
    Num.opDiv a b ≠ .error (.panic "attempt to divide by zero") ∧
    Num.opRem a b ≠ .error (.panic "attempt to divide by zero") := by
  constructor
  · unfold Num.opDiv
    rcases Num.overflowingDiv_spec ha hb hy with ⟨r, -, e⟩ | ⟨-, e⟩ <;> rw [e] <;> simp [VALUE_OVERFLOW_MSG]
  · obtain ⟨r, -, e, -⟩ := Num.checkedRem_spec ha hb hy
    unfold Num.opRem; rw [e]; simp

example [Build] : ∃ a b, Holds a (7/2) 1 ∧ Holds b 0 3 := by
  obtain ⟨a, ha⟩ := witness (x := 7/2) (s := 1) 35 (by norm_num) (by norm_num) (by norm_num) (by norm_num [abs_lt])
  obtain ⟨b, hb⟩ := witness (x := 0) (s := 3) 0 (by norm_num) (by norm_num) (by norm_num) (by norm_num)
  exact ⟨a, b, ha, hb⟩

/-- C15: truncating division gives the integer part of the quotient, with scale 0. -/
theorem C15_div_trunc [Build] {a b : Bin} {x y : ℚ} {s t : Int} (ha : Holds a x s) (hb : Holds b y t) (hy : y ≠ 0) :
    let n : ℤ := if 0 ≤ x / y then ⌊x / y⌋ else ⌈x / y⌉
    (|(n:ℚ)| < limit → ∃ r, Num.checkedDivTrunc a b = .ok (some r) ∧ Holds r n 0) ∧
    (limit ≤ |(n:ℚ)| → Num.checkedDivTrunc a b = .ok none) := by
  intro n
  have e : truncTo (x / y) 0 = n := by
    simp only [n]
    split
    · exact truncTo_zero_pos ‹_›
    · exact truncTo_zero_neg (by linarith)
  rw [← e]
  exact Num.checkedDivTrunc_spec ha hb hy

/-- C16: the remainder always exists for a non-zero divisor and satisfies `r = x - n y` with `n` the truncated
quotient; so `|r| < |y|`, `r` has the sign of `x` or is 0, and the scale is the maximum. -/
theorem C16_rem_law [Build] {a b : Bin} {x y : ℚ} {s t : Int} (ha : Holds a x s) (hb : Holds b y t) (hy : y ≠ 0) :
    let n : ℤ := if 0 ≤ x / y then ⌊x / y⌋ else ⌈x / y⌉
    ∃ r, Num.checkedRem a b = .ok (some r) ∧ Holds r (x - n * y) (max s t) ∧ |x - n * y| < |y| ∧
      (0 ≤ x → 0 ≤ x - n * y) ∧ (x ≤ 0 → x - n * y ≤ 0) := by
  intro n
  have e : truncTo (x / y) 0 = n := by
    simp only [n]
    split
    · exact truncTo_zero_pos ‹_›
    · exact truncTo_zero_neg (by linarith)
  obtain ⟨r, er, -, hr⟩ := Num.checkedRem_spec ha hb hy
  obtain ⟨h1, h2, h3⟩ := Num.rem_laws (x := x) hy
  rw [e] at hr h1 h2 h3
  refine ⟨r, er, hr, h1, fun hx => ?_, fun hx => ?_⟩
  · rcases hx.lt_or_eq with h | h
    · exact nonneg_of_mul_nonneg_left h3 h
    · rw [← h] at h2 ⊢
      simp only [abs_zero] at h2
      exact (abs_eq_zero.1 (le_antisymm h2 (abs_nonneg _))).ge
  · rcases hx.lt_or_eq with h | h
    · by_contra hc
      exact absurd h3 (not_le.2 (mul_neg_of_pos_of_neg (not_le.1 hc) h))
    · rw [h] at h2 ⊢
      simp only [abs_zero] at h2
      exact (abs_eq_zero.1 (le_antisymm h2 (abs_nonneg _))).le

example [Build] : ∃ a b r, Holds a (-75/10) 1 ∧ Holds b 2 0 ∧ Num.checkedRem a b = .ok (some r) ∧ Holds r (-3/2) 1 := by
  obtain ⟨a, ha⟩ := witness (x := -75/10) (s := 1) (-75) (by norm_num) (by norm_num) (by norm_num) (by norm_num [abs_lt])
  obtain ⟨b, hb⟩ := witness (x := 2) (s := 0) 2 (by norm_num) (by norm_num) (by norm_num) (by norm_num [abs_lt])
  obtain ⟨r, e, h, -⟩ := C16_rem_law ha hb (by norm_num)
  refine ⟨a, b, r, ha, hb, e, cast h ?_ (by norm_num)⟩
  have : (⌈(-75/10/2 : ℚ)⌉ : ℤ) = -3 := by rw [Int.ceil_eq_iff]; norm_num
  rw [if_neg (by norm_num), this]
  norm_num

/-- C17: rounding, half away from zero, at the clamped scale; a panic exactly when the rounded value overflows. -/
theorem C17_round [Build] {a : Bin} {x : ℚ} {s : Int} (ha : Holds a x s) (n : Int) :
    let k := max (-1000) (min 1000 n)
    (|roundHalfAway x k| < limit → ∃ r, Num.round a n = .ok r ∧ Holds r (roundHalfAway x k) (max k 0)) ∧
    (limit ≤ |roundHalfAway x k| → Num.round a n = .error (.panic "value overflows numeric format")) :=
  Num.round_ok ha n

example [Build] : ∃ a r, Holds a (-25/10) 1 ∧ Num.round a 0 = .ok r ∧ Holds r (-3) 0 := by
  obtain ⟨a, ha⟩ := witness (x := -25/10) (s := 1) (-25) (by norm_num) (by norm_num) (by norm_num) (by norm_num [abs_lt])
  have e : roundHalfAway (-25/10) 0 = -3 := by norm_num [roundHalfAway]
  obtain ⟨r, er, hr⟩ := (C17_round ha 0).1 (by
    rw [show max (-1000) (min 1000 0) = (0:Int) by norm_num, e]; exact lt_limit (by norm_num))
  exact ⟨a, r, ha, er, cast hr (by rw [show max (-1000) (min 1000 0) = (0:Int) by norm_num, e]) (by norm_num)⟩

/-- C18: truncation towards zero at the clamped scale, never failing. -/
theorem C18_trunc [Build] {a : Bin} {x : ℚ} {s : Int} (ha : Holds a x s) (n : Int) :
    let k := max (-1000) (min 1000 n)
    ∃ r, Num.trunc a n = .ok r ∧ Holds r (truncTo x k) (max k 0) := Num.trunc_ok ha n

/-- The truncation function of the specification: a multiple of `10^-k`, between 0 and `x`, less than one unit
from `x`. -/
theorem C18_trunc_meaning (x : ℚ) (k : Int) :
    HasScale (truncTo x k) k ∧ |truncTo x k| ≤ |x| ∧ 0 ≤ truncTo x k * x ∧ |x - truncTo x k| * 10 ^ k < 1 := by
  have hT := T_zpow_pos k
  refine ⟨truncTo_hasScale x k, abs_truncTo_le x k, ?_, ?_⟩
  · rcases le_or_gt 0 x with h | h
    · rw [truncTo_of_nonneg h]
      refine mul_nonneg ?_ h
      unfold tmag
      exact div_nonneg (by exact_mod_cast Int.floor_nonneg.2 (mul_nonneg h hT.le)) hT.le
    · have e : x = -(-x) := by ring
      rw [e, truncTo_neg, truncTo_of_nonneg (by linarith), neg_mul_neg]
      refine mul_nonneg ?_ (by linarith)
      unfold tmag
      exact div_nonneg (by exact_mod_cast Int.floor_nonneg.2 (mul_nonneg (by linarith) hT.le)) hT.le
  · have key : ∀ m : ℚ, 0 ≤ m → |m - tmag m k| * 10 ^ k < 1 := by
      intro m hm
      have e : m - tmag m k = (m * 10 ^ k - (⌊m * 10 ^ k⌋ : ℤ)) / 10 ^ k := by unfold tmag; field_simp
      rw [e, abs_div, abs_of_pos hT, div_mul_cancel₀ _ hT.ne']
      have h1 := Int.floor_le (m * 10 ^ k)
      have h2 := Int.lt_floor_add_one (m * 10 ^ k)
      rw [abs_of_nonneg (by linarith)]; linarith
    rcases le_or_gt 0 x with h | h
    · rw [truncTo_of_nonneg h]; exact key x h
    · have e : x = -(-x) := by ring
      rw [e, truncTo_neg, truncTo_of_nonneg (by linarith), show - -x - -tmag (-x) k = -(-x - tmag (-x) k) by ring, abs_neg]
      exact key _ (by linarith)

example [Build] : ∃ a r, Holds a (-1299/100) 2 ∧ Num.trunc a 1 = .ok r ∧ Holds r (-129/10) 1 := by
  obtain ⟨a, ha⟩ := witness (x := -1299/100) (s := 2) (-1299) (by norm_num) (by norm_num) (by norm_num) (by norm_num [abs_lt])
  obtain ⟨r, er, hr⟩ := C18_trunc ha 1
  have e : truncTo (-1299/100) 1 = -129/10 := by norm_num [truncTo]
  exact ⟨a, r, ha, er, cast hr (by rw [show max (-1000) (min 1000 1) = (1:Int) by norm_num, e]) (by norm_num)⟩

/-- C19: ceil and floor. -/
theorem C19_ceil_floor [Build] {a : Bin} {x : ℚ} {s : Int} (ha : Holds a x s) :
    ((|((⌈x⌉ : ℤ) : ℚ)| < limit → ∃ r, Num.ceil a = .ok r ∧ Holds r (⌈x⌉ : ℤ) 0) ∧
     (limit ≤ |((⌈x⌉ : ℤ) : ℚ)| → Num.ceil a = .error (.panic "value overflows numeric format"))) ∧
    ((|((⌊x⌋ : ℤ) : ℚ)| < limit → ∃ r, Num.floor a = .ok r ∧ Holds r (⌊x⌋ : ℤ) 0) ∧
     (limit ≤ |((⌊x⌋ : ℤ) : ℚ)| → Num.floor a = .error (.panic "value overflows numeric format"))) :=
  ⟨Num.ceil_ok ha, Num.floor_ok ha⟩

example [Build] : ∃ a r, Holds a (-25/10) 1 ∧ Num.ceil a = .ok r ∧ Holds r (-2) 0 := by
  obtain ⟨a, ha⟩ := witness (x := -25/10) (s := 1) (-25) (by norm_num) (by norm_num) (by norm_num) (by norm_num [abs_lt])
  have e : (⌈(-25/10 : ℚ)⌉ : ℤ) = -2 := by rw [Int.ceil_eq_iff]; norm_num
  have h := (C19_ceil_floor ha).1.1
  rw [e] at h
  obtain ⟨r, er, hr⟩ := h (lt_limit (by norm_num [abs_lt]))
  exact ⟨a, r, ha, er, by simpa using hr⟩

/-- C20: negate, abs, signum, inc. -/
theorem C20_sign_ops [Build] {a : Bin} {x : ℚ} {s : Int} (ha : Holds a x s) :
    (∃ r, Num.negate a = .ok r ∧ Holds r (-x) s) ∧ (∃ r, Num.abs a = .ok r ∧ Holds r |x| s) ∧
    (∃ r, Num.signum a = .ok r ∧ Holds r (if x < 0 then -1 else if x = 0 then 0 else 1) 0) ∧
    (|x + 1| < limit → ∃ r, Num.inc a = .ok r ∧ Holds r (x + 1) s) ∧
    (limit ≤ |x + 1| → Num.inc a = .error (.panic "value overflows numeric format")) :=
  ⟨Num.negate_ok ha, Num.abs_ok ha, Num.signum_ok ha, (Num.inc_ok ha).1, (Num.inc_ok ha).2⟩

/-- C20: negating twice gives back the same bytes; negating a zero gives the same bytes (no negative zero). -/
theorem C20_negate_involutive [Build] {a b : Bin} {x : ℚ} {s : Int} (ha : Holds a x s) (h : Num.negate a = .ok b) :
    Num.negate b = .ok a ∧ (x = 0 → b = a) := by
  obtain ⟨r, e, hr⟩ := Num.negate_ok ha
  rw [h] at e; cases e
  obtain ⟨c, ec, hc⟩ := Num.negate_ok hr
  rw [neg_neg] at hc
  refine ⟨by rw [ec, hc.unique ha], fun h0 => ?_⟩
  rw [h0, neg_zero] at hr
  rw [h0] at ha
  exact hr.unique ha

/-- C20: the accessors. -/
theorem C20_accessors [Build] {a : Bin} {x : ℚ} {s : Int} (h : Holds a x s) :
    Num.isNegative a = .ok (decide (x < 0)) ∧ Num.isPositive a = .ok (decide (0 ≤ x)) ∧ Num.isNan a = .ok false ∧
    Num.scale a = .ok (some s) := Num.isNegative_spec h

/-- C24: a NaN operand makes every two-argument operation NaN, also when the other operand is zero; the
operators as well. -/
theorem C24_nan_binary [Build] {a b : Bin} (ha : Valid a) (hb : Valid b) (h : IsNaN a ∨ IsNaN b) :
    Num.checkedAdd a b = .ok (some Bin.nan) ∧ Num.checkedSub a b = .ok (some Bin.nan) ∧
    Num.checkedMul a b = .ok (some Bin.nan) ∧ Num.checkedDiv a b = .ok (some Bin.nan) ∧
    Num.checkedDivTrunc a b = .ok (some Bin.nan) ∧ Num.checkedRem a b = .ok (some Bin.nan) ∧
    Num.opAdd a b = .ok Bin.nan ∧ Num.opSub a b = .ok Bin.nan ∧ Num.opMul a b = .ok Bin.nan ∧
    Num.opDiv a b = .ok Bin.nan ∧ Num.opRem a b = .ok Bin.nan ∧ IsNaN Bin.nan := by
  obtain ⟨h1, h2, h3, h4, h5, h6, h7, h8⟩ := Num.binop_nan ha hb h
  refine ⟨h1, h2, h3, h4, h5, h6, ?_, ?_, ?_, ?_, ?_, nan_isNaN⟩
  · unfold Num.opAdd; rw [h1]; rfl
  · unfold Num.opSub; rw [h2]; rfl
  · unfold Num.opMul; rw [h3]; rfl
  · unfold Num.opDiv; rw [h7]; rfl
  · unfold Num.opRem; rw [h8]; rfl

/-- C24: the one-argument functions keep NaN, whatever the scale argument. -/
theorem C24_nan_unary [Build] {a : Bin} (h : IsNaN a) (n : Int) :
    Num.round a n = .ok Bin.nan ∧ Num.trunc a n = .ok Bin.nan ∧ Num.ceil a = .ok Bin.nan ∧ Num.floor a = .ok Bin.nan ∧
    Num.abs a = .ok Bin.nan ∧ Num.negate a = .ok Bin.nan ∧ Num.signum a = .ok Bin.nan ∧ Num.inc a = .ok Bin.nan :=
  Num.unop_nan h n

/-- C24: accessors of NaN, and NaN is never a number. -/
theorem C24_nan_accessors [Build] {a : Bin} (h : IsNaN a) :
    Num.isNan a = .ok true ∧ Num.scale a = .ok none ∧ Num.isNegative a = .ok false ∧ Num.isPositive a = .ok false ∧
    ∀ x s, ¬ Holds a x s := by
  obtain ⟨h1, h2, h3, h4⟩ := Num.nan_accessors h
  refine ⟨h1, h2, h3, h4, fun x s hh => ?_⟩
  have := (C20_accessors hh).2.2.1
  rw [h1] at this; cases this

example [Build] : ∃ a b, IsNaN a ∧ Valid a ∧ Holds b 0 0 ∧ Valid b := by
  obtain ⟨b, hb⟩ := witness (x := 0) (s := 0) 0 (by norm_num) (by norm_num) (by norm_num) (by norm_num)
  exact ⟨Bin.nan, b, nan_isNaN, .inl nan_isNaN, hb, .inr ⟨_, _, hb⟩⟩

/-- C42: `clone` and `to_owned` give the same bytes (NaN gives the canonical NaN). -/
theorem C42_copies [Build] {a : Bin} :
    (∀ x s, Holds a x s → Num.toOwned a = .ok a ∧ Num.clone a = .ok a) ∧
    (IsNaN a → Num.toOwned a = .ok Bin.nan ∧ Num.clone a = .ok Bin.nan) :=
  ⟨fun _ _ h => Num.toOwned_holds h, fun h => Num.toOwned_nan h⟩

/-! ## C40 operators -/

/-- C40: `+`, `-`, `*` return what the checked method returns in `Some`, and panic with the overflow message when
it returns `None`. -/
theorem C40_add_sub_mul [Build] (a b r : Bin) :
    (Num.opAdd a b = .ok r ↔ Num.checkedAdd a b = .ok (some r)) ∧
    (Num.checkedAdd a b = .ok none → Num.opAdd a b = .error (.panic "value overflows numeric format")) ∧
    (Num.opSub a b = .ok r ↔ Num.checkedSub a b = .ok (some r)) ∧
    (Num.checkedSub a b = .ok none → Num.opSub a b = .error (.panic "value overflows numeric format")) ∧
    (Num.opMul a b = .ok r ↔ Num.checkedMul a b = .ok (some r)) ∧
    (Num.checkedMul a b = .ok none → Num.opMul a b = .error (.panic "value overflows numeric format")) := by
  have key : ∀ m : M (Option Bin), ((do let r ← m; expect VALUE_OVERFLOW_MSG r) = .ok r ↔ m = .ok (some r)) ∧
      (m = .ok none → (do let r ← m; expect VALUE_OVERFLOW_MSG r) = .error (.panic VALUE_OVERFLOW_MSG)) := by
    intro m
    rw [Num.op_of_checked]
    cases m with
    | error e => simp
    | ok o => cases o <;> simp
  obtain ⟨h1, h2⟩ := key (Num.checkedAdd a b)
  obtain ⟨h3, h4⟩ := key (Num.checkedSub a b)
  obtain ⟨h5, h6⟩ := key (Num.checkedMul a b)
  exact ⟨h1, h2, h3, h4, h5, h6⟩

/-- C40: `/` and `%` agree with the checked methods on all valid operands, and panic exactly when those return
`None`: with the division message for a zero divisor, with the overflow message otherwise. -/
theorem C40_div_rem [Build] {a b : Bin} (ha : Valid a) (hb : Valid b) :
    (∀ r, Num.checkedDiv a b = .ok (some r) → Num.opDiv a b = .ok r) ∧
    (Num.checkedDiv a b = .ok none → (∃ t, Holds b 0 t) → Num.opDiv a b = .error (.panic "attempt to divide by zero")) ∧
    (Num.checkedDiv a b = .ok none → (¬ ∃ t, Holds b 0 t) → Num.opDiv a b = .error (.panic "value overflows numeric format")) ∧
    (∀ r, Num.checkedRem a b = .ok (some r) → Num.opRem a b = .ok r) ∧
    (Num.checkedRem a b = .ok none → Num.opRem a b = .error (.panic "attempt to divide by zero")) := by
  by_cases hn : IsNaN a ∨ IsNaN b
  · obtain ⟨h1, h2, h3, h4, h5, h6, h7, h8, h9, h10, h11, -⟩ := C24_nan_binary ha hb hn
    rw [h4, h6, h10, h11]
    simp
  · push Not at hn
    obtain ⟨x, s, ha⟩ := ha.resolve_left hn.1
    obtain ⟨y, t, hb⟩ := hb.resolve_left hn.2
    by_cases hy : y = 0
    · subst hy
      obtain ⟨h1, h2, h3, h4, h5⟩ := C14_div_by_zero ha hb
      rw [h1, h3, h4, h5]
      exact ⟨by simp, fun _ _ => rfl, fun _ h => absurd ⟨t, hb⟩ h, by simp, fun _ => rfl⟩
    · have hnz : ¬ ∃ t, Holds b 0 t := fun ⟨t', h'⟩ => hy (hb.inj h').1
      obtain ⟨r, e1, e2, -⟩ := Num.checkedRem_spec ha hb hy
      have e3 : Num.opRem a b = .ok r := by unfold Num.opRem; rw [e2]; rfl
      rw [e1, e3]
      rcases Num.overflowingDiv_spec ha hb hy with ⟨q, e4, e5⟩ | ⟨e4, e5⟩
      · have : Num.opDiv a b = .ok q := by unfold Num.opDiv; rw [e5]; rfl
        rw [e4, this]; simp [hnz]
      · have : Num.opDiv a b = .error (.panic VALUE_OVERFLOW_MSG) := by unfold Num.opDiv; rw [e5]; rfl
        rw [e4, this]; simp [hnz, VALUE_OVERFLOW_MSG]

end PgNumeric.Props
