import Verif.Proofs.DivLoop
/-!
# Canonical variables: bounds on weight and length, and the range check of `make_result`
-/
namespace PgNumeric
open Spec Var

theorem dval_mod_last {l : List Int} (hne : l ≠ []) : dval l % 10000 = l.getLast hne % 10000 := by
  obtain ⟨init, last, rfl⟩ : ∃ init last, l = init ++ [last] := ⟨l.dropLast, l.getLast hne, (List.dropLast_append_getLast hne).symm⟩
  rw [dval_append]
  simp [dval_cons, Int.add_emod]

/-- The number of stored digits of a stripped value is covered by its scale. -/
theorem stripped_len {v : Var} (hd : Digits v.digits) (hs : Stripped v) (hne : v.digits ≠ [])
    {s : Int} (hsc : HasScale (value v) s) : v.ndigits ≤ v.weight + 1 + (s + 3) / 4 := by
  by_contra hcon
  push Not at hcon
  obtain ⟨n, hn⟩ := hsc
  have hm : ∃ m : ℤ, mag v.digits v.weight * 10 ^ s = m := by
    have : |value v| * 10 ^ s = |(n : ℚ)| := by rw [← hn, abs_mul, abs_of_pos (T_zpow_pos s)]
    rw [abs_value v hd] at this
    exact ⟨|n|, by rw [this]; push_cast; rfl⟩
  obtain ⟨m, hm⟩ := hm
  rw [mag_eq_dval, B_eq_T, mul_assoc, ← zpow_add₀ (by norm_num)] at hm
  obtain ⟨k, hk⟩ := Int.eq_ofNat_of_zero_le (a := -(4 * (v.weight + 1 - v.ndigits) + s) - 4) (by omega)
  have he : 4 * (v.weight + 1 - (v.digits.length : Int)) + s = -((k + 4 : ℕ) : Int) := by push_cast; simp only [ndigits] at hk; omega
  rw [he, zpow_neg, zpow_natCast, ← div_eq_mul_inv, div_eq_iff (by positivity)] at hm
  have hz : dval v.digits = m * 10 ^ (k + 4) := by exact_mod_cast hm
  have h0 : dval v.digits % 10000 = 0 := by
    rw [hz, pow_add]
    have : (10:ℤ)^4 = 10000 := by norm_num
    rw [this, ← mul_assoc, Int.mul_emod_left]
  rw [dval_mod_last hne] at h0
  have hl := hs.2.1
  rw [List.getLast?_eq_some_getLast hne] at hl
  have hr := hd _ (List.getLast_mem hne)
  apply hl
  congr 1
  omega

theorem limit_eq : limit = (10000 : ℚ) ^ (32768 : Int) := by
  unfold limit
  have : (131072 : ℕ) = 4 * 32768 := by norm_num
  rw [this, pow_mul]
  have e : (10:ℚ)^4 = 10000 := by norm_num
  rw [e]
  have : ((32768 : ℤ)) = ((32768 : ℕ) : ℤ) := by norm_num
  rw [this, zpow_natCast]

theorem limit_pos : 0 < limit := by unfold limit; positivity

theorem weight_le_iff {v : Var} (hd : Digits v.digits) (hs : Stripped v) :
    v.weight ≤ 32767 ↔ |value v| < limit := by
  rw [abs_value v hd, limit_eq]
  constructor
  · intro h
    exact lt_of_lt_of_le (mag_lt hd _) (B_zpow_le_iff.2 (by omega))
  · intro h
    by_cases hne : v.digits = []
    · rw [(hs.2.2 hne).1]; omega
    · have := lt_of_le_of_lt (stripped_mag_ge hd hs hne) h
      have := B_zpow_lt_iff.1 this
      omega

theorem Spec.Canonical.len {v : Var} (h : Canonical v) (hne : v.digits ≠ []) :
    v.ndigits ≤ v.weight + 1 + (v.dscale + 3) / 4 := stripped_len h.digits h.stripped hne h.scale

theorem stripped_weight_ge {v : Var} (hd : Digits v.digits) (hs : Stripped v)
    {s : Int} (hsc : HasScale (value v) s) (h1 : s ≤ 16383) : -4096 ≤ v.weight := by
  by_cases hne : v.digits = []
  · rw [(hs.2.2 hne).1]; omega
  · have := stripped_len hd hs hne hsc
    have h1 : 1 ≤ v.ndigits := by
      have := List.length_pos_iff.2 hne
      simp only [ndigits]; omega
    omega

theorem Spec.Canonical.weight_ge {v : Var} (h : Canonical v) : -4096 ≤ v.weight :=
  stripped_weight_ge h.digits h.stripped h.scale h.dscale_le

theorem Spec.Canonical.abs_lt {v : Var} (h : Canonical v) : |value v| < limit :=
  (weight_le_iff h.digits h.stripped).1 h.weight_le

theorem Spec.Canonical.signOK {v : Var} (h : Canonical v) : SignOK v := h.stripped.signOK h.digits

theorem Spec.Canonical.unique {a b : Var} (ha : Canonical a) (hb : Canonical b) (hv : value a = value b)
    (hd : a.dscale = b.dscale) : a = b :=
  stripped_unique ha.digits hb.digits ha.not_nan hb.not_nan ha.stripped hb.stripped hv hd

/-- A bound on values far above everything the library computes with, and far below what the `i32` weights can express. -/
def huge : ℚ := (10000 : ℚ) ^ (50000000 : Int)

theorem lt_huge_of_zpow {x : ℚ} {k : Int} (h : x < 10000 ^ k) (hk : k ≤ 50000000) : x < huge := by
  unfold huge
  exact lt_of_lt_of_le h (B_zpow_le_iff.2 hk)

theorem lt_huge {x : ℚ} (h : x < limit) : x < huge := by
  rw [limit_eq] at h; exact lt_huge_of_zpow h (by norm_num)

theorem huge_pos : 0 < huge := B_zpow_pos _

/-- Sums and products of moderate values are still moderate. -/
theorem huge_mul {x y : ℚ} {j k : Int} (hx : |x| < 10000 ^ j) (hy : |y| < 10000 ^ k) (h : j + k ≤ 50000000) :
    |x * y| < huge := by
  rw [abs_mul]
  refine lt_of_lt_of_le (mul_lt_mul'' hx hy (abs_nonneg _) (abs_nonneg _)) ?_
  rw [← zpow_add₀ B_ne]
  exact B_zpow_le_iff.2 h

theorem abs_add_lt_zpow {x y : ℚ} {j k : Int} (hx : |x| < 10000 ^ j) (hy : |y| < 10000 ^ k) :
    |x + y| < 10000 ^ (max j k + 1) := by
  have h1 : (10000:ℚ) ^ j ≤ 10000 ^ (max j k) := B_zpow_le_iff.2 (le_max_left _ _)
  have h2 : (10000:ℚ) ^ k ≤ 10000 ^ (max j k) := B_zpow_le_iff.2 (le_max_right _ _)
  have h3 := abs_add_le x y
  rw [zpow_add₀ B_ne, zpow_one]
  have := B_zpow_pos (max j k)
  linarith

theorem huge_add {x y : ℚ} (hx : |x| < limit) (hy : |y| < limit) : |x + y| < huge := by
  rw [limit_eq] at hx hy
  exact lt_huge_of_zpow (abs_add_lt_zpow hx hy) (by norm_num)

theorem huge_sub {x y : ℚ} (hx : |x| < limit) (hy : |y| < limit) : |x - y| < huge := by
  rw [sub_eq_add_neg]; exact huge_add hx (by rwa [abs_neg])

theorem mag_lt_huge {v : Var} (hd : Digits v.digits) (hw : v.weight < 50000000) : |value v| < huge := by
  rw [abs_value v hd]
  exact lt_huge_of_zpow (mag_lt hd _) (by omega)

/-- A stripped variable of moderate value and scale is small. -/
theorem Small.of_stripped {v : Var} (hd : Digits v.digits) (hs : Stripped v) {s : Int} (hsc : HasScale (value v) s)
    (h1 : s ≤ 100000000) (hl : |value v| < huge) : Small v := by
  by_cases hne : v.digits = []
  · have := (hs.2.2 hne).1
    exact ⟨by omega, by omega, by rw [hne]; simp⟩
  · have h2 := stripped_len hd hs hne hsc
    have h3 : v.weight < 50000000 := by
      rw [abs_value v hd] at hl
      unfold huge at hl
      exact B_zpow_lt_iff.1 (lt_of_le_of_lt (stripped_mag_ge hd hs hne) hl)
    have h4 : 0 < v.digits.length := List.length_pos_iff.2 hne
    simp only [ndigits] at h2
    exact ⟨by omega, by omega, by omega⟩

theorem Spec.Canonical.small {v : Var} (h : Canonical v) : Small v :=
  Small.of_stripped h.digits h.stripped h.scale (by have := h.dscale_le; omega) (lt_huge h.abs_lt)

/-- Stripping a small variable does not overflow. -/
theorem Small.stripM {v : Var} (h : Small v) : stripM v = .ok (strip v) :=
  stripM_ok (by have := h.lo; have := h.len; omega) (by have := h.hi; omega)

theorem AddOK.small {u : Var} {s : Int} {x : ℚ} (h : AddOK u s x) (hsc : HasScale x s) (hs : s ≤ 100000000)
    (hl : |x| < huge) : Small u :=
  Small.of_stripped h.digits h.stripped (s := s) (by rw [h.value]; exact hsc) hs (by rw [h.value]; exact hl)

theorem AddOK.canonical {u : Var} {s : Int} {x : ℚ} (h : AddOK u s x) (hs0 : 0 ≤ s) (hs1 : s ≤ 16383)
    (hsc : HasScale x s) (hl : |x| < limit) : Canonical u where
  not_nan := h.not_nan
  digits := h.digits
  stripped := h.stripped
  weight_le := (weight_le_iff h.digits h.stripped).2 (by rw [h.value]; exact hl)
  dscale_nonneg := by rw [h.dscale]; exact hs0
  dscale_le := by rw [h.dscale]; exact hs1
  scale := by rw [h.value, h.dscale]; exact hsc

theorem strip_of_canonical {u : Var} (h : Canonical u) : strip u = u := by
  apply stripped_unique (strip_digits h.digits) h.digits (strip_sign h.not_nan) h.not_nan (strip_stripped _)
    h.stripped (strip_value _) (strip_dscale _)

/-- The range check of `make_result` on a stripped result is exactly "does the value fit". -/
theorem makeResult_spec [Build] {u : Var} {s : Int} {x : ℚ} (h : AddOK u s x) (hs0 : 0 ≤ s) (hs1 : s ≤ 16383)
    (hsc : HasScale x s) :
    (|x| < limit → makeResult u = .ok (some u) ∧ Canonical u) ∧ (limit ≤ |x| → makeResult u = .ok none) := by
  have hw := weight_le_iff h.digits h.stripped
  rw [h.value] at hw
  have hw2 := stripped_weight_ge h.digits h.stripped (s := s) (by rw [h.value]; exact hsc) hs1
  unfold makeResult
  rw [dassert_ok h.not_nan, dassert_ok (by rw [h.dscale]; exact hs0 : u.dscale ≥ 0), h.dscale]
  simp only [bind_ok]
  constructor
  · intro hl
    have hc := h.canonical hs0 hs1 hsc hl
    rw [if_neg (by have := hw.2 hl; simp only [NUMERIC_WEIGHT_MAX, NUMERIC_WEIGHT_MIN, NUMERIC_DSCALE_MAX]; omega), hc.small.stripM, strip_of_canonical hc]
    exact ⟨rfl, hc⟩
  · intro hl
    rw [if_pos]; rfl
    left
    by_contra hcon
    exact absurd (hw.1 (by simp only [NUMERIC_WEIGHT_MAX] at hcon; omega)) (not_lt.2 hl)

/-- A scale beyond the format always gives `none`. -/
theorem makeResult_scale [Build] {u : Var} {s : Int} (hn : u.sign ≠ .nan) (hd : u.dscale = s) (hs : 16383 < s) :
    makeResult u = .ok none := by
  unfold makeResult
  rw [dassert_ok hn, dassert_ok (by omega : u.dscale ≥ 0)]
  simp only [bind_ok]
  rw [if_pos (by simp only [NUMERIC_WEIGHT_MAX, NUMERIC_WEIGHT_MIN, NUMERIC_DSCALE_MAX]; omega)]; rfl

theorem makeResultNoOverflow_ok [Build] {u : Var} (hn : u.sign ≠ .nan) (hs : stripM u = .ok (strip u)) :
    makeResultNoOverflow u = .ok (strip u) := by
  unfold makeResultNoOverflow
  rw [dassert_ok hn]; exact hs

/-! ## Scales of sums and products -/

theorem Spec.HasScale.add {x y : ℚ} {s : Int} (hx : HasScale x s) (hy : HasScale y s) : HasScale (x + y) s := by
  obtain ⟨n, hn⟩ := hx; obtain ⟨m, hm⟩ := hy
  exact ⟨n + m, by rw [add_mul, hn, hm]; push_cast; rfl⟩

theorem Spec.HasScale.neg {x : ℚ} {s : Int} (hx : HasScale x s) : HasScale (-x) s := by
  obtain ⟨n, hn⟩ := hx
  exact ⟨-n, by rw [neg_mul, hn]; push_cast; rfl⟩

theorem Spec.HasScale.sub {x y : ℚ} {s : Int} (hx : HasScale x s) (hy : HasScale y s) : HasScale (x - y) s := by
  rw [sub_eq_add_neg]; exact hx.add hy.neg

theorem Spec.HasScale.mul {x y : ℚ} {s t : Int} (hx : HasScale x s) (hy : HasScale y t) : HasScale (x * y) (s + t) := by
  obtain ⟨n, hn⟩ := hx; obtain ⟨m, hm⟩ := hy
  refine ⟨n * m, ?_⟩
  rw [zpow_add₀ (by norm_num), mul_mul_mul_comm, hn, hm]; push_cast; rfl

theorem Spec.HasScale.abs {x : ℚ} {s : Int} (hx : HasScale x s) : HasScale |x| s := by
  rcases abs_choice x with h | h <;> rw [h]
  · exact hx
  · exact hx.neg

theorem Spec.HasScale.int (n : ℤ) {s : Int} (h : 0 ≤ s) : HasScale (n : ℚ) s := by
  obtain ⟨k, rfl⟩ := Int.eq_ofNat_of_zero_le h
  refine ⟨n * 10 ^ k, ?_⟩
  simp

theorem rmag_eq_self_iff {x : ℚ} {s : Int} (h : HasScale x s) : roundHalfAway x s = x := by
  rcases le_or_gt 0 x with h0 | h0
  · rw [roundHalfAway_of_nonneg h0]; exact rmag_of_int h
  · have : x = -(-x) := by ring
    rw [this, roundHalfAway_neg, roundHalfAway_of_nonneg (by linarith)]
    rw [rmag_of_int h.neg]

theorem truncTo_eq_self {x : ℚ} {s : Int} (h : HasScale x s) : truncTo x s = x := by
  rcases le_or_gt 0 x with h0 | h0
  · rw [truncTo_of_nonneg h0]; exact tmag_of_int h
  · have : x = -(-x) := by ring
    rw [this, truncTo_neg, truncTo_of_nonneg (by linarith)]
    rw [tmag_of_int h.neg]

/-! ## Var-level specifications for canonical operands -/

theorem add_canonical [Build] {a b : Var} (ha : Canonical a) (hb : Canonical b) :
    ∃ u, addCommon a b = .ok u ∧ AddOK u (max a.dscale b.dscale) (value a + value b) :=
  addCommon_spec a b ha.small hb.small ha.digits hb.digits ha.not_nan hb.not_nan ha.signOK
    ⟨ha.dscale_nonneg, ha.dscale_le⟩ ⟨hb.dscale_nonneg, hb.dscale_le⟩

theorem sub_canonical [Build] {a b : Var} (ha : Canonical a) (hb : Canonical b) :
    ∃ u, subCommon a b = .ok u ∧ AddOK u (max a.dscale b.dscale) (value a - value b) :=
  subCommon_spec a b ha.small hb.small ha.digits hb.digits ha.not_nan hb.not_nan ha.signOK
    ⟨ha.dscale_nonneg, ha.dscale_le⟩ ⟨hb.dscale_nonneg, hb.dscale_le⟩

theorem mul_exact_len {a b : Var} (ha : Digits a.digits) (hb : Digits b.digits) (sa : Stripped a) (sb : Stripped b)
    {s t : Int} (hs : HasScale (value a) s) (ht : HasScale (value b) t)
    (ane : a.digits ≠ []) (bne : b.digits ≠ []) :
    a.ndigits + b.ndigits ≤ a.weight + b.weight + 4 + (s + t + 3) / 4 := by
  have h1 := stripped_len ha sa ane hs
  have h2 := stripped_len hb sb bne ht
  omega

/-- Multiplication at a scale covering the exact product is exact. -/
theorem mul_exact [Build] {a b : Var} (sma : Small a) (smb : Small b) (ha : Digits a.digits) (hb : Digits b.digits) (sa : Stripped a) (sb : Stripped b)
    (na : a.sign ≠ .nan) (nb : b.sign ≠ .nan)
    {s t : Int} (hs : HasScale (value a) s) (ht : HasScale (value b) t) (hr0 : 0 ≤ s + t)
    (hr1 : s + t ≤ 300000000)
    (hz : s + t ≤ 16383 ∨ (a.digits ≠ [] ∧ b.digits ≠ [])) :
    ∃ u, mulCommon a b (s + t) = .ok u ∧ AddOK u (s + t) (value a * value b) := by
  have hrl : s + t ≤ 16383 ∨ (a.digits ≠ [] ∧ b.digits ≠ [] ∧ 0 ≤ a.weight + b.weight + 2 + (s + t + 3) / 4) := by
    rcases hz with h | ⟨h1, h2⟩
    · exact .inl h
    · have h3 := mul_exact_len ha hb sa sb hs ht h1 h2
      have l1 : 0 < a.digits.length := List.length_pos_iff.2 h1
      have l2 : 0 < b.digits.length := List.length_pos_iff.2 h2
      simp only [ndigits] at h3
      exact .inr ⟨h1, h2, by omega⟩
  obtain ⟨u, eu, hu⟩ := mulCommon_spec a b sma smb (s + t) hr1 ha hb na nb hr0 hrl
  refine ⟨u, eu, hu.digits, hu.not_nan, hu.stripped, hu.dscale, ?_⟩
  have hsc := hs.mul ht
  obtain ⟨x, hx, hex, herr⟩ := hu.round
  by_cases h0 : a.digits = [] ∨ b.digits = []
  · have hP : value a * value b = 0 := by
      rcases h0 with h | h
      · rw [(stripped_zero_iff ha sa).2 h, zero_mul]
      · rw [(stripped_zero_iff hb sb).2 h, mul_zero]
    have hmin : min a.digits.length b.digits.length = 0 := by
      rcases h0 with h | h <;> simp [h]
    rw [hmin, hP] at herr
    simp at herr
    rw [hx, herr, hP, rmag_eq_self_iff ⟨0, by simp⟩]
  · push Not at h0
    rw [hx, hex (mul_exact_len ha hb sa sb hs ht h0.1 h0.2), rmag_eq_self_iff hsc]

theorem mul_canonical [Build] {a b : Var} (ha : Canonical a) (hb : Canonical b)
    (hz : a.dscale + b.dscale ≤ 16383 ∨ (a.digits ≠ [] ∧ b.digits ≠ [])) :
    ∃ u, mulCommon a b (a.dscale + b.dscale) = .ok u ∧ AddOK u (a.dscale + b.dscale) (value a * value b) :=
  mul_exact ha.small hb.small ha.digits hb.digits ha.stripped hb.stripped ha.not_nan hb.not_nan ha.scale hb.scale
    (by have := ha.dscale_nonneg; have := hb.dscale_nonneg; omega) (by have := ha.dscale_le; have := hb.dscale_le; omega) hz

theorem div_canonical [Build] {a b : Var} (ha : Canonical a) (hb : Canonical b) (hb0 : value b ≠ 0) (s : Int) (rnd : Bool)
    (hs0 : 0 ≤ s) (hs1 : s ≤ 16383) :
    ∃ u, divCommon a b s rnd = .ok (some u) ∧ AddOK u s
      (if rnd then roundHalfAway (value a / value b) s else truncTo (value a / value b) s) := by
  have : b.digits ≠ [] := fun h => hb0 ((stripped_zero_iff hb.digits hb.stripped).2 h)
  exact divCommon_spec a b ha.small hb.small s (by omega) rnd ha.digits hb.digits ha.not_nan hb.not_nan this hb.stripped.1 hs0 (.inl hs1)

theorem abs_truncTo_le (x : ℚ) (s : Int) : |truncTo x s| ≤ |x| := by
  have key : ∀ m : ℚ, 0 ≤ m → 0 ≤ tmag m s ∧ tmag m s ≤ m := by
    intro m hm
    unfold tmag
    have hT := T_zpow_pos s
    refine ⟨div_nonneg (by exact_mod_cast Int.floor_nonneg.2 (by positivity)) hT.le, ?_⟩
    rw [div_le_iff₀ hT]
    exact Int.floor_le _
  rcases le_or_gt 0 x with h0 | h0
  · rw [truncTo_of_nonneg h0, abs_of_nonneg (key x h0).1, abs_of_nonneg h0]
    exact (key x h0).2
  · have : x = -(-x) := by ring
    rw [this, truncTo_neg, truncTo_of_nonneg (by linarith), abs_neg, abs_neg, abs_of_nonneg (key (-x) (by linarith)).1,
      abs_of_nonneg (by linarith : 0 ≤ -x)]
    exact (key _ (by linarith)).2

theorem Spec.HasScale.abs_ge {x : ℚ} {s : Int} (h : HasScale x s) (h0 : x ≠ 0) : (10:ℚ) ^ (-s) ≤ |x| := by
  obtain ⟨n, hn⟩ := h.abs
  have hT := T_zpow_pos s
  have hp : 0 < |x| * 10 ^ s := mul_pos (abs_pos.2 h0) hT
  rw [hn] at hp
  have h1 : (1:ℚ) ≤ n := by exact_mod_cast (by exact_mod_cast hp : (0:ℤ) < n)
  rw [← hn] at h1
  rw [zpow_neg, inv_le_iff_one_le_mul₀ hT]
  linarith

theorem mod_canonical [Build] {a b : Var} (ha : Canonical a) (hb : Canonical b) (hb0 : value b ≠ 0) :
    ∃ u, modCommon a b = .ok (some u) ∧ AddOK u (max a.dscale b.dscale)
      (value a - truncTo (value a / value b) 0 * value b) := by
  obtain ⟨q, eq, hq⟩ := div_canonical ha hb hb0 0 false (by omega) (by omega)
  simp only [Bool.false_eq_true, if_false] at hq
  have hqs : HasScale (value q) 0 := by rw [hq.value]; exact truncTo_hasScale _ _
  have hqb : |truncTo (value a / value b) 0| < 10000 ^ (36864 : Int) := by
    have h1 := abs_truncTo_le (value a / value b) 0
    have h2 : (10:ℚ) ^ (-(16383 : Int)) ≤ |value b| := HasScale.abs_ge (hb.scale.mono hb.dscale_le) hb0
    have h3 := ha.abs_lt
    rw [limit_eq] at h3
    have hbp : 0 < |value b| := abs_pos.2 hb0
    have h4 : |value a / value b| < 10000 ^ (36864 : Int) := by
      rw [abs_div, div_lt_iff₀ hbp]
      have h5 : (10000:ℚ) ^ (36864 : Int) * 10 ^ (-(16383:Int)) ≤ 10000 ^ (36864 : Int) * |value b| :=
        mul_le_mul_of_nonneg_left h2 (B_zpow_pos _).le
      have h6 : (10000:ℚ) ^ (32768 : Int) ≤ 10000 ^ (36864 : Int) * 10 ^ (-(16383:Int)) := by
        rw [B_eq_T, B_eq_T, ← zpow_add₀ (by norm_num : (10:ℚ) ≠ 0)]
        exact T_zpow_le_iff.2 (by norm_num)
      exact lt_of_lt_of_le h3 (h6.trans h5)
    exact lt_of_le_of_lt h1 h4
  have hqsm : Small q := hq.small (truncTo_hasScale _ _) (by norm_num) (lt_huge_of_zpow hqb (by norm_num))
  have hpv : |truncTo (value a / value b) 0 * value b| ≤ |value a| := by
    rw [abs_mul]
    have h1 := abs_truncTo_le (value a / value b) 0
    have hbp : 0 < |value b| := abs_pos.2 hb0
    rw [abs_div, le_div_iff₀ hbp] at h1
    exact h1
  obtain ⟨p, ep, hp⟩ := mul_exact hqsm hb.small hq.digits hb.digits hq.stripped hb.stripped hq.not_nan hb.not_nan hqs hb.scale
    (by have := hb.dscale_nonneg; omega) (by have := hb.dscale_le; omega) (.inl (by have := hb.dscale_le; omega))
  rw [zero_add] at ep hp
  have hpsm : Small p := hp.small (by rw [← zero_add b.dscale]; exact hqs.mul hb.scale) (by have := hb.dscale_le; omega)
    (by rw [hq.value]; exact lt_huge (lt_of_le_of_lt hpv ha.abs_lt))
  obtain ⟨r, er, hr⟩ := subCommon_spec a p ha.small hpsm ha.digits hp.digits ha.not_nan hp.not_nan ha.signOK
    ⟨ha.dscale_nonneg, ha.dscale_le⟩ (by rw [hp.dscale]; exact ⟨hb.dscale_nonneg, hb.dscale_le⟩)
  refine ⟨r, ?_, ?_⟩
  · unfold modCommon
    rw [dassert_ok ha.not_nan, dassert_ok hb.not_nan]
    simp only [bind_ok, eq, ep, er]
    rfl
  · rw [hp.dscale, hp.value, hq.value] at hr
    exact hr

theorem mod_zero [Build] {a b : Var} (ha : Canonical a) (hb : Canonical b) (hb0 : value b = 0) :
    modCommon a b = .ok none := by
  unfold modCommon
  rw [dassert_ok ha.not_nan, dassert_ok hb.not_nan]
  simp only [bind_ok, divCommon_zero a b ha.not_nan hb.not_nan ((stripped_zero_iff hb.digits hb.stripped).1 hb0)]
  rfl

end PgNumeric
