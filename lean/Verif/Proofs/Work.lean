import Verif.Proofs.LnReduce
/-!
# Working variables and the accuracy of one operation, over the reals
-/
namespace PgNumeric
open Spec Var

/-- A normalized working variable at scale `l`. -/
structure Wide (v : Var) (l : Int) : Prop where
  digits : Digits v.digits
  not_nan : v.sign ≠ .nan
  stripped : Stripped v
  dscale : v.dscale = l
  scale : HasScale (value v) l
  l_nonneg : 0 ≤ l
  l_le : l ≤ 16403

/-- A working variable whose scale is within the display scale limit. -/
structure Work (v : Var) (l : Int) : Prop extends Wide v l where
  l_le' : l ≤ 16383

namespace Wide
variable {a b v w : Var} {l m : Int}

theorem signOK (h : Wide v l) : SignOK v := h.stripped.signOK h.digits

theorem zero_iff (h : Wide v l) : v.digits = [] ↔ value v = 0 := (stripped_zero_iff h.digits h.stripped).symm

/-- Weight and length of a working variable below `10000^k`. -/
theorem bounds (h : Wide v l) {k : ℤ} (hk0 : 0 ≤ k) (hk : |value v| < 10000 ^ k) :
    -((l + 3) / 4) ≤ v.weight ∧ v.weight ≤ k ∧ (v.digits ≠ [] → v.weight ≤ k - 1) ∧ (v.digits.length : ℤ) ≤ k + (l + 3) / 4 := by
  have hl := h.l_nonneg
  by_cases hne : v.digits = []
  · have hw := (h.stripped.2.2 hne).1
    rw [hne]
    refine ⟨by omega, by omega, fun h => absurd rfl h, by simp; omega⟩
  · have h1 := stripped_len h.digits h.stripped hne h.scale
    have h2 : 1 ≤ v.digits.length := List.length_pos_iff.2 hne
    simp only [ndigits] at h1
    rw [abs_value v h.digits] at hk
    have := B_zpow_lt_iff.1 (lt_of_le_of_lt (stripped_mag_ge h.digits h.stripped hne) hk)
    exact ⟨by omega, by omega, fun _ => by omega, by omega⟩

theorem sm (h : Wide v l) (hk : |value v| < 10000 ^ (33001:ℤ)) : Small v :=
  Small.of_stripped h.digits h.stripped h.scale (by have := h.l_le; omega) (lt_huge_of_zpow hk (by norm_num))

/-- A sum that is not zero. -/
theorem add_ne [Build] (ha : Wide a l) (hb : Wide b m) (sa : Small a) (sb : Small b) (hne : value a + value b ≠ 0) :
    ∃ u, addCommon a b = .ok u ∧ Wide u (max l m) ∧ value u = value a + value b := by
  have h1 := ha.l_nonneg
  have h2 := ha.l_le
  have h3 := hb.l_nonneg
  have h4 := hb.l_le
  obtain ⟨u, eu, hu⟩ := addCommon_wide a b sa sb ha.digits hb.digits ha.not_nan hb.not_nan ha.signOK
    (by rw [ha.dscale]; exact h1) (by rw [hb.dscale]; exact h3) (.inl hne)
  rw [ha.dscale, hb.dscale] at hu
  exact ⟨u, eu, ⟨hu.digits, hu.not_nan, hu.stripped, hu.dscale,
    by rw [hu.value]; exact (ha.scale.mono (by omega)).add (hb.scale.mono (by omega)), by omega, by omega⟩, hu.value⟩

end Wide

namespace Work
variable {a b v w : Var} {l m : Int}

theorem signOK (h : Work v l) : SignOK v := h.toWide.signOK

theorem of_addOK {x : ℚ} (h : AddOK v l x) (hx : HasScale x l) (h0 : 0 ≤ l) (h1 : l ≤ 16383) : Work v l :=
  ⟨⟨h.digits, h.not_nan, h.stripped, h.dscale, by rw [h.value]; exact hx, h0, by omega⟩, h1⟩

theorem addOK (h : Work v l) : AddOK v l (value v) := ⟨h.digits, h.not_nan, h.stripped, h.dscale, rfl⟩

theorem of_canonical (h : Canonical v) : Work v v.dscale :=
  ⟨⟨h.digits, h.not_nan, h.stripped, rfl, h.scale, h.dscale_nonneg, by have := h.dscale_le; omega⟩, h.dscale_le⟩

theorem zero_iff (h : Work v l) : v.digits = [] ↔ value v = 0 := h.toWide.zero_iff

theorem bounds (h : Work v l) {k : ℤ} (hk0 : 0 ≤ k) (hk : |value v| < 10000 ^ k) :
    -((l + 3) / 4) ≤ v.weight ∧ v.weight ≤ k ∧ (v.digits ≠ [] → v.weight ≤ k - 1) ∧ (v.digits.length : ℤ) ≤ k + (l + 3) / 4 :=
  h.toWide.bounds hk0 hk

theorem sm (h : Work v l) (hk : |value v| < 10000 ^ (33001:ℤ)) : Small v := h.toWide.sm hk

theorem add [Build] (ha : Work a l) (hb : Work b m) (sa : Small a) (sb : Small b) :
    ∃ u, addCommon a b = .ok u ∧ Work u (max l m) ∧ value u = value a + value b := by
  have h1 := ha.l_nonneg
  have h2 := ha.l_le'
  have h3 := hb.l_nonneg
  have h4 := hb.l_le'
  obtain ⟨u, eu, hu⟩ := addCommon_spec a b sa sb ha.digits hb.digits ha.not_nan hb.not_nan ha.signOK
    ⟨by rw [ha.dscale]; exact h1, by rw [ha.dscale]; exact h2⟩ ⟨by rw [hb.dscale]; exact h3, by rw [hb.dscale]; exact h4⟩
  rw [ha.dscale, hb.dscale] at hu
  exact ⟨u, eu, of_addOK hu ((ha.scale.mono (by omega)).add (hb.scale.mono (by omega))) (by omega) (by omega), hu.value⟩

theorem sub [Build] (ha : Work a l) (hb : Work b m) (sa : Small a) (sb : Small b) :
    ∃ u, subCommon a b = .ok u ∧ Work u (max l m) ∧ value u = value a - value b := by
  have h1 := ha.l_nonneg
  have h2 := ha.l_le'
  have h3 := hb.l_nonneg
  have h4 := hb.l_le'
  obtain ⟨u, eu, hu⟩ := subCommon_spec a b sa sb ha.digits hb.digits ha.not_nan hb.not_nan ha.signOK
    ⟨by rw [ha.dscale]; exact h1, by rw [ha.dscale]; exact h2⟩ ⟨by rw [hb.dscale]; exact h3, by rw [hb.dscale]; exact h4⟩
  rw [ha.dscale, hb.dscale] at hu
  exact ⟨u, eu, of_addOK hu ((ha.scale.mono (by omega)).sub (hb.scale.mono (by omega))) (by omega) (by omega), hu.value⟩

end Work

theorem cast_abs_le {a b : ℚ} (h : |a| ≤ b) : |(a:ℝ)| ≤ (b:ℝ) := by exact_mod_cast h

theorem round_errR (x : ℚ) (s : ℤ) : |((roundHalfAway x s : ℚ) : ℝ) - x| ≤ (10:ℝ) ^ (-s) / 2 := by
  have := cast_abs_le (roundHalfAway_err x s)
  push_cast at this
  exact this

/-- Accuracy of an internal product. -/
theorem Wide.mul [Build] {a b : Var} {la lb l : Int} (ha : Wide a la) (hb : Wide b lb) (hl0 : 0 ≤ l) (hl1 : l ≤ 16383)
    (sa : Small a) (sb : Small b) {n : ℕ}
    (hn : min a.digits.length b.digits.length ≤ n) :
    ∃ u, mulCommon a b l = .ok u ∧ Work u l ∧
      |(value u : ℝ) - value a * value b| ≤ (1 / 2 + n / 10000) * 10 ^ (-l) := by
  obtain ⟨u, eu, hu⟩ := mulCommon_spec a b sa sb l (by omega) ha.digits hb.digits ha.not_nan hb.not_nan hl0 (.inl hl1)
  obtain ⟨x, hx, -, hxe⟩ := hu.round
  refine ⟨u, eu, ⟨⟨hu.digits, hu.not_nan, hu.stripped, hu.dscale, by rw [hx]; exact roundHalfAway_hasScale _ _, hl0, by omega⟩, hl1⟩, ?_⟩
  have h1 := round_errR x l
  have h2 := cast_abs_le hxe
  push_cast at h2
  rw [hx]
  have h3 := abs_sub_le ((roundHalfAway x l : ℚ) : ℝ) x ((value a : ℝ) * value b)
  rw [abs_sub_comm (x:ℝ)] at h3
  have hT : (0:ℝ) < 10 ^ (-l) := by positivity
  have h4 : ((min (a.digits.length : ℝ) (b.digits.length : ℝ))) ≤ n := by exact_mod_cast hn
  have h5 : (min (a.digits.length : ℝ) (b.digits.length : ℝ)) * (1 / 10000) * (10:ℝ) ^ (-l) ≤ n / 10000 * 10 ^ (-l) := by
    apply mul_le_mul_of_nonneg_right _ hT.le
    linarith
  linarith

theorem Work.mul [Build] {a b : Var} {la lb l : Int} (ha : Work a la) (hb : Work b lb) (hl0 : 0 ≤ l) (hl1 : l ≤ 16383)
    (sa : Small a) (sb : Small b) {n : ℕ}
    (hn : min a.digits.length b.digits.length ≤ n) :
    ∃ u, mulCommon a b l = .ok u ∧ Work u l ∧
      |(value u : ℝ) - value a * value b| ≤ (1 / 2 + n / 10000) * 10 ^ (-l) :=
  ha.toWide.mul hb.toWide hl0 hl1 sa sb hn

/-- An internal product that drops no digits. -/
theorem Work.mul_exact [Build] {a b : Var} {la lb l : Int} (ha : Work a la) (hb : Work b lb) (hl0 : 0 ≤ l) (hl1 : l ≤ 16383)
    (sa : Small a) (sb : Small b) (hn : a.ndigits + b.ndigits ≤ a.weight + b.weight + 4 + (l + 3) / 4) :
    ∃ u, mulCommon a b l = .ok u ∧ Work u l ∧ value u = roundHalfAway (value a * value b) l := by
  obtain ⟨u, eu, hu⟩ := mulCommon_spec a b sa sb l (by omega) ha.digits hb.digits ha.not_nan hb.not_nan hl0 (.inl hl1)
  obtain ⟨x, hx, hx2, -⟩ := hu.round
  rw [hx2 hn] at hx
  exact ⟨u, eu, ⟨⟨hu.digits, hu.not_nan, hu.stripped, hu.dscale, by rw [hx]; exact roundHalfAway_hasScale _ _, hl0, by omega⟩, hl1⟩, hx⟩

/-- Accuracy of a fast quotient. -/
theorem Work.divFast_full [Build] {a b : Var} {la lb l : Int} (ha : Work a la) (hb : Work b lb) (hl0 : 0 ≤ l) (hl1 : l ≤ 16383)
    (hb0 : value b ≠ 0) (hA : |value a| < 10000 ^ (33001:ℤ)) (hB : |value b| < 10000 ^ (33001:ℤ)) :
    (∃ u y, divFastCommon a b l true = .ok (some u) ∧ Work u l ∧ value u = roundHalfAway y l ∧
      |(y : ℝ) - value a / value b| ≤ 10 ^ (-l) / 10 ^ 10 ∧
      |(value u : ℝ) - value a / value b| ≤ (1 / 2 + 1 / 10 ^ 10) * 10 ^ (-l)) ∨
    (Build.debug = true ∧ divFastCommon a b l true = .error .overflow ∧ 21 < b.ndigits ∧
      20 < fastDigits (a.weight - b.weight + 1) l a.ndigits) := by
  obtain ⟨a1, a2, -, a3⟩ := ha.bounds (by norm_num) hA
  obtain ⟨b1, b2, -, b3⟩ := hb.bounds (by norm_num) hB
  have h1 := ha.l_le
  have h2 := hb.l_le
  rcases PgNumeric.divFast_full a b l true ha.digits hb.digits ha.not_nan hb.not_nan (fun h => hb0 (hb.zero_iff.1 h)) hb.stripped.1
    ha.stripped.1 hl0 (by omega) (.inr hl1) (by rw [abs_le]; omega) (by rw [abs_le]; omega) (by omega) with ⟨u, y, eu, hy, hu⟩ | h
  · left
    rw [if_pos rfl] at hu
    have hy' := cast_abs_le hy
    push_cast at hy'
    refine ⟨u, y, eu, Work.of_addOK hu (roundHalfAway_hasScale _ _) hl0 hl1, hu.value, hy', ?_⟩
    rw [hu.value]
    have h3 := round_errR y l
    have h4 := abs_sub_le ((roundHalfAway y l : ℚ) : ℝ) y ((value a : ℝ) / value b)
    generalize (10:ℝ) ^ (-l) = T at *
    linarith
  · right; exact h

theorem Work.divFast [Build] {a b : Var} {la lb l : Int} (ha : Work a la) (hb : Work b lb) (hl0 : 0 ≤ l) (hl1 : l ≤ 16383)
    (hb0 : value b ≠ 0) (hA : |value a| < 10000 ^ (33001:ℤ)) (hB : |value b| < 10000 ^ (33001:ℤ)) :
    (∃ u y, divFastCommon a b l true = .ok (some u) ∧ Work u l ∧ value u = roundHalfAway y l ∧
      |(y : ℝ) - value a / value b| ≤ 10 ^ (-l) / 10 ^ 10 ∧
      |(value u : ℝ) - value a / value b| ≤ (1 / 2 + 1 / 10 ^ 10) * 10 ^ (-l)) ∨
    (Build.debug = true ∧ divFastCommon a b l true = .error .overflow) := by
  rcases ha.divFast_full hb hl0 hl1 hb0 hA hB with h | ⟨h1, h2, -⟩
  exacts [.inl h, .inr ⟨h1, h2⟩]

/-- A divisor of at most 21 digit groups never overflows. -/
theorem Work.divFast_short [Build] {a b : Var} {la lb l : Int} (ha : Work a la) (hb : Work b lb) (hl0 : 0 ≤ l) (hl1 : l ≤ 16383)
    (hb0 : value b ≠ 0) (hA : |value a| < 10000 ^ (33001:ℤ)) (hB : |value b| < 10000 ^ (33001:ℤ)) (hn : b.ndigits ≤ 21) :
    ∃ u y, divFastCommon a b l true = .ok (some u) ∧ Work u l ∧ value u = roundHalfAway y l ∧
      |(y : ℝ) - value a / value b| ≤ 10 ^ (-l) / 10 ^ 10 ∧
      |(value u : ℝ) - value a / value b| ≤ (1 / 2 + 1 / 10 ^ 10) * 10 ^ (-l) := by
  rcases ha.divFast_full hb hl0 hl1 hb0 hA hB with h | ⟨-, -, h3, -⟩
  exacts [h, absurd h3 (by omega)]

/-- Accuracy of a fast quotient of a number that is not zero, to a few more digits than a number may have. -/
theorem Wide.divFast_full [Build] {a b : Var} {la lb l : Int} (ha : Wide a la) (hb : Wide b lb) (hl0 : 0 ≤ l) (hl1 : l ≤ 16403)
    (ha0 : value a ≠ 0)
    (hb0 : value b ≠ 0) (hA : |value a| < 10000 ^ (33001:ℤ)) (hB : |value b| < 10000 ^ (33001:ℤ)) :
    (∃ u y, divFastCommon a b l true = .ok (some u) ∧ Wide u l ∧ value u = roundHalfAway y l ∧
      |(y : ℝ) - value a / value b| ≤ 10 ^ (-l) / 10 ^ 10) ∨
    (Build.debug = true ∧ divFastCommon a b l true = .error .overflow ∧ 21 < b.ndigits ∧
      20 < fastDigits (a.weight - b.weight + 1) l a.ndigits) := by
  obtain ⟨a1, a2, -, a3⟩ := ha.bounds (by norm_num) hA
  obtain ⟨b1, b2, -, b3⟩ := hb.bounds (by norm_num) hB
  have h1 := ha.l_le
  have h2 := hb.l_le
  rcases PgNumeric.divFast_full a b l true ha.digits hb.digits ha.not_nan hb.not_nan (fun h => hb0 (hb.zero_iff.1 h)) hb.stripped.1
    ha.stripped.1 hl0 (by omega) (.inl fun h => ha0 (ha.zero_iff.1 h)) (by rw [abs_le]; omega) (by rw [abs_le]; omega) (by omega)
    with ⟨u, y, eu, hy, hu⟩ | h
  · left
    rw [if_pos rfl] at hu
    have hy' := cast_abs_le hy
    push_cast at hy'
    exact ⟨u, y, eu, ⟨hu.digits, hu.not_nan, hu.stripped, hu.dscale, by rw [hu.value]; exact roundHalfAway_hasScale _ _, hl0, hl1⟩,
      hu.value, hy'⟩
  · right; exact h

theorem Wide.divFast [Build] {a b : Var} {la lb l : Int} (ha : Wide a la) (hb : Wide b lb) (hl0 : 0 ≤ l) (hl1 : l ≤ 16403)
    (ha0 : value a ≠ 0)
    (hb0 : value b ≠ 0) (hA : |value a| < 10000 ^ (33001:ℤ)) (hB : |value b| < 10000 ^ (33001:ℤ)) (hn : b.ndigits ≤ 21) :
    ∃ u y, divFastCommon a b l true = .ok (some u) ∧ Wide u l ∧ value u = roundHalfAway y l ∧
      |(y : ℝ) - value a / value b| ≤ 10 ^ (-l) / 10 ^ 10 := by
  rcases ha.divFast_full hb hl0 hl1 ha0 hb0 hA hB with h | ⟨-, -, h3, -⟩
  exacts [h, absurd h3 (by omega)]

/-- A number that rounds to something non-zero is at least half a unit. -/
theorem round_ne_zero {x : ℚ} {s : ℤ} (h : roundHalfAway x s ≠ 0) : (10:ℝ) ^ (-s) / 2 ≤ |(x:ℝ)| := by
  have h1 := round_errR x s
  obtain ⟨n, hn⟩ := (roundHalfAway_hasScale x s).abs
  have hT := T_zpow_pos s
  have hn1 : (1:ℚ) ≤ n := by
    have : (0:ℚ) < n := by rw [← hn]; have := abs_pos.2 h; positivity
    have : 0 < n := by exact_mod_cast this
    exact_mod_cast this
  have h2 : (10:ℚ) ^ (-s) ≤ |roundHalfAway x s| := by
    rw [zpow_neg, inv_le_iff_one_le_mul₀ hT, hn]; exact hn1
  have h3 : (10:ℝ) ^ (-s) ≤ |((roundHalfAway x s : ℚ) : ℝ)| := by
    have : (((10:ℚ) ^ (-s) : ℚ) : ℝ) ≤ ((|roundHalfAway x s| : ℚ) : ℝ) := by exact_mod_cast h2
    push_cast at this
    exact this
  have h4 := abs_sub_abs_le_abs_sub ((roundHalfAway x s : ℚ) : ℝ) (x : ℝ)
  linarith

theorem PowOK.work {u : Var} {n : ℤ} (h : PowOK u n) (hd : u.dscale = 0) : Work u 0 :=
  ⟨⟨h.digits, h.not_nan, h.stripped, hd, by rw [h.value]; exact HasScale.int _ le_rfl, le_rfl, by norm_num⟩, by norm_num⟩

theorem two_powOK : PowOK two 2 :=
  ⟨by intro d hd; simp [two] at hd; subst hd; norm_num, by simp [two], by simp [Stripped, two],
    by simp [value, mag, two], by norm_num, by simp [two], by simp [two]⟩

theorem lt_big {x : ℚ} (h : |x| < 10000 ^ (10:ℤ)) : |x| < 10000 ^ (33001:ℤ) :=
  lt_trans h (B_zpow_lt_iff.2 (by norm_num))

/-- A working variable with a value below `10^12`. -/
theorem Wide.smR {v : Var} {l : Int} (h : Wide v l) (hk : |(value v : ℝ)| ≤ 10 ^ 12) : Small v := by
  refine h.sm (lt_big (lt_of_le_of_lt (b := 10 ^ 12) ?_ (by norm_num)))
  exact_mod_cast hk

theorem Work.smR {v : Var} {l : Int} (h : Work v l) (hk : |(value v : ℝ)| ≤ 10 ^ 12) : Small v := h.toWide.smR hk

theorem two_small : Small two := by constructor <;> simp [two]

end PgNumeric
