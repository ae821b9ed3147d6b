import Verif.Proofs.Power
import Verif.Proofs.RoundErr
/-!
# Integer powers of arbitrary numbers

Invariant of the repeated squaring in `power_int`: every intermediate value is a power of the base with a relative error
`(1 + ε)^c - 1`, where `c` counts multiplications with multiplicity.
-/
namespace PgNumeric
open Spec Var

/-- `v` approximates `x ^ p` with relative error `(1 + ε)^c - 1`. -/
structure NearPow (x ε : ℚ) (c p : ℕ) (v : Var) : Prop where
  digits : Digits v.digits
  not_nan : v.sign ≠ .nan
  stripped : Stripped v
  scale : HasScale (value v) v.dscale
  dscale_nonneg : 0 ≤ v.dscale
  dscale_le : v.dscale ≤ 2000000
  len : v.ndigits ≤ 99000
  near : |value v - x ^ p| ≤ ((1 + ε) ^ c - 1) * |x ^ p|

/-- Relative errors of factors compose. -/
theorem rel_mul {a b A B e f : ℚ} (ha : |a - A| ≤ (e - 1) * |A|) (hb : |b - B| ≤ (f - 1) * |B|) (he : 1 ≤ e) :
    |a * b - A * B| ≤ (e * f - 1) * |A * B| := by
  have h : a * b - A * B = (a - A) * (b - B) + A * (b - B) + B * (a - A) := by ring
  have h1 : |(a - A) * (b - B)| ≤ ((e - 1) * |A|) * ((f - 1) * |B|) := by
    rw [abs_mul]; exact mul_le_mul ha hb (abs_nonneg _) (mul_nonneg (by linarith) (abs_nonneg _))
  have h2 : |A * (b - B)| ≤ |A| * ((f - 1) * |B|) := by
    rw [abs_mul]; exact mul_le_mul_of_nonneg_left hb (abs_nonneg _)
  have h3 : |B * (a - A)| ≤ |B| * ((e - 1) * |A|) := by
    rw [abs_mul]; exact mul_le_mul_of_nonneg_left ha (abs_nonneg _)
  rw [h, abs_mul A B]
  have h4 := abs_add_le ((a - A) * (b - B) + A * (b - B)) (B * (a - A))
  have h5 := abs_add_le ((a - A) * (b - B)) (A * (b - B))
  have : (e * f - 1) * (|A| * |B|) = ((e - 1) * |A|) * ((f - 1) * |B|) + |A| * ((f - 1) * |B|) + |B| * ((e - 1) * |A|) := by ring
  linarith

/-- A further relative error. -/
theorem rel_step {c P C e ε : ℚ} (hP : |P - C| ≤ (e - 1) * |C|) (hc : |c - P| ≤ ε * |P|) (hε : 0 ≤ ε) :
    |c - C| ≤ (e * (1 + ε) - 1) * |C| := by
  have h1 := abs_sub_le c P C
  have h2 : |P| ≤ e * |C| := by
    have := abs_sub_abs_le_abs_sub P C
    linarith
  have h3 := mul_le_mul_of_nonneg_left h2 hε
  have : (e * (1 + ε) - 1) * |C| = ε * (e * |C|) + (e - 1) * |C| := by ring
  linarith

/-- `(1 + ε)^n ≤ 1 + 2nε` as long as `2nε ≤ 1`. -/
theorem pow_one_add_le {ε : ℚ} (hε : 0 ≤ ε) (n : ℕ) (h : 2 * n * ε ≤ 1) : (1 + ε) ^ n ≤ 1 + 2 * n * ε := by
  induction n with
  | zero => simp
  | succ n ih =>
    push_cast at h
    have h0 : 2 * n * ε ≤ 1 := by nlinarith
    have := ih h0
    rw [pow_succ]
    have h1 := mul_le_mul_of_nonneg_right this (by linarith : (0:ℚ) ≤ 1 + ε)
    have h2 := mul_le_mul_of_nonneg_right h0 hε
    push_cast
    nlinarith

namespace NearPow
variable {x ε : ℚ} {c p : ℕ} {v : Var}

theorem bounds (h : NearPow x ε c p v) (hε : (1 + ε) ^ c ≤ 1 + 1 / 10 ^ 4) :
    (1 - 1 / 10 ^ 4) * |x ^ p| ≤ |value v| ∧ |value v| ≤ (1 + 1 / 10 ^ 4) * |x ^ p| := by
  have h1 := h.near
  have h2 := mul_le_mul_of_nonneg_right hε (abs_nonneg (x ^ p))
  have h3 := abs_sub_abs_le_abs_sub (value v) (x ^ p)
  have h4 := abs_sub_abs_le_abs_sub (x ^ p) (value v)
  rw [abs_sub_comm] at h4
  constructor <;> linarith

theorem digits_ne (h : NearPow x ε c p v) (hε : (1 + ε) ^ c ≤ 1 + 1 / 10 ^ 4) (hx : x ≠ 0) : v.digits ≠ [] := by
  intro e
  have h0 := (stripped_zero_iff h.digits h.stripped).2 e
  have := (h.bounds hε).1
  rw [h0, abs_zero] at this
  have h1 : 0 < |x ^ p| := abs_pos.2 (pow_ne_zero _ hx)
  generalize |x ^ p| = X at *
  norm_num at this
  linarith

theorem abs_ge (h : NearPow x ε c p v) (hε : (1 + ε) ^ c ≤ 1 + 1 / 10 ^ 4) (hx : x ≠ 0) : (10000:ℚ) ^ v.weight ≤ |value v| := by
  rw [abs_value v h.digits]
  exact stripped_mag_ge h.digits h.stripped (h.digits_ne hε hx)

theorem abs_lt (h : NearPow x ε c p v) : |value v| < 10000 ^ (v.weight + 1) := by
  rw [abs_value v h.digits]
  exact mag_lt h.digits _

/-- A lower bound of the power bounds the weight. -/
theorem weight_ge (h : NearPow x ε c p v) (hε : (1 + ε) ^ c ≤ 1 + 1 / 10 ^ 4) {l : ℤ} (hl : (10000:ℚ) ^ l ≤ |x ^ p|) :
    l - 1 ≤ v.weight := by
  have h1 := (h.bounds hε).1
  have h2 := h.abs_lt
  have hB := B_zpow_pos l
  have h3 : (10000:ℚ) ^ (l - 1) < 10000 ^ (v.weight + 1) := by
    rw [zpow_sub_one₀ B_ne]
    generalize |x ^ p| = X at *
    norm_num at h1 ⊢
    linarith
  have := B_zpow_lt_iff.1 h3
  omega

/-- A weight beyond 32767 means the power is too large. -/
theorem limit_le (h : NearPow x ε c p v) (hε : (1 + ε) ^ c ≤ 1 + 1 / 10 ^ 4) (hx : x ≠ 0) (hw : 32767 < v.weight) :
    (1 - 1 / 10 ^ 4) * limit ≤ |x ^ p| := by
  have h1 := (h.bounds hε).2
  have h2 := h.abs_ge hε hx
  have h3 : limit ≤ (10000:ℚ) ^ v.weight := by rw [limit_eq]; exact B_zpow_le_iff.2 (by omega)
  have h4 := abs_nonneg (x ^ p)
  generalize limit = L at *
  generalize |x ^ p| = X at *
  norm_num at h1 ⊢
  linarith

end NearPow

/-- One multiplication of the loop. -/
theorem nearPow_mul [Build] {x ε : ℚ} {sig : ℤ} (hx : x ≠ 0) (hs1 : 8 ≤ sig) (hs2 : sig ≤ 394300)
    (hε : ε = 11 * 10 ^ (-sig)) {c1 c2 p1 p2 : ℕ} {a b : Var}
    (ha : NearPow x ε c1 p1 a) (hb : NearPow x ε c2 p2 b) (hc1 : (1 + ε) ^ c1 ≤ 1 + 1 / 10 ^ 4) (hc2 : (1 + ε) ^ c2 ≤ 1 + 1 / 10 ^ 4)
    (wa : -98400 ≤ a.weight) (wb : -98400 ≤ b.weight) (wab : a.weight + b.weight ≤ 98303) :
    ∃ s w, powScale sig a b = .ok s ∧ mulCommon a b s = .ok w ∧ NearPow x ε (c1 + c2 + 1) (p1 + p2) w ∧
      w.weight ≤ a.weight + b.weight + 2 := by
  have hε0 : 0 ≤ ε := by rw [hε]; have := T_zpow_pos (-sig); positivity
  have hna := ha.digits_ne hc1 hx
  have hnb := hb.digits_ne hc2 hx
  have d1 := ha.dscale_nonneg
  have d2 := hb.dscale_nonneg
  have d3 := ha.dscale_le
  have d4 := hb.dscale_le
  have l1 := ha.len
  have l2 := hb.len
  obtain ⟨s, hs⟩ : ∃ s, s = max (min (sig - (a.weight + b.weight) * 4) (a.dscale + b.dscale)) 0 := ⟨_, rfl⟩
  have hps : powScale sig a b = .ok s := by
    unfold powScale
    rw [fits_ok (by fits_tac), bind_ok, i32_ok (by simp only [DEC_DIGITS]; omega) (by simp only [DEC_DIGITS]; omega)]
    simp only [bind_ok]
    rw [i32_ok (by omega) (by omega)]
    simp only [bind_ok, pure_ok, DEC_DIGITS, NUMERIC_MIN_DISPLAY_SCALE, hs]
  have sma : Small a := ⟨by omega, by omega, by simp only [ndigits] at l1 l2; omega⟩
  have smb : Small b := ⟨by omega, by omega, by simp only [ndigits] at l1 l2; omega⟩
  -- the product, with its relative error
  have key : ∃ w, mulCommon a b s = .ok w ∧ Digits w.digits ∧ w.sign ≠ .nan ∧ Stripped w ∧ w.dscale = s ∧ HasScale (value w) s ∧
      |value w - value a * value b| ≤ ε * |value a * value b| := by
    by_cases hex : s = a.dscale + b.dscale
    · obtain ⟨w, ew, hw⟩ := mul_exact sma smb ha.digits hb.digits ha.stripped hb.stripped ha.not_nan hb.not_nan ha.scale hb.scale
        (by omega) (by omega) (.inr ⟨hna, hnb⟩)
      rw [← hex] at ew hw
      refine ⟨w, ew, hw.digits, hw.not_nan, hw.stripped, hw.dscale, ?_, ?_⟩
      · rw [hw.value, hex]; exact ha.scale.mul hb.scale
      · rw [hw.value, sub_self, abs_zero]; positivity
    · obtain ⟨w, ew, hw⟩ := mulCommon_spec a b sma smb s (by omega) ha.digits hb.digits ha.not_nan hb.not_nan (by omega)
        (.inr ⟨hna, hnb, by omega⟩)
      obtain ⟨y, hy, -, hye⟩ := hw.round
      refine ⟨w, ew, hw.digits, hw.not_nan, hw.stripped, hw.dscale, by rw [hy]; exact roundHalfAway_hasScale _ _, ?_⟩
      have h1 := roundHalfAway_err y s
      have hn : ((min a.digits.length b.digits.length : ℕ) : ℚ) ≤ 99000 := by
        have : min a.digits.length b.digits.length ≤ 99000 := by simp only [ndigits] at l1; omega
        exact_mod_cast this
      have hT := T_zpow_pos (-s)
      have h2 : (10:ℚ) ^ (-s) ≤ 10 ^ (-sig) * |value a * value b| := by
        have g1 := ha.abs_ge hc1 hx
        have g2 := hb.abs_ge hc2 hx
        have g3 := mul_le_mul g1 g2 (B_zpow_pos _).le (abs_nonneg _)
        rw [← zpow_add₀ B_ne, ← abs_mul, B_eq_T] at g3
        calc (10:ℚ) ^ (-s) ≤ 10 ^ (-sig + 4 * (a.weight + b.weight)) := T_zpow_le_iff.2 (by omega)
          _ = 10 ^ (-sig) * 10 ^ (4 * (a.weight + b.weight)) := by rw [zpow_add₀ (by norm_num)]
          _ ≤ _ := mul_le_mul_of_nonneg_left g3 (T_zpow_pos _).le
      have h3 := abs_sub_le (value w) y (value a * value b)
      rw [hy] at h3 ⊢
      rw [abs_sub_comm y] at h3
      have h4 : ((min a.digits.length b.digits.length : ℕ) : ℚ) * (1 / 10000) * 10 ^ (-s) ≤ 99 / 10 * 10 ^ (-s) :=
        mul_le_mul_of_nonneg_right (by linarith) hT.le
      rw [hε, mul_assoc]
      linarith
  obtain ⟨w, ew, w1, w2, w3, w4, w5, w6⟩ := key
  have hnear : |value w - x ^ (p1 + p2)| ≤ ((1 + ε) ^ (c1 + c2 + 1) - 1) * |x ^ (p1 + p2)| := by
    have g1 : (1:ℚ) ≤ (1 + ε) ^ c1 := one_le_pow₀ (by linarith)
    have := rel_step (rel_mul ha.near hb.near g1) w6 hε0
    rw [← pow_add, ← pow_add, ← pow_succ] at this
    exact this
  have hwle : w.digits ≠ [] → w.weight ≤ a.weight + b.weight + 2 := by
    intro hne
    have g1 : (10000:ℚ) ^ w.weight ≤ |value w| := by rw [abs_value w w1]; exact stripped_mag_ge w1 w3 hne
    have g2 : |value w| ≤ 2 * |value a * value b| := by
      have := abs_sub_abs_le_abs_sub (value w) (value a * value b)
      have e1 : ε ≤ 1 := by
        rw [hε]
        have : (10:ℚ) ^ (-sig) ≤ 10 ^ (-8:ℤ) := T_zpow_le_iff.2 (by omega)
        norm_num at this ⊢; linarith
      have := mul_le_mul_of_nonneg_right e1 (abs_nonneg (value a * value b))
      linarith
    have g3 : |value a * value b| < 10000 ^ (a.weight + b.weight + 2) := by
      rw [abs_mul]
      have := mul_lt_mul'' ha.abs_lt hb.abs_lt (abs_nonneg _) (abs_nonneg _)
      rw [← zpow_add₀ (by norm_num)] at this
      rwa [show a.weight + b.weight + 2 = a.weight + 1 + (b.weight + 1) by ring]
    have g4 : (10000:ℚ) ^ w.weight < 10000 ^ (a.weight + b.weight + 3) := by
      rw [show a.weight + b.weight + 3 = a.weight + b.weight + 2 + 1 by ring, zpow_add_one₀ B_ne]
      have := B_zpow_pos (a.weight + b.weight + 2)
      linarith
    have := B_zpow_lt_iff.1 g4
    omega
  have hc3 : 0 < |value w| := by
    have g1 : 0 < |value a * value b| := by
      rw [abs_mul]
      exact mul_pos (lt_of_lt_of_le (B_zpow_pos _) (ha.abs_ge hc1 hx)) (lt_of_lt_of_le (B_zpow_pos _) (hb.abs_ge hc2 hx))
    have g2 := abs_sub_abs_le_abs_sub (value a * value b) (value w)
    rw [abs_sub_comm] at g2
    have e1 : ε ≤ 1 / 2 := by
      rw [hε]
      have : (10:ℚ) ^ (-sig) ≤ 10 ^ (-8:ℤ) := T_zpow_le_iff.2 (by omega)
      norm_num at this ⊢; linarith
    have := mul_le_mul_of_nonneg_right e1 (abs_nonneg (value a * value b))
    linarith
  have hne : w.digits ≠ [] := fun e => by
    rw [(stripped_zero_iff w1 w3).2 e, abs_zero] at hc3
    exact lt_irrefl _ hc3
  have hwl := hwle hne
  have hlen := stripped_len w1 w3 hne w5
  exact ⟨s, w, hps, ew, ⟨w1, w2, w3, by rw [w4]; exact w5, by omega, by omega, by omega, hnear⟩, hwl⟩

theorem limit_big : (1:ℚ) < (1 - 1 / 10 ^ 4) * limit := by
  unfold limit
  have : (10:ℚ) ^ 1 ≤ 10 ^ (131072:ℕ) := pow_le_pow_right₀ (by norm_num) (by norm_num)
  generalize (10:ℚ) ^ (131072:ℕ) = L at *
  norm_num at this ⊢
  linarith

/-- A power beyond the limit stays beyond it when the exponent grows. -/
theorem limit_mono {x : ℚ} {p K : ℕ} (hp : p ≤ K) (h : (1 - 1 / 10 ^ 4) * limit ≤ |x ^ p|) : (1 - 1 / 10 ^ 4) * limit ≤ |x ^ K| := by
  refine h.trans ?_
  have h1 := lt_of_lt_of_le limit_big h
  rw [abs_pow] at h1 ⊢
  rw [abs_pow]
  have h2 : 1 ≤ |x| := by
    by_contra hc
    push Not at hc
    exact absurd h1 (not_lt.2 (pow_le_one₀ (abs_nonneg _) hc.le))
  exact pow_le_pow_right₀ h2 hp

/-- The loop computes the power with a relative error below `(1+ε)^K - 1`, or finds that it is too large. -/
theorem powLoop_dec [Build] {x ε : ℚ} {sig : ℤ} (hx : x ≠ 0) (hs1 : 8 ≤ sig) (hs2 : sig ≤ 394300)
    (hε : ε = 11 * 10 ^ (-sig)) {K : ℕ} (hK : (1 + ε) ^ K ≤ 1 + 1 / 10 ^ 4) (hlow : ∀ p ≤ K, (10000:ℚ) ^ (-98390:ℤ) ≤ |x ^ p|)
    (neg : Bool) (n : ℕ) :
    ∀ (m : ℕ) (base result : Var) (p q : ℕ), m < 2 ^ (n + 1) → 1 ≤ p → NearPow x ε (p - 1) p base → NearPow x ε q q result →
      q + 2 * p * (m / 2) = K → base.weight ≤ 32767 → result.weight ≤ 32767 →
      (∃ u, powLoop sig n m neg base result = .ok (some (u, neg)) ∧ NearPow x ε K K u ∧ u.weight ≤ 32767) ∨
      ((1 - 1 / 10 ^ 4) * limit ≤ |x ^ K| ∧ powLoop sig n m neg base result = .ok (if neg then some (zero, false) else none)) := by
  have hε0 : 0 ≤ ε := by rw [hε]; have := T_zpow_pos (-sig); positivity
  have hc : ∀ c ≤ K, (1 + ε) ^ c ≤ 1 + 1 / 10 ^ 4 := fun c h => (pow_le_pow_right₀ (by linarith) h).trans hK
  induction n with
  | zero =>
    intro m base result p q hm hp hb hr hq wb wr
    left
    have : m / 2 = 0 := by omega
    rw [this] at hq
    have hq' : q = K := by omega
    subst hq'
    exact ⟨result, rfl, hr, wr⟩
  | succ n ih =>
    intro m base result p q hm hp hb hr hq wb wr
    unfold powLoop
    by_cases h0 : m / 2 = 0
    · left
      rw [if_pos (by omega)]
      rw [h0] at hq
      have hq' : q = K := by omega
      subst hq'
      exact ⟨result, rfl, hr, wr⟩
    · rw [if_neg (by omega)]
      set m' := m / 2 with hm'
      have hm1 : 1 ≤ m' := by omega
      have h2p : 2 * p ≤ 2 * p * m' := Nat.le_mul_of_pos_right _ hm1
      have wb0 := hb.weight_ge (hc _ (by omega)) (hlow p (by omega))
      obtain ⟨s, base', es, eb, hb', wb'⟩ := nearPow_mul hx hs1 hs2 hε hb hb (hc _ (by omega)) (hc _ (by omega)) (by omega) (by omega)
        (by omega)
      rw [show p - 1 + (p - 1) + 1 = 2 * p - 1 by omega, show p + p = 2 * p by ring] at hb'
      have hcast : (m : Int) / 2 = (m' : ℕ) := by omega
      have hodd : ((m' : ℕ) : Int) % 2 ≠ 0 ↔ m' % 2 = 1 := by omega
      have hsplit : 2 * p * m' = 2 * p * (m' % 2) + 2 * (2 * p) * (m' / 2) := by
        conv_lhs => rw [← Nat.mod_add_div m' 2]
        ring
      have wb1 := hb'.weight_ge (hc _ (by omega)) (hlow (2 * p) (by omega))
      have wr1 := hr.weight_ge (hc _ (by omega)) (hlow q (by omega))
      have hres : ∃ result', powMul sig ((m : Int) / 2) base' result = .ok result' ∧
          NearPow x ε (q + 2 * p * (m' % 2)) (q + 2 * p * (m' % 2)) result' := by
        rw [hcast]
        unfold powMul
        by_cases ho : m' % 2 = 1
        · rw [if_pos (hodd.2 ho)]
          obtain ⟨s, r', es, er, hr', -⟩ := nearPow_mul hx hs1 hs2 hε hb' hr (hc _ (by omega)) (hc _ (by omega)) (by omega) (by omega)
            (by omega)
          refine ⟨r', by simp only [es, bind_ok, er], ?_⟩
          rw [ho, mul_one, show q + 2 * p = 2 * p + q by ring]
          rwa [show 2 * p - 1 + q + 1 = 2 * p + q by omega] at hr'
        · rw [if_neg (mt hodd.1 ho)]
          refine ⟨result, rfl, ?_⟩
          rw [show m' % 2 = 0 by omega]; simpa using hr
      obtain ⟨result', er, hr'⟩ := hres
      simp only [es, bind_ok, eb, er]
      by_cases hov : base'.weight > 32767 ∨ result'.weight > 32767
      · right
        rw [if_pos hov]
        refine ⟨?_, by cases neg <;> rfl⟩
        rcases hov with h | h
        · exact limit_mono (by omega) (hb'.limit_le (hc _ (by omega)) hx h)
        · exact limit_mono (by omega) (hr'.limit_le (hc _ (by omega)) hx h)
      · rw [if_neg hov]
        have := ih m' base' result' (2 * p) (q + 2 * p * (m' % 2)) (by omega) (by omega) hb' hr' (by omega) (by omega) (by omega)
        rw [hcast]
        exact this

end PgNumeric
