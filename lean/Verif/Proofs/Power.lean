import Verif.Model.Power
import Verif.Proofs.Factorial
import Verif.Proofs.Sqrt
import Verif.SpecLibm
/-!
# Integer powers
-/
namespace PgNumeric
open Spec Var

/-- A stripped, non-zero, integer-valued variable. -/
structure PowOK (u : Var) (n : ℤ) : Prop where
  digits : Digits u.digits
  not_nan : u.sign ≠ .nan
  stripped : Stripped u
  value : value u = n
  ne : n ≠ 0
  dscale_nonneg : 0 ≤ u.dscale
  dscale_le : u.dscale ≤ 1000000000

namespace PowOK
variable {u v : Var} {n m : ℤ}

theorem digits_ne (h : PowOK u n) : u.digits ≠ [] := by
  intro e
  have := (stripped_zero_iff h.digits h.stripped).2 e
  rw [h.value] at this
  exact h.ne (by exact_mod_cast this)

theorem len (h : PowOK u n) : u.ndigits ≤ u.weight + 1 := by
  have := stripped_len h.digits h.stripped h.digits_ne (s := 0) (by rw [h.value]; exact HasScale.int _ le_rfl)
  omega

theorem len_pos (h : PowOK u n) : 1 ≤ u.ndigits := by
  have := List.length_pos_iff.2 h.digits_ne
  simp only [ndigits]; omega

theorem weight_nonneg (h : PowOK u n) : 0 ≤ u.weight := by
  have := h.len; have := h.len_pos; omega

theorem abs_ge (h : PowOK u n) : (10000:ℚ) ^ u.weight ≤ |(n:ℚ)| := by
  rw [← h.value, abs_value u h.digits]
  exact stripped_mag_ge h.digits h.stripped h.digits_ne

theorem abs_lt (h : PowOK u n) : |(n:ℚ)| < 10000 ^ (u.weight + 1) := by
  rw [← h.value, abs_value u h.digits]
  exact mag_lt h.digits _

theorem one_le (h : PowOK u n) : (1:ℚ) ≤ |(n:ℚ)| := by
  have := Int.one_le_abs h.ne
  exact_mod_cast this

theorem weight_mul_le (hu : PowOK u n) (hv : PowOK v m) {w : Var} {k : ℤ} (hw : PowOK w k) (hk : k = n * m) :
    w.weight ≤ u.weight + v.weight + 1 := by
  have h1 := hw.abs_ge
  have h2 : |(k:ℚ)| < 10000 ^ (u.weight + v.weight + 2) := by
    rw [hk]; push_cast; rw [abs_mul]
    have := mul_lt_mul'' hu.abs_lt hv.abs_lt (abs_nonneg _) (abs_nonneg _)
    rw [← zpow_add₀ (by norm_num)] at this
    rwa [show u.weight + v.weight + 2 = u.weight + 1 + (v.weight + 1) by ring]
  have := B_zpow_lt_iff.1 (lt_of_le_of_lt h1 h2)
  omega

theorem small (h : PowOK u n) (hw : u.weight ≤ 90000000) : Small u := by
  have h1 := h.len
  have h2 := h.weight_nonneg
  simp only [ndigits] at h1
  exact ⟨by omega, by omega, by omega⟩

theorem mul [Build] (hu : PowOK u n) (hv : PowOK v m) (wu : u.weight ≤ 90000000) (wv : v.weight ≤ 90000000)
    {s : Int} (h0 : 0 ≤ s) (h1 : s ≤ 300000000) :
    ∃ w, mulCommon u v s = .ok w ∧ PowOK w (n * m) := by
  have l1 := hu.len
  have l2 := hv.len
  have hex : u.ndigits + v.ndigits ≤ u.weight + v.weight + 4 + (s + 3) / 4 := by omega
  obtain ⟨w, ew, hw⟩ := mulCommon_spec u v (hu.small wu) (hv.small wv) s h1 hu.digits hv.digits hu.not_nan hv.not_nan h0
    (.inr ⟨hu.digits_ne, hv.digits_ne, by have := hu.len_pos; have := hv.len_pos; omega⟩)
  obtain ⟨x, hx, hx2, -⟩ := hw.round
  refine ⟨w, ew, hw.digits, hw.not_nan, hw.stripped, ?_, mul_ne_zero hu.ne hv.ne, by rw [hw.dscale]; exact h0,
    by rw [hw.dscale]; omega⟩
  have : Spec.value u * Spec.value v = ((n * m : ℤ) : ℚ) := by rw [hu.value, hv.value]; push_cast; rfl
  rw [hx, hx2 hex, this, rmag_eq_self_iff (HasScale.int _ h0)]

end PowOK

theorem one_powOK : PowOK one 1 :=
  ⟨by intro d hd; simp [one] at hd; subst hd; norm_num, by simp [one], by simp [Stripped, one],
    by simp [value, mag, one], by norm_num, by simp [one], by simp [one]⟩

theorem powScale_spec [Build] {sig : Int} (hs : |sig| ≤ 100000000) {a b : Var} {n m : ℤ} (ha : PowOK a n) (hb : PowOK b m)
    (wa : a.weight ≤ 70000) (wb : b.weight ≤ 70000) :
    ∃ s, powScale sig a b = .ok s ∧ 0 ≤ s ∧ s ≤ 300000000 := by
  have := ha.weight_nonneg
  have := hb.weight_nonneg
  have := ha.dscale_nonneg
  have := hb.dscale_nonneg
  have := ha.dscale_le
  have := hb.dscale_le
  rw [abs_le] at hs
  unfold powScale
  rw [fits_ok (by simp only [DEC_DIGITS]; fits_tac), bind_ok]
  rw [i32_ok (by simp only [DEC_DIGITS]; omega) (by simp only [DEC_DIGITS]; omega)]
  simp only [bind_ok]
  rw [i32_ok (by omega) (by omega)]
  simp only [bind_ok, pure_ok]
  refine ⟨_, rfl, ?_, ?_⟩ <;> simp only [NUMERIC_MIN_DISPLAY_SCALE, DEC_DIGITS] <;> omega

theorem limit_le_of_weight {u : Var} {n : ℤ} (h : PowOK u n) (hw : u.weight > 32767) : limit ≤ |(n:ℚ)| := by
  rw [limit_eq]
  exact le_trans (B_zpow_le_iff.2 (by omega)) h.abs_ge

theorem abs_pow_ge {b : ℤ} (hb : b ≠ 0) (k : ℕ) : (1:ℚ) ≤ |(b:ℚ) ^ k| := by
  rw [abs_pow]
  exact one_le_pow₀ (by exact_mod_cast Int.one_le_abs hb)

/-- The loop computes `result * (base²)^(mask/2)` exactly, or finds that it is too large. -/
theorem powLoop_spec [Build] {sig : Int} (hs : |sig| ≤ 100000000) (neg : Bool) (k : ℕ) :
    ∀ (m : ℕ) (base result : Var) (b r : ℤ), m < 2 ^ (k + 1) → PowOK base b → PowOK result r →
      base.weight ≤ 32767 → result.weight ≤ 32767 →
      (∃ u, powLoop sig k m neg base result = .ok (some (u, neg)) ∧ PowOK u (r * (b ^ 2) ^ (m / 2)) ∧ u.weight ≤ 32767) ∨
      (limit ≤ |((r * (b ^ 2) ^ (m / 2) : ℤ) : ℚ)| ∧
        powLoop sig k m neg base result = .ok (if neg then some (zero, false) else none)) := by
  induction k with
  | zero =>
    intro m base result b r hm hb hr wb wr
    left
    have : m / 2 = 0 := by omega
    refine ⟨result, rfl, ?_, wr⟩
    rw [this]; simpa using hr
  | succ k ih =>
    intro m base result b r hm hb hr wb wr
    unfold powLoop
    by_cases h0 : m / 2 = 0
    · left
      rw [if_pos (by omega)]
      refine ⟨result, rfl, ?_, wr⟩
      rw [h0]; simpa using hr
    · rw [if_neg (by omega)]
      obtain ⟨s, es, hs0, hs1⟩ := powScale_spec hs hb hb (by omega) (by omega)
      obtain ⟨base', eb, hb'⟩ := hb.mul hb (by omega) (by omega) hs0 hs1
      have wb' := hb.weight_mul_le hb hb' rfl
      set m' := m / 2 with hm'
      have hcast : (m : Int) / 2 = (m' : ℕ) := by omega
      have hodd : ((m' : ℕ) : Int) % 2 ≠ 0 ↔ m' % 2 = 1 := by omega
      have hfin : r * (b ^ 2) ^ m' = (r * (b * b) ^ (m' % 2)) * ((b * b) ^ 2) ^ (m' / 2) := by
        conv_lhs => rw [← Nat.mod_add_div m' 2]
        rw [pow_add, pow_mul (b ^ 2), ← mul_assoc]; ring
      have hres : ∃ result', powMul sig ((m : Int) / 2) base' result = .ok result' ∧
          PowOK result' (r * (b * b) ^ (m' % 2)) ∧ result'.weight ≤ 100000 := by
        rw [hcast]
        unfold powMul
        by_cases ho : m' % 2 = 1
        · rw [if_pos (hodd.2 ho)]
          obtain ⟨s, es, hs0, hs1⟩ := powScale_spec hs hb' hr (by omega) (by omega)
          obtain ⟨r', er, hr'⟩ := hb'.mul hr (by omega) (by omega) hs0 hs1
          have := hb'.weight_mul_le hr hr' rfl
          refine ⟨r', by simp only [es, bind_ok, er], ?_, by omega⟩
          rw [ho, pow_one, mul_comm r]; exact hr'
        · rw [if_neg (mt hodd.1 ho)]
          refine ⟨result, rfl, ?_, by omega⟩
          rw [show m' % 2 = 0 by omega]; simpa using hr
      obtain ⟨result', er, hr', wr'⟩ := hres
      simp only [es, bind_ok, eb, er]
      by_cases hov : base'.weight > 32767 ∨ result'.weight > 32767
      · right
        rw [if_pos hov]
        refine ⟨?_, by cases neg <;> rfl⟩
        have hge : (1:ℚ) ≤ |(((b * b : ℤ) : ℚ) ^ 2) ^ (m' / 2)| := by
          rw [← pow_mul]; exact abs_pow_ge hb'.ne _
        rcases hov with h | h
        · have h1 := limit_le_of_weight hb' h
          rw [show r * (b ^ 2) ^ m' = r * ((b * b) ^ (m' - 1) * (b * b)) by
            rw [← pow_succ, show m' - 1 + 1 = m' by omega]; ring]
          push_cast at h1 ⊢
          rw [abs_mul, abs_mul]
          have h2 := abs_pow_ge hb'.ne (m' - 1)
          push_cast at h2
          have h3 := hr.one_le
          have h5 : (1:ℚ) ≤ |(r:ℚ)| * |((b:ℚ) * b) ^ (m' - 1)| := one_le_mul_of_one_le_of_one_le h3 h2
          rw [← mul_assoc]
          exact le_trans h1 (le_mul_of_one_le_left (abs_nonneg _) h5)
        · have h1 := limit_le_of_weight hr' h
          rw [hfin]
          push_cast at h1 hge ⊢
          rw [abs_mul]
          exact le_trans h1 (le_mul_of_one_le_right (abs_nonneg _) hge)
      · rw [if_neg hov]
        have := ih m' base' result' (b * b) (r * (b * b) ^ (m' % 2)) (by omega) hb' hr' (by omega) (by omega)
        rw [hfin, hcast]
        exact this

/-! ## The estimates -/

theorem powLog_eq (lm : Libm) (d : Int) (ds : List Int) (w e : Int) :
    powLog lm d ds w e = F64.mul e (F64.add (lm.log10 d) ((w * 4 : Int) : ℚ)) := by
  unfold powLog
  have : powEstimate 1 ds (d : ℚ) (w * DEC_DIGITS) = ((d : ℚ), w * DEC_DIGITS) := by
    cases ds <;> simp [powEstimate]
  rw [this]

theorem logb_digit {d : ℕ} (h1 : 1 ≤ d) (h2 : d < 10000) : 0 ≤ Real.logb 10 d ∧ Real.logb 10 d < 4 := by
  have hd : (1:ℝ) ≤ d := by exact_mod_cast h1
  constructor
  · exact Real.logb_nonneg (by norm_num) hd
  · rw [Real.logb_lt_iff_lt_rpow (by norm_num) (by linarith)]
    have : (d:ℝ) < 10000 := by exact_mod_cast h2
    norm_num; linarith

theorem _root_.PgNumeric.Spec.LibmOK.log10_nat {lm : Libm} (hl : LibmOK lm) {d : ℕ} (h1 : 1 ≤ d) (h2 : d < 10000) :
    |(lm.log10 d : ℝ) - Real.logb 10 d| ≤ 1 / 10 ^ 10 := by
  have a : (1:ℚ) ≤ d := by exact_mod_cast h1
  have b : (d:ℚ) ≤ 10000 := by exact_mod_cast h2.le
  have := hl.log10 d (le_trans (by norm_num) a) (le_trans b (by norm_num))
  push_cast at this
  exact this

/-- The estimate of the logarithm of the result against the value for the leading digit. -/
theorem powLog_err' {lm : Libm} (hl : LibmOK lm) {d : ℕ} (h1 : 1 ≤ d) (h2 : d < 10000) (ds : List Int) {w e : Int}
    (hw : |w| ≤ 32768) (he : |e| ≤ 2147483648) :
    |((powLog lm d ds w e : ℚ) : ℝ) - e * (Real.logb 10 d + 4 * w)| ≤ 14 / 10 ^ 11 * |(e:ℝ)| := by
  rw [powLog_eq]
  have hlog := hl.log10_nat h1 h2
  obtain ⟨hL0, hL4⟩ := logb_digit h1 h2
  rw [show lm.log10 (((d:ℕ):ℤ):ℚ) = lm.log10 (d:ℚ) by norm_num]
  generalize lm.log10 (d:ℚ) = c at *
  generalize Real.logb 10 (d:ℝ) = L at *
  set g := F64.add c ((w * 4 : Int) : ℚ) with hg
  have e1 : |g - (c + ((w * 4 : Int) : ℚ))| ≤ F64.u * |c + ((w * 4 : Int) : ℚ)| := F64.rnd_err _
  have e2 : |F64.mul e g - e * g| ≤ F64.u * |(e:ℚ) * g| := F64.rnd_err _
  generalize F64.mul e g = f at *
  have hu := F64.u_small
  have hu0 := F64.u_pos
  generalize F64.u = u at *
  have e1r : |(g:ℝ) - (c + w * 4)| ≤ u * |(c:ℝ) + w * 4| := by exact_mod_cast e1
  have e2r : |(f:ℝ) - e * g| ≤ u * |(e:ℝ) * g| := by exact_mod_cast e2
  have hur : (u:ℝ) ≤ 12 / 10 ^ 17 := by
    have : ((u:ℚ):ℝ) ≤ ((12 / 10 ^ 17 : ℚ) : ℝ) := by exact_mod_cast hu
    simpa using this
  have hu0r : (0:ℝ) < u := by exact_mod_cast hu0
  have hwr : |(w:ℝ)| ≤ 32768 := by exact_mod_cast hw
  have her : |(e:ℝ)| ≤ 2147483648 := by exact_mod_cast he
  generalize (u:ℝ) = U at *
  generalize (c:ℝ) = C at *
  generalize (w:ℝ) = W at *
  generalize (e:ℝ) = E at *
  generalize (g:ℝ) = G at *
  generalize (f:ℝ) = F at *
  clear e1 e2 hu hu0
  rw [abs_le] at hlog hwr
  have b1 : |C + W * 4| ≤ 131100 := by rw [abs_le]; constructor <;> norm_num at * <;> linarith [hlog.1, hlog.2, hwr.1, hwr.2]
  have e1' : |G - (C + W * 4)| ≤ 16 / 10 ^ 12 := by
    refine le_trans e1r ?_
    calc U * |C + W * 4| ≤ 12 / 10 ^ 17 * 131100 := mul_le_mul hur b1 (abs_nonneg _) (by norm_num)
      _ ≤ 16 / 10 ^ 12 := by norm_num
  have b2 : |G| ≤ 131101 := by
    have := abs_sub_abs_le_abs_sub G (C + W * 4)
    have h3 : (16:ℝ) / 10 ^ 12 ≤ 1 := by norm_num
    linarith
  have e2' : |F - E * G| ≤ 2 / 10 ^ 11 * |E| := by
    refine le_trans e2r ?_
    rw [abs_mul]
    calc U * (|E| * |G|) ≤ 12 / 10 ^ 17 * (|E| * 131101) := by
          refine mul_le_mul hur (mul_le_mul le_rfl b2 (abs_nonneg _) (abs_nonneg _)) (by positivity) (by norm_num)
      _ ≤ 2 / 10 ^ 11 * |E| := by have := abs_nonneg E; linarith
  have e3 : |G - (L + 4 * W)| ≤ 12 / 10 ^ 11 := by
    have : G - (L + 4 * W) = (G - (C + W * 4)) + (C - L) := by ring
    rw [this]
    refine le_trans (abs_add_le _ _) ?_
    have h5 : |C - L| ≤ 1 / 10 ^ 10 := by rw [abs_le]; exact hlog
    have : (16:ℝ) / 10 ^ 12 + 1 / 10 ^ 10 ≤ 12 / 10 ^ 11 := by norm_num
    linarith
  have : F - E * (L + 4 * W) = (F - E * G) + E * (G - (L + 4 * W)) := by ring
  rw [this]
  refine le_trans (abs_add_le _ _) ?_
  rw [abs_mul]
  have h6 : |E| * |G - (L + 4 * W)| ≤ |E| * (12 / 10 ^ 11) := mul_le_mul_of_nonneg_left e3 (abs_nonneg _)
  linarith

/-- The estimate of the logarithm of the result is off by at most one half from the value for the leading digit. -/
theorem powLog_err {lm : Libm} (hl : LibmOK lm) {d : ℕ} (h1 : 1 ≤ d) (h2 : d < 10000) (ds : List Int) {w e : Int}
    (hw : |w| ≤ 32768) (he : |e| ≤ 2147483648) :
    |((powLog lm d ds w e : ℚ) : ℝ) - e * (Real.logb 10 d + 4 * w)| ≤ 1 / 2 := by
  refine (powLog_err' hl h1 h2 ds hw he).trans ?_
  have her : |(e:ℝ)| ≤ 2147483648 := by exact_mod_cast he
  linarith

theorem toI32_bounds {x : ℚ} {B : ℤ} (hB : 0 ≤ B) (hB2 : B ≤ 2147483647) (h : |x| ≤ B) : |F64.toI32 x| ≤ B := by
  rw [abs_le] at h ⊢
  unfold F64.toI32
  have h1 : ⌊x⌋ ≤ B := by exact_mod_cast le_trans (Int.floor_le x) h.2
  have h2 : -B ≤ ⌊x⌋ := by rw [Int.le_floor]; push_cast; linarith [h.1]
  have h3 : -B ≤ ⌈x⌉ := by
    have : ((-B:ℤ):ℚ) ≤ ⌈x⌉ := by push_cast; exact le_trans h.1 (Int.le_ceil x)
    exact_mod_cast this
  have h4 : ⌈x⌉ ≤ B := by rw [Int.ceil_le]; exact h.2
  split <;> constructor <;> omega

theorem ln_small {k : ℕ} (h1 : 1 ≤ k) (h2 : k ≤ 2 ^ 31) : 0 ≤ Real.log k ∧ Real.log k ≤ 31 := by
  have hk : (1:ℝ) ≤ k := by exact_mod_cast h1
  refine ⟨Real.log_nonneg hk, ?_⟩
  have h3 : Real.log k ≤ Real.log ((2:ℝ) ^ 31) := Real.log_le_log (by linarith) (by exact_mod_cast h2)
  rw [Real.log_pow] at h3
  have := Real.log_le_sub_one_of_pos (x := 2) (by norm_num)
  push_cast at h3
  linarith

theorem powSig_spec [Build] {lm : Libm} (hl : LibmOK lm) {f : ℚ} (hf : |f| ≤ 400000) {rscale : Int} (hr0 : 0 ≤ rscale)
    (hr1 : rscale ≤ 16383) {m : ℕ} (h1 : 1 ≤ m) (h2 : m ≤ 2 ^ 31) :
    ∃ sig, powSig lm f rscale m = .ok sig ∧ |sig| ≤ 100000000 := by
  have b1 := toI32_bounds (B := 400000) (by norm_num) (by norm_num) (by exact_mod_cast hf)
  have b2 : |F64.toI32 (lm.ln m)| ≤ 32 := by
    refine toI32_bounds (by norm_num) (by norm_num) ?_
    have h := hl.ln m h1 h2
    obtain ⟨h3, h4⟩ := ln_small h1 h2
    have : |(lm.ln m : ℝ)| ≤ 32 := by
      rw [abs_le] at h ⊢
      constructor <;> norm_num at * <;> linarith [h.1, h.2]
    exact_mod_cast this
  rw [abs_le] at b1 b2
  unfold powSig
  rw [fits_ok (by rw [if_neg (show ¬ ((m : ℤ) < 0) by omega), show ((m : ℤ) : ℚ) = (m : ℚ) by norm_num]; fits_tac), bind_ok]
  rw [i32_ok (by omega) (by omega)]
  simp only [bind_ok]
  rw [if_neg (by omega)]
  rw [show ((m : ℤ) : ℚ) = (m : ℚ) by norm_num]
  rw [i32_ok (by omega) (by omega)]
  exact ⟨_, rfl, by rw [abs_le]; omega⟩

/-! ## The function on integer bases -/

theorem roundCommon_int [Build] {u : Var} {n : ℤ} (h : PowOK u n) (hw : u.weight ≤ 90000000) {s : Int} (hs : 0 ≤ s)
    (hs1 : s ≤ 300000000) : roundCommon u s = .ok { u with dscale := s } := by
  have := h.len
  have := h.weight_nonneg
  unfold roundCommon
  rw [dassert_ok h.not_nan]
  simp only [bind_ok, DEC_DIGITS]
  rw [fits_ok (by fits_tac), bind_ok]
  rw [if_neg (by omega), if_neg (by omega)]
  rfl

theorem roundCommon_zero [Build] {s : Int} (hs : 0 ≤ s) (hs1 : s ≤ 300000000) : roundCommon zero s = .ok ⟨0, s, .pos, []⟩ := by
  have h1 : zero.ndigits = 0 := rfl
  have h2 : zero.weight = 0 := rfl
  unfold roundCommon
  rw [dassert_ok (by simp [zero])]
  simp only [bind_ok, DEC_DIGITS]
  rw [fits_ok (by rw [h2]; fits_tac), bind_ok]
  rw [if_neg (by omega), if_neg (by omega)]
  rfl

theorem PowOK.addOK {u : Var} {n : ℤ} (h : PowOK u n) (s : Int) : AddOK { u with dscale := s } s n :=
  ⟨h.digits, h.not_nan, h.stripped, rfl, h.value⟩

theorem head_digit {u : Var} {n : ℤ} (h : PowOK u n) {d : Int} {ds : List Int} (e : u.digits = d :: ds) :
    ∃ d' : ℕ, d = d' ∧ 1 ≤ d' ∧ d' < 10000 ∧ (d':ℚ) * 10000 ^ u.weight ≤ |(n:ℚ)| := by
  have h0 := h.stripped.1
  rw [e] at h0
  have hd := h.digits d (by rw [e]; simp)
  have : d ≠ 0 := by simpa using h0
  refine ⟨d.toNat, by omega, by omega, by omega, ?_⟩
  rw [← h.value, abs_value u h.digits, e, mag_cons]
  have h2 : Digits ds := fun x hx => h.digits x (by rw [e]; simp [hx])
  have := mag_nonneg h2 (u.weight - 1)
  have h3 : ((d.toNat : ℕ) : ℚ) = (d : ℚ) := by
    have : ((d.toNat : ℕ) : ℤ) = d := by omega
    exact_mod_cast this
  rw [h3]; linarith

/-- A number whose decimal logarithm is at least 131072 is too large. -/
theorem limit_le_of_logb {x : ℚ} (hx : 0 < x) (h : (131072:ℝ) ≤ Real.logb 10 x) : limit ≤ x := by
  have hx' : (0:ℝ) < (x:ℝ) := by exact_mod_cast hx
  rw [Real.le_logb_iff_rpow_le (by norm_num) hx'] at h
  have e : (131072:ℝ) = ((131072:ℕ):ℝ) := by norm_num
  rw [e, Real.rpow_natCast] at h
  unfold limit
  generalize (131072:ℕ) = K at *
  exact_mod_cast h

theorem logb_pow_ge {n : ℤ} {d : ℕ} (hd : 1 ≤ d) {w : ℤ} (h : (d:ℚ) * 10000 ^ w ≤ |(n:ℚ)|) (k : ℕ) :
    (k:ℝ) * (Real.logb 10 d + 4 * w) ≤ Real.logb 10 ((|(n:ℚ) ^ k| : ℚ) : ℝ) := by
  have hd' : (0:ℝ) < d := by exact_mod_cast hd
  have hB : (0:ℝ) < (10000:ℝ) ^ w := zpow_pos (by norm_num) _
  have hr : (d:ℝ) * 10000 ^ w ≤ |(n:ℝ)| := by
    have h' : (((d:ℚ) * 10000 ^ w : ℚ) : ℝ) ≤ ((|(n:ℚ)| : ℚ) : ℝ) := Rat.cast_le.2 h
    rw [Rat.cast_abs, Rat.cast_intCast, Rat.cast_mul, Rat.cast_natCast, Rat.cast_zpow] at h'
    rw [show ((10000:ℚ):ℝ) = 10000 by norm_num] at h'
    exact h'
  have h1 : Real.logb 10 ((d:ℝ) * 10000 ^ w) = Real.logb 10 d + 4 * w := by
    rw [Real.logb_mul hd'.ne' hB.ne']
    congr 1
    have h4 : (10000:ℝ) ^ w = (10:ℝ) ^ (((4 * w : ℤ)) : ℝ) := by
      rw [Real.rpow_intCast, zpow_mul]; norm_num
    rw [h4, Real.logb_rpow (by norm_num) (by norm_num)]
    push_cast; ring
  have h2 : Real.logb 10 ((d:ℝ) * 10000 ^ w) ≤ Real.logb 10 |(n:ℝ)| :=
    Real.logb_le_logb_of_le (by norm_num) (by positivity) hr
  push_cast
  rw [abs_pow, Real.logb_pow]
  rw [h1] at h2
  exact mul_le_mul_of_nonneg_left h2 (by positivity)

/-- `power_int` of a non-zero integer and an exponent that is not negative. -/
theorem powerInt_nonneg [Build] {lm : Libm} (hl : LibmOK lm) {u : Var} {n : ℤ} (hu : PowOK u n) (hw : u.weight ≤ 32767)
    {k : ℕ} (hk : k < 2 ^ 31) {s : Int} (hs0 : 0 ≤ s) (hs1 : s ≤ 16383) :
    (∃ v, powerInt lm u k s = .ok (some v) ∧ AddOK v s ((n ^ k : ℤ) : ℚ)) ∨
    (limit ≤ |((n ^ k : ℤ) : ℚ)| ∧ powerInt lm u k s = .ok none) := by
  unfold powerInt
  rw [dassert_ok hu.not_nan]
  simp only [bind_ok]
  by_cases k0 : k = 0
  · left
    subst k0
    rw [if_pos (by norm_num)]
    refine ⟨_, rfl, ?_⟩
    have := one_powOK.addOK s
    simpa using this
  rw [if_neg (by omega)]
  by_cases k1 : k = 1
  · left
    subst k1
    rw [if_pos (by norm_num)]
    simp only [roundCommon_int hu (by omega) hs0 (by omega), bind_ok, pure_ok]
    refine ⟨_, rfl, ?_⟩
    have := hu.addOK s
    simpa using this
  rw [if_neg (by omega), if_neg (by omega)]
  by_cases k2 : k = 2
  · left
    subst k2
    rw [if_pos (by norm_num)]
    obtain ⟨w, ew, hw⟩ := mulCommon_spec u u (hu.small (by omega)) (hu.small (by omega)) s (by omega) hu.digits hu.digits hu.not_nan hu.not_nan hs0 (.inl hs1)
    obtain ⟨x, hx, hx2, -⟩ := hw.round
    have hlen := hu.len
    simp only [ew, bind_ok, pure_ok]
    refine ⟨_, rfl, hw.digits, hw.not_nan, hw.stripped, hw.dscale, ?_⟩
    have : value u * value u = ((n ^ 2 : ℤ) : ℚ) := by rw [hu.value]; push_cast; ring
    rw [hx, hx2 (by omega), this, rmag_eq_self_iff (HasScale.int _ hs0)]
  rw [if_neg (by omega)]
  cases hd : u.digits with
  | nil => exact absurd hd hu.digits_ne
  | cons d ds =>
    simp only
    obtain ⟨d', rfl, hd1, hd2, hge⟩ := head_digit hu hd
    have hw0 := hu.weight_nonneg
    rw [fits_ok (by simp only [DEC_DIGITS]; fits_tac), bind_ok]
    have herr := powLog_err hl hd1 hd2 ds (w := u.weight) (e := k) (by rw [abs_le]; omega) (by rw [abs_le]; omega)
    have hL := logb_pow_ge hd1 hge k
    have hLd := (logb_digit hd1 hd2).1
    have hpos : (0:ℚ) < |(n:ℚ) ^ k| := lt_of_lt_of_le one_pos (abs_pow_ge hu.ne k)
    generalize powLog lm d' ds u.weight k = f at *
    rw [Int.cast_natCast, abs_le] at herr
    have hf0 : -(1/2) ≤ (f:ℝ) := by
      have h1 : (0:ℝ) ≤ u.weight := by exact_mod_cast hw0
      have : 0 ≤ (k:ℝ) * (Real.logb 10 d' + 4 * u.weight) := by positivity
      linarith [herr.1]
    have hf0' : -(1/2:ℚ) ≤ f := by
      have : ((-(1/2) : ℚ) : ℝ) ≤ (f:ℝ) := by push_cast; exact hf0
      exact_mod_cast this
    by_cases hbig : f > 393204
    · right
      rw [if_pos hbig]
      refine ⟨?_, rfl⟩
      push_cast
      refine limit_le_of_logb hpos ?_
      have : (393204:ℝ) < f := by exact_mod_cast hbig
      linarith [herr.2]
    · rw [if_neg hbig]
      have hadd : 0 ≤ F64.add f 1 := by
        have := F64.rnd_err (f + 1)
        rw [abs_le] at this
        have h2 := F64.u_small
        have h3 : |f + 1| = f + 1 := abs_of_nonneg (by linarith)
        rw [h3] at this
        unfold F64.add
        have h4 : F64.u * (f + 1) ≤ 1 * (f + 1) :=
          mul_le_mul_of_nonneg_right (le_trans h2 (by norm_num)) (by linarith)
        linarith [this.1]
      have hsq : ((-s : Int) : ℚ) ≤ 0 := by push_cast; simpa using hs0
      rw [if_neg (by
        push Not
        exact ⟨le_trans hsq hadd, le_trans (by norm_num) hadd⟩)]
      have hka : |((k:ℕ):ℤ)| = k := abs_of_nonneg (by omega)
      rw [hka, i32_ok (by omega) (by omega)]
      simp only [bind_ok]
      obtain ⟨sig, es, hsig⟩ := powSig_spec hl (f := f) (by
        rw [abs_le]; push Not at hbig; constructor <;> linarith) hs0 hs1 (m := k) (by omega) (by omega)
      simp only [es, bind_ok]
      have hneg : (decide (((k:ℕ):ℤ) < 0)) = false := by simp
      rw [hneg]
      have hr : ∃ r, PowOK (if ((k:ℕ):ℤ) % 2 ≠ 0 then u else one) r ∧ r * (n ^ 2) ^ (k / 2) = n ^ k ∧
          (if ((k:ℕ):ℤ) % 2 ≠ 0 then u else one).weight ≤ 32767 := by
        by_cases ho : k % 2 = 1
        · rw [if_pos (by omega)]
          refine ⟨n, hu, ?_, hw⟩
          rw [← pow_mul, ← pow_succ']
          congr 1; omega
        · rw [if_neg (by omega)]
          refine ⟨1, one_powOK, ?_, by simp [one]⟩
          rw [one_mul, ← pow_mul]
          congr 1; omega
      obtain ⟨r, hr, hrn, hrw⟩ := hr
      have hloop := powLoop_spec hsig false 32 k u _ n r (by omega) hu hr hw hrw
      rw [hrn] at hloop
      rcases hloop with ⟨v, ev, hv, hvw⟩ | ⟨hlim, ev⟩
      · left
        simp only [ev, bind_ok, roundCommon_int hv (by omega) hs0 (by omega), pure_ok]
        exact ⟨_, rfl, hv.addOK s⟩
      · right
        refine ⟨hlim, ?_⟩
        simp only [ev, bind_ok, pure_ok, Bool.false_eq_true, if_false]

/-- A number whose decimal logarithm is at least `s + 2/5` is at least `2 * 10^s`. -/
theorem le_of_logb {x : ℚ} (hx : 0 < x) {s : ℤ} (h : (s:ℝ) + 2 / 5 ≤ Real.logb 10 x) : 2 * 10 ^ s ≤ x := by
  have hx' : (0:ℝ) < (x:ℝ) := by exact_mod_cast hx
  rw [Real.le_logb_iff_rpow_le (by norm_num) hx', Real.rpow_add (by norm_num), Real.rpow_intCast] at h
  have h2 : (2:ℝ) ≤ 10 ^ (2 / 5 : ℝ) := by
    have h5 : (2:ℝ) = ((2:ℝ) ^ (5:ℝ)) ^ (1 / 5 : ℝ) := by
      rw [← Real.rpow_mul (by norm_num)]; norm_num
    have h6 : (10:ℝ) ^ (2 / 5 : ℝ) = ((10:ℝ) ^ (2:ℝ)) ^ (1 / 5 : ℝ) := by
      rw [← Real.rpow_mul (by norm_num)]; norm_num
    rw [h6]
    refine le_trans h5.le (Real.rpow_le_rpow (by positivity) ?_ (by norm_num))
    norm_num
  have hT : (0:ℝ) < 10 ^ s := zpow_pos (by norm_num) _
  have h3 : 2 * (10:ℝ) ^ s ≤ x := by nlinarith
  have h4 : ((2 * 10 ^ s : ℚ) : ℝ) ≤ ((x:ℚ):ℝ) := by
    rw [Rat.cast_mul, Rat.cast_zpow]
    simpa using h3
  exact Rat.cast_le.1 h4

/-- `power_int` of a non-zero integer and a negative exponent below -1. -/
theorem powerInt_neg [Build] {lm : Libm} (hl : LibmOK lm) {u : Var} {n : ℤ} (hu : PowOK u n) (hw : u.weight ≤ 32767)
    {k : ℕ} (hk1 : 2 ≤ k) (hk : k < 2 ^ 31) {s : Int} (hs0 : 0 ≤ s) (hs1 : s ≤ 1000) :
    (∃ v y, powerInt lm u (-k) s = .ok (some v) ∧ AddOK v s y ∧ HasScale y s ∧
      |y - ((n:ℚ) ^ k)⁻¹| ≤ (1 / 2 + 1 / 10 ^ 9) * 10 ^ (-s)) ∨
    (Build.debug = true ∧ 57 ≤ s ∧ powerInt lm u (-k) s = .error .overflow) := by
  have hTs := T_zpow_pos (-s)
  have hzero : ∀ {x : ℚ}, 2 * 10 ^ s ≤ |x| → |0 - x⁻¹| ≤ (1 / 2 + 1 / 10 ^ 9) * 10 ^ (-s) := by
    intro x hx
    rw [zero_sub, abs_neg, abs_inv]
    have hT := T_zpow_pos s
    have h1 : |x|⁻¹ ≤ (2 * 10 ^ s)⁻¹ := inv_anti₀ (by positivity) hx
    rw [mul_inv, ← zpow_neg] at h1
    have : (0:ℚ) ≤ 1 / 10 ^ 9 * 10 ^ (-s) := by positivity
    linarith
  unfold powerInt
  rw [dassert_ok hu.not_nan]
  simp only [bind_ok]
  rw [if_neg (by omega), if_neg (by omega), if_neg (by omega), if_neg (by omega)]
  cases hd : u.digits with
  | nil => exact absurd hd hu.digits_ne
  | cons d ds =>
    simp only
    obtain ⟨d', rfl, hd1, hd2, hge⟩ := head_digit hu hd
    have hw0 := hu.weight_nonneg
    rw [fits_ok (by simp only [DEC_DIGITS]; fits_tac), bind_ok]
    have herr := powLog_err hl hd1 hd2 ds (w := u.weight) (e := -k) (by rw [abs_le]; omega) (by rw [abs_le]; omega)
    have hL := logb_pow_ge hd1 hge k
    have hLd := (logb_digit hd1 hd2).1
    have hpos : (0:ℚ) < |(n:ℚ) ^ k| := lt_of_lt_of_le one_pos (abs_pow_ge hu.ne k)
    generalize powLog lm d' ds u.weight (-k) = f at *
    rw [Int.cast_neg, Int.cast_natCast, abs_le] at herr
    have hf0 : (f:ℝ) ≤ 1/2 := by
      have h1 : (0:ℝ) ≤ u.weight := by exact_mod_cast hw0
      have : 0 ≤ (k:ℝ) * (Real.logb 10 d' + 4 * u.weight) := by positivity
      linarith [herr.2]
    have hf0' : f ≤ (1/2:ℚ) := by
      have : (f:ℝ) ≤ ((1/2 : ℚ) : ℝ) := by push_cast; exact hf0
      exact_mod_cast this
    rw [if_neg (by push Not; linarith)]
    have hadd := F64.rnd_err (f + 1)
    have hu1 := F64.u_small
    have hu0 := F64.u_pos
    generalize F64.u = U at *
    by_cases hlow : F64.add f 1 < ((-s : Int) : ℚ) ∨ F64.add f 1 < ((-NUMERIC_MAX_DISPLAY_SCALE : Int) : ℚ)
    · left
      rw [if_pos hlow]
      simp only [zeroScaled_ok hs0 (by omega : s ≤ 16383), bind_ok, pure_ok]
      refine ⟨_, 0, rfl, AddOK.zero, ⟨0, by simp⟩, hzero ?_⟩
      have hsq : (s:ℚ) ≤ 1000 := by exact_mod_cast hs1
      have hsq0 : (0:ℚ) ≤ s := by exact_mod_cast hs0
      have h1 : F64.add f 1 < -(s:ℚ) := by
        rcases hlow with h | h
        · push_cast at h; exact h
        · push_cast at h; linarith
      unfold F64.add at h1
      have hneg : f + 1 < 0 := by
        by_contra hc
        push Not at hc
        rw [abs_of_nonneg hc, abs_le] at hadd
        have : U * (f + 1) ≤ 1 * (f + 1) := mul_le_mul_of_nonneg_right (le_trans hu1 (by norm_num)) hc
        linarith [hadd.1]
      rw [abs_of_neg hneg, abs_le] at hadd
      -- (f+1)(1+U) ≤ rnd < -s
      have h2 : (f + 1) * (1 + U) < -s := by linarith [hadd.1]
      have h3 : f + 1 < -s + 1 / 100 := by
        by_contra hc
        push Not at hc
        have h4 : (-(s:ℚ) + 1 / 100) * (1 + U) ≤ (f + 1) * (1 + U) := mul_le_mul_of_nonneg_right hc (by linarith)
        have h5 : (s:ℚ) * U ≤ 1000 * (12 / 10 ^ 17) := mul_le_mul hsq hu1 hu0.le (by norm_num)
        have h6 : (1000:ℚ) * (12 / 10 ^ 17) ≤ 1 / 1000 := by norm_num
        nlinarith
      have h3r : (f:ℝ) + 1 < -(s:ℝ) + 1 / 100 := by
        have := (Rat.cast_lt (K := ℝ)).2 h3
        push_cast at this
        exact this
      refine le_of_logb hpos ?_
      linarith [herr.1]
    · rw [if_neg hlow]
      push Not at hlow
      have hka : |(-((k:ℕ):ℤ))| = k := by rw [abs_neg]; exact abs_of_nonneg (by omega)
      rw [hka, i32_ok (by omega) (by omega)]
      simp only [bind_ok]
      have hflow : -400000 ≤ f := by
        by_contra hc
        push Not at hc
        have h1 := hlow.2
        unfold F64.add at h1
        rw [abs_of_neg (by linarith : f + 1 < 0), abs_le] at hadd
        have : U * (-(f + 1)) ≤ 1 / 2 * (-(f + 1)) := mul_le_mul_of_nonneg_right (le_trans hu1 (by norm_num)) (by linarith)
        push_cast at h1
        linarith [hadd.2]
      obtain ⟨sig, es, hsig⟩ := powSig_spec hl (f := f) (by
        rw [abs_le]; constructor <;> linarith) hs0 (by omega : s ≤ 16383) (m := k) (by omega) (by omega)
      simp only [es, bind_ok]
      have hneg : (decide (-((k:ℕ):ℤ) < 0)) = true := by simp; omega
      rw [hneg]
      have hr : ∃ r, PowOK (if ((k:ℕ):ℤ) % 2 ≠ 0 then u else one) r ∧ r * (n ^ 2) ^ (k / 2) = n ^ k ∧
          (if ((k:ℕ):ℤ) % 2 ≠ 0 then u else one).weight ≤ 32767 := by
        by_cases ho : k % 2 = 1
        · rw [if_pos (by omega)]
          refine ⟨n, hu, ?_, hw⟩
          rw [← pow_mul, ← pow_succ']
          congr 1; omega
        · rw [if_neg (by omega)]
          refine ⟨1, one_powOK, ?_, by simp [one]⟩
          rw [one_mul, ← pow_mul]
          congr 1; omega
      obtain ⟨r, hr, hrn, hrw⟩ := hr
      have hloop := powLoop_spec hsig true 32 k u _ n r (by omega) hu hr hw hrw
      rw [hrn] at hloop
      rcases hloop with ⟨v, ev, hv, hvw⟩ | ⟨hlim, ev⟩
      · simp only [ev, bind_ok]
        have hv0 := hv.weight_nonneg
        have hdiv := divFast_full one v s true one_powOK.digits hv.digits one_powOK.not_nan hv.not_nan hv.digits_ne
          hv.stripped.1 one_powOK.stripped.1 hs0 (by omega) (.inr (by omega)) (by simp [one]) (by rw [abs_le]; omega) (by simp [one])
        rcases hdiv with ⟨q, x, eq, hx, hq⟩ | ⟨hdb, eq, -, hfd⟩
        · left
          simp only [eq, bind_ok, expect, pure_ok]
          refine ⟨q, roundHalfAway x s, rfl, by simpa using hq, roundHalfAway_hasScale x s, ?_⟩
          rw [one_powOK.value, hv.value] at hx
          have h1 := roundHalfAway_err x s
          have h2 : roundHalfAway x s - ((n:ℚ) ^ k)⁻¹ = (roundHalfAway x s - x) + (x - (((1:ℤ):ℚ) / ((n ^ k : ℤ) : ℚ))) := by
            push_cast; ring
          rw [h2]
          refine le_trans (abs_add_le _ _) ?_
          have h3 : (10:ℚ) ^ (-s) / 10 ^ 10 ≤ 1 / 10 ^ 9 * 10 ^ (-s) := by
            rw [div_eq_mul_inv, mul_comm]
            exact mul_le_mul_of_nonneg_right (by norm_num) hTs.le
          linarith
        · right
          simp only [eq]
          refine ⟨hdb, ?_, rfl⟩
          have := hv.weight_nonneg
          simp only [fastDigits, one, ndigits, DEC_DIGITS, DIV_GUARD_DIGITS, List.length_singleton] at hfd
          omega
      · left
        simp only [ev, bind_ok, if_true]
        have hrz := roundCommon_zero (s := s) hs0 (by omega)
        simp only [hrz, bind_ok, pure_ok]
        refine ⟨_, 0, rfl, AddOK.zero, ⟨0, by simp⟩, hzero ?_⟩
        push_cast at hlim
        refine le_trans ?_ hlim
        rw [limit_eq, B_eq_T]
        calc (2:ℚ) * 10 ^ s ≤ 10 ^ (1:ℤ) * 10 ^ s := mul_le_mul_of_nonneg_right (by norm_num) (T_zpow_pos s).le
          _ = 10 ^ (1 + s) := by rw [← zpow_add₀ (by norm_num)]
          _ ≤ _ := T_zpow_le_iff.2 (by omega)

end PgNumeric
