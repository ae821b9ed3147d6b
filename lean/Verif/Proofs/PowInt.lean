import Verif.Proofs.PowEst
import Verif.Proofs.Small
import Verif.Proofs.Api
import Verif.SpecPow
/-!
# `power_int` on arbitrary numbers
-/
namespace PgNumeric
open Spec Var

/-- The underflow test of `power_int`. -/
theorem zero_test {f : ℚ} {s : Int} (hs0 : 0 ≤ s) (hs1 : s ≤ 1000) :
    ((F64.add f 1 < ((-s : Int) : ℚ) ∨ F64.add f 1 < ((-NUMERIC_MAX_DISPLAY_SCALE : Int) : ℚ)) → f + 1 < -s + 1 / 100) ∧
    (¬ (F64.add f 1 < ((-s : Int) : ℚ) ∨ F64.add f 1 < ((-NUMERIC_MAX_DISPLAY_SCALE : Int) : ℚ)) → -(s:ℚ) - 2 < f) := by
  have hadd := F64.rnd_err (f + 1)
  have hu1 := F64.u_small
  have hu0 := F64.u_pos
  generalize F64.u = U at *
  have hsq : (s:ℚ) ≤ 1000 := by exact_mod_cast hs1
  have hsq0 : (0:ℚ) ≤ s := by exact_mod_cast hs0
  have h5 : (s:ℚ) * U ≤ 1000 * (12 / 10 ^ 17) := mul_le_mul hsq hu1 hu0.le (by norm_num)
  have h6 : (1000:ℚ) * (12 / 10 ^ 17) ≤ 1 / 1000 := by norm_num
  constructor
  · intro hlow
    have h1 : F64.add f 1 < -(s:ℚ) := by
      rcases hlow with h | h
      · push_cast at h; exact h
      · push_cast at h; linarith
    unfold F64.add at h1
    have hneg : f + 1 < 0 := by
      by_contra hc
      push Not at hc
      rw [abs_of_nonneg hc, abs_le] at hadd
      have : U * (f + 1) ≤ 1 * (f + 1) := mul_le_mul_of_nonneg_right (le_trans hu1 (by norm_num)) hc
      linarith [hadd.1]
    rw [abs_of_neg hneg, abs_le] at hadd
    have h2 : (f + 1) * (1 + U) < -s := by linarith [hadd.1]
    by_contra hc
    push Not at hc
    have h4 : (-(s:ℚ) + 1 / 100) * (1 + U) ≤ (f + 1) * (1 + U) := mul_le_mul_of_nonneg_right hc (by linarith)
    nlinarith
  · intro hlow
    push Not at hlow
    have h1 : -(s:ℚ) ≤ F64.add f 1 := by have := hlow.1; push_cast at this; exact this
    unfold F64.add at h1
    by_contra hc
    push Not at hc
    rw [abs_of_neg (by linarith : f + 1 < 0), abs_le] at hadd
    have h7 : U * (-(f + 1)) ≤ 1 / 10 ^ 10 * (-(f + 1)) := mul_le_mul_of_nonneg_right (le_trans hu1 (by norm_num)) (by linarith)
    have h8 := hadd.2
    -- rnd (f+1) ≤ (f+1)(1 - U)
    have h9 : -(s:ℚ) ≤ (f + 1) * (1 - 1 / 10 ^ 10) := by linarith
    have h10 : (f + 1) * (1 - 1 / 10 ^ 10) ≤ (-(s:ℚ) - 1) * (1 - 1 / 10 ^ 10) := mul_le_mul_of_nonneg_right (by linarith) (by norm_num)
    norm_num at h9 h10
    linarith

/-- What is known of a non-zero number and its leading base-10000 digit. -/
theorem lead_facts {u : Var} (hu : Canonical u) (h0 : value u ≠ 0) :
    ∃ (d : ℕ) (ds : List Int), u.digits = (d : Int) :: ds ∧ 1 ≤ d ∧ d < 10000 ∧ leadDigit (value u) = d ∧ leadWeight (value u) = u.weight ∧
      (d:ℚ) * 10000 ^ u.weight ≤ |value u| ∧ |value u| < ((d:ℚ) + 1) * 10000 ^ u.weight := by
  have hne : u.digits ≠ [] := fun h => h0 ((stripped_zero_iff hu.digits hu.stripped).2 h)
  obtain ⟨d, ds, e⟩ := List.exists_cons_of_ne_nil hne
  have hL := Num.firstDigit_leading hu h0
  have hE := Num.firstDigit_eq hu
  have hd0 : d ≠ 0 := by have := hu.stripped.1; rw [e] at this; simpa using this
  rw [e] at hL hE
  simp only [firstDigit, if_pos hd0, Prod.mk.injEq] at hL hE
  obtain ⟨l1, l2, l3, l4⟩ := hL
  obtain ⟨n, rfl⟩ := Int.eq_ofNat_of_zero_le (by omega : 0 ≤ d)
  refine ⟨n, ds, e, by omega, by omega, hE.1.symm, hE.2.symm, by exact_mod_cast l3, by exact_mod_cast l4⟩

theorem nearPow_self {u : Var} (hu : Canonical u) {ε : ℚ} (c : ℕ) (hε : 0 ≤ ε) : NearPow (value u) ε c 1 u := by
  have h1 : u.ndigits ≤ 40000 := by
    by_cases h : u.digits = []
    · simp [ndigits, h]
    · have := stripped_len hu.digits hu.stripped h hu.scale
      have := hu.weight_le
      have := hu.dscale_le
      omega
  refine ⟨hu.digits, hu.not_nan, hu.stripped, hu.scale, hu.dscale_nonneg, by have := hu.dscale_le; omega, ?_, ?_⟩
  · omega
  · rw [pow_one, sub_self, abs_zero]
    have : (1:ℚ) ≤ (1 + ε) ^ c := one_le_pow₀ (by linarith)
    exact mul_nonneg (by linarith) (abs_nonneg _)

theorem nearPow_one {x ε : ℚ} : NearPow x ε 0 0 one := by
  have h := one_powOK
  refine ⟨h.digits, h.not_nan, h.stripped, ?_, h.dscale_nonneg, by simp [one], by simp [one, ndigits], ?_⟩
  · rw [h.value]; exact HasScale.int _ h.dscale_nonneg
  · rw [h.value]; simp

/-- The powers of a number up to the exponent are not too small if the power of its leading part is not. -/
theorem pow_low {x ld B : ℚ} (hl0 : 0 < ld) (hl : ld ≤ |x|) {K : ℕ} (hB1 : B ≤ 1) (hB : B ≤ ld ^ K) {p : ℕ} (hp : p ≤ K) :
    B ≤ |x ^ p| := by
  rw [abs_pow]
  rcases le_or_gt 1 |x| with h | h
  · exact hB1.trans (one_le_pow₀ h)
  · calc B ≤ ld ^ K := hB
      _ ≤ |x| ^ K := pow_le_pow_left₀ hl0.le hl K
      _ ≤ |x| ^ p := pow_le_pow_of_le_one (abs_nonneg _) h.le hp

/-- The loop, started as `power_int` starts it. -/
theorem powLoop_start [Build] {u : Var} (hu : Canonical u) (h0 : value u ≠ 0) {sig : ℤ} (hs1 : 8 ≤ sig) (hs2 : sig ≤ 394300)
    {k : ℕ} (hk1 : 1 ≤ k) (hk2 : k < 2 ^ 31) (hlog : Real.log k + 6 ≤ sig) (hlow : ∀ p ≤ k, (10000:ℚ) ^ (-98390:ℤ) ≤ |value u ^ p|)
    (neg : Bool) :
    (∃ v, powLoop sig 32 k neg u (if ((k:ℕ):ℤ) % 2 ≠ 0 then u else one) = .ok (some (v, neg)) ∧
      NearPow (value u) (11 * 10 ^ (-sig)) k k v ∧ v.weight ≤ 32767 ∧
      |value v - value u ^ k| ≤ 22 * (k * 10 ^ (-sig)) * |value u ^ k|) ∨
    ((1 - 1 / 10 ^ 4) * limit ≤ |value u ^ k| ∧
      powLoop sig 32 k neg u (if ((k:ℕ):ℤ) % 2 ≠ 0 then u else one) = .ok (if neg then some (zero, false) else none)) := by
  obtain ⟨r1, r2⟩ := sig_rel hk1 hlog
  have hT := T_zpow_pos (-sig)
  have hε : (0:ℚ) ≤ 11 * 10 ^ (-sig) := by positivity
  have hr : ∃ q, NearPow (value u) (11 * 10 ^ (-sig)) q q (if ((k:ℕ):ℤ) % 2 ≠ 0 then u else one) ∧ q + 2 * 1 * (k / 2) = k ∧
      (if ((k:ℕ):ℤ) % 2 ≠ 0 then u else one).weight ≤ 32767 := by
    by_cases ho : k % 2 = 1
    · rw [if_pos (by omega)]
      exact ⟨1, nearPow_self hu 1 hε, by omega, hu.weight_le⟩
    · rw [if_neg (by omega)]
      exact ⟨0, nearPow_one, by omega, by simp [one]⟩
  obtain ⟨q, hq, hqk, hqw⟩ := hr
  rcases powLoop_dec h0 hs1 hs2 rfl (r1.trans (by linarith : (1:ℚ) + 2 * k * (11 * 10 ^ (-sig)) ≤ 1 + 1 / 10 ^ 4)) hlow neg 32 k u _ 1 q (by omega) le_rfl
    (nearPow_self hu 0 hε) hq hqk hu.weight_le hqw with ⟨v, ev, hv, wv⟩ | h
  · refine .inl ⟨v, ev, hv, wv, hv.near.trans ?_⟩
    refine mul_le_mul_of_nonneg_right ?_ (abs_nonneg _)
    linarith
  · exact .inr h

/-- The estimate of the logarithm, in the form used below. -/
theorem powLog_use {lm : Libm} (hl : LibmOK lm) {d : ℕ} (h1 : 1 ≤ d) (h2 : d < 10000) (ds : List Int) {w : ℤ} (hw : |w| ≤ 32768)
    {e : ℤ} {k : ℕ} (hk : k < 2 ^ 31) (he : |e| = k) :
    |((powLog lm d ds w e : ℚ) : ℝ) - e * (Real.logb 10 d + 4 * w)| ≤ 31 / 100 ∧
    (k ≤ 10 ^ 8 → |((powLog lm d ds w e : ℚ) : ℝ) - e * (Real.logb 10 d + 4 * w)| ≤ 2 / 100) := by
  have h := powLog_err' hl h1 h2 ds hw (e := e) (by omega)
  have hek : |(e:ℝ)| = k := by rw [← Int.cast_abs, he]; norm_num
  rw [hek] at h
  constructor
  · have : (k:ℝ) ≤ 2147483648 := by exact_mod_cast hk.le
    refine h.trans ?_
    norm_num
    linarith
  · intro h3
    have : (k:ℝ) ≤ 100000000 := by exact_mod_cast h3
    refine h.trans ?_
    norm_num
    linarith

/-- `power_int` for exponents from 3 on. -/
theorem powerInt_pos [Build] {lm : Libm} (hl : LibmOK lm) {u : Var} (hu : Canonical u) (h0 : value u ≠ 0)
    {k : ℕ} (hk1 : 3 ≤ k) (hk : k < 2 ^ 31) {s : Int} (hs0 : 0 ≤ s) (hs1 : s ≤ 1000) :
    (∃ v, powerInt lm u k s = .ok (some v) ∧ Digits v.digits ∧ v.sign ≠ .nan ∧ v.dscale = s ∧ HasScale (value v) s ∧
      (v.weight ≤ 32767 ∨ ∃ d ds, v.digits = d :: ds ∧ d ≠ 0) ∧ -32767 ≤ v.weight ∧ (v.digits.length : ℤ) ≤ 1000000000 ∧
      |value v| ≤ (1 + 1 / 10 ^ 4) * |value u ^ k| + 1 ∧ (1 - 1 / 10 ^ 4) * |value u ^ k| - 1 ≤ |value v| ∧
      (|value v - value u ^ k| ≤ (1 / 2 + 22 / 10 ^ 6 * (|value u| / leadPart (value u)) ^ k) * 10 ^ (-s) ∨
        (value v = 0 ∧ leadPart (value u) ^ k ≤ 1 / 4 * 10 ^ (-s) ∧
          (k ≤ 10 ^ 8 → leadPart (value u) ^ k ≤ 1 / 9 * 10 ^ (-s))))) ∨
    ((1 - 1 / 10 ^ 4) * limit ≤ |value u ^ k| ∧ powerInt lm u k s = .ok none) := by
  obtain ⟨d, ds, hd, d1, d2, hL1, hL2, hge, hlt⟩ := lead_facts hu h0
  have hTs := T_zpow_pos (-s)
  have hlp : leadPart (value u) = (d:ℚ) * 10000 ^ u.weight := by
    unfold leadPart; rw [hL1, hL2]; norm_num
  have hl0 : 0 < leadPart (value u) := by
    rw [hlp]
    have := B_zpow_pos u.weight
    have : (0:ℚ) < d := by exact_mod_cast d1
    positivity
  rw [← hlp] at hge
  have wle := hu.weight_le
  have wge := hu.weight_ge
  obtain ⟨e1, e2⟩ := powLog_use hl d1 d2 ds (w := u.weight) (by rw [abs_le]; omega) hk (e := k) (abs_of_nonneg (by omega))
  unfold powerInt
  rw [dassert_ok hu.not_nan]
  simp only [bind_ok]
  rw [if_neg (by omega), if_neg (by omega), if_neg (by omega), if_neg (by omega)]
  simp only [hd]
  rw [fits_ok (by fits_tac), bind_ok]
  generalize hf : powLog lm d ds u.weight k = f at *
  have hXge : leadPart (value u) ^ k ≤ |value u ^ k| := by
    rw [abs_pow]; exact pow_le_pow_left₀ hl0.le hge k
  have hzp : ((d:ℚ) * 10000 ^ u.weight) ^ ((k:ℕ):ℤ) = leadPart (value u) ^ k := by rw [zpow_natCast, hlp]
  by_cases hbig : f > 393204
  · right
    rw [if_pos hbig]
    refine ⟨?_, rfl⟩
    have h1 : (393204:ℝ) < f := by exact_mod_cast hbig
    have h2 := lead_geQ (t := 393203) (e := k) d1 (w := u.weight) (by
      rw [abs_le] at e1
      push_cast at e1 ⊢
      linarith [e1.1, e1.2])
    rw [hzp] at h2
    have h3 : limit ≤ (10:ℚ) ^ (393203:ℤ) := by rw [limit_eq, B_eq_T]; exact T_zpow_le_iff.2 (by norm_num)
    have h4 := limit_big
    generalize (10:ℚ) ^ (393203:ℤ) = Z at *
    generalize limit = L at *
    generalize |value u ^ k| = X at *
    norm_num at h4 ⊢
    linarith
  · rw [if_neg hbig]
    push Not at hbig
    obtain ⟨z1, z2⟩ := zero_test (f := f) hs0 hs1
    by_cases hlow : F64.add f 1 < ((-s : Int) : ℚ) ∨ F64.add f 1 < ((-NUMERIC_MAX_DISPLAY_SCALE : Int) : ℚ)
    · left
      rw [if_pos hlow]
      simp only [zeroScaled_ok hs0 (by omega : s ≤ 16383), bind_ok, pure_ok]
      have hz : value (⟨0, s, .pos, []⟩ : Var) = 0 := by simp [value]
      have hfr : (f:ℝ) + 1 < -(s:ℝ) + 1 / 100 := by
        have := (Rat.cast_lt (K := ℝ)).2 (z1 hlow)
        push_cast at this
        exact this
      refine ⟨_, rfl, Digits.nil, by simp, rfl, by rw [hz]; exact ⟨0, by simp⟩, .inl (by simp), by simp, by simp, ?_, ?_, .inr ⟨hz, ?_, ?_⟩⟩
      · rw [hz, abs_zero]; positivity
      · rw [hz, abs_zero]
        have hx1 : |value u| ≤ 1 := by
          have hw : u.weight ≤ -1 := by
            by_contra hc
            have h1 : (0:ℝ) ≤ (k:ℝ) * (Real.logb 10 d + 4 * u.weight) := by
              have := (logb_digit d1 d2).1
              have : (0:ℝ) ≤ u.weight := by exact_mod_cast (by omega : 0 ≤ u.weight)
              positivity
            have : (0:ℝ) ≤ s := by exact_mod_cast hs0
            rw [abs_le] at e1
            push_cast at e1
            linarith [e1.1]
          refine (hlt.trans_le ?_).le
          have h1 : (10000:ℚ) ^ u.weight ≤ 10000 ^ (-1:ℤ) := B_zpow_le_iff.2 hw
          have h2 : (d:ℚ) + 1 ≤ 10000 := by exact_mod_cast (by omega : d + 1 ≤ 10000)
          calc ((d:ℚ) + 1) * 10000 ^ u.weight ≤ 10000 * 10000 ^ (-1:ℤ) := mul_le_mul h2 h1 (B_zpow_pos _).le (by norm_num)
            _ = 1 := by norm_num
        have h2 : |value u ^ k| ≤ 1 := by rw [abs_pow]; exact pow_le_one₀ (abs_nonneg _) hx1
        generalize |value u ^ k| = X at *
        norm_num
        linarith
      · have := lead_leQ (s := s) (e := k) d1 (w := u.weight) (c := 4) (m := 17) (n := 25) (by norm_num) (by norm_num) (by norm_num) (by
          rw [abs_le] at e1
          push_cast at e1 ⊢
          linarith [e1.1, e1.2])
        rw [hzp] at this
        exact_mod_cast this
      · intro hk8
        have e2 := e2 hk8
        have := lead_leQ (s := s) (e := k) d1 (w := u.weight) (c := 9) (m := 97) (n := 100) (by norm_num) (by norm_num) (by norm_num) (by
          rw [abs_le] at e2
          push_cast at e2 ⊢
          linarith [e2.1, e2.2])
        rw [hzp] at this
        exact_mod_cast this
    · rw [if_neg hlow]
      have hfl := z2 hlow
      have hflr : -(s:ℝ) - 2 < f := by
        have := (Rat.cast_lt (K := ℝ)).2 hfl
        push_cast at this
        exact this
      have hsr : (s:ℝ) ≤ 1000 := by exact_mod_cast hs1
      have hsq : (s:ℚ) ≤ 1000 := by exact_mod_cast hs1
      have hka : |((k:ℕ):ℤ)| = k := abs_of_nonneg (by omega)
      rw [hka, i32_ok (by omega) (by omega)]
      simp only [bind_ok]
      obtain ⟨sig, es, g1, g2, g3, g4⟩ := powSig_val hl (f := f) (by rw [abs_le]; constructor <;> linarith) hs0 hs1 (m := k) (by omega)
        (by omega) hfl hbig
      simp only [es, bind_ok]
      have hlow2 : (10:ℚ) ^ (-1200:ℤ) ≤ leadPart (value u) ^ k := by
        rw [← hzp]
        refine lead_geQ d1 ?_
        rw [abs_le] at e1
        push_cast at e1 ⊢
        linarith [e1.1, e1.2]
      have hB : (10000:ℚ) ^ (-300:ℤ) = 10 ^ (-1200:ℤ) := by rw [B_eq_T]; norm_num
      have hneg : (decide (((k:ℕ):ℤ) < 0)) = false := by simp
      rw [hneg]
      have hlo : ∀ p ≤ k, (10000:ℚ) ^ (-98390:ℤ) ≤ |value u ^ p| := fun p hp =>
        pow_low hl0 hge (by rw [← zpow_zero (10000:ℚ)]; exact B_zpow_le_iff.2 (by norm_num))
          (le_trans (B_zpow_le_iff.2 (by norm_num)) (hB.le.trans hlow2)) hp
      rcases powLoop_start hu h0 g1 g2 (by omega : 1 ≤ k) hk g4 hlo false with ⟨v, ev, hv, wv, hve⟩ | ⟨hlim, ev⟩
      · left
        have hcc : (1 + 11 * (10:ℚ) ^ (-sig)) ^ k ≤ 1 + 1 / 10 ^ 4 := by
          obtain ⟨r1, r2⟩ := sig_rel (by omega : 1 ≤ k) g4
          generalize (1 + 11 * (10:ℚ) ^ (-sig)) ^ k = Z at *
          generalize 2 * (k:ℚ) * (11 * 10 ^ (-sig)) = Y at *
          norm_num at r2 ⊢
          linarith
        have hw0 := hv.weight_ge hcc (l := -300) (by rw [hB]; exact hlow2.trans hXge)
        obtain ⟨r, er, rd, rn, rs, rv⟩ := roundCommon_spec v s hv.digits hv.not_nan ⟨by omega, by omega⟩ ⟨by omega, by omega⟩
        simp only [ev, bind_ok, er, pure_ok]
        obtain ⟨hb1, hb2⟩ := hv.bounds hcc
        have hre := roundHalfAway_err (value v) s
        have hs1' : (10:ℚ) ^ (-s) ≤ 1 := by rw [← zpow_zero (10:ℚ)]; exact T_zpow_le_iff.2 (by omega)
        refine ⟨r, rfl, rd, rn, rs, by rw [rv]; exact roundHalfAway_hasScale _ _, ?_, ?_,
          by have := (roundCommon_shape v s er).1; have := hv.len; simp only [ndigits] at this; omega, ?_, ?_, .inl ?_⟩
        · rcases roundCommon_weight v s hv.digits hv.not_nan er with h | h | ⟨h, h'⟩
          · left; omega
          · left; omega
          · right; exact h'
        · rcases roundCommon_weight v s hv.digits hv.not_nan er with h | h | ⟨h, h'⟩ <;> omega
        · rw [rv]
          have := abs_sub_abs_le_abs_sub (roundHalfAway (value v) s) (value v)
          linarith
        · rw [rv]
          have := abs_sub_abs_le_abs_sub (value v) (roundHalfAway (value v) s)
          rw [abs_sub_comm] at this
          linarith
        · rw [rv]
          have h1 := abs_sub_le (roundHalfAway (value v) s) (value v) (value u ^ k)
          have h2 := sig_estQ (sig := sig) (rs := s) (e := k) (by omega : 1 ≤ k) d1 (w := u.weight) (by
            rw [abs_le] at e1
            push_cast at e1 ⊢
            linarith [e1.1, e1.2])
          rw [zpow_neg (_ * _), hzp] at h2
          have hX : |value u ^ k| = (|value u| / leadPart (value u)) ^ k * leadPart (value u) ^ k := by
            rw [← mul_pow, div_mul_cancel₀ _ hl0.ne', abs_pow]
          have hP : 0 < leadPart (value u) ^ k := pow_pos hl0 k
          have hρ : 0 ≤ (|value u| / leadPart (value u)) ^ k := by have := abs_nonneg (value u); positivity
          rw [hX] at hve
          generalize leadPart (value u) ^ k = P at *
          generalize (|value u| / leadPart (value u)) ^ k = R at *
          generalize (10:ℚ) ^ (-s) = T at *
          have h3 : 22 * ((k:ℚ) * 10 ^ (-sig)) * (R * P) ≤ 22 * (1 / 10 ^ 6 * T * P⁻¹) * (R * P) :=
            mul_le_mul_of_nonneg_right (mul_le_mul_of_nonneg_left h2 (by norm_num)) (by positivity)
          have h4 : 22 * (1 / 10 ^ 6 * T * P⁻¹) * (R * P) = 22 / 10 ^ 6 * R * T := by field_simp
          linarith
      · right
        refine ⟨hlim, ?_⟩
        simp only [ev, bind_ok, pure_ok, Bool.false_eq_true, if_false]

/-- A number below one is not much larger than its leading part. -/
theorem lead_fifth {d : ℕ} (d1 : 1 ≤ d) (d2 : d < 10000) {w : ℤ} (hw : w ≤ -1) (hx : ¬ (d = 9999 ∧ w = -1)) {x : ℚ} (h0 : 0 ≤ x)
    (hlt : x < ((d:ℚ) + 1) * 10000 ^ w) : x ^ 5 ≤ ((d:ℚ) * 10000 ^ w) ^ 2 := by
  have hB := B_zpow_pos w
  have hb : (10000:ℚ) ^ w ≤ 10000 ^ (-1:ℤ) := B_zpow_le_iff.2 hw
  have hdq : (1:ℚ) ≤ d := by exact_mod_cast d1
  have hdq2 : (d:ℚ) ≤ 9999 := by exact_mod_cast (by omega : d ≤ 9999)
  have key : ((d:ℚ) + 1) ^ 5 * (10000 ^ w) ^ 3 ≤ d ^ 2 := by
    by_cases hd : d = 9999
    · have hw2 : w ≤ -2 := by
        by_contra hc
        exact hx ⟨hd, by omega⟩
      have hb2 : (10000:ℚ) ^ w ≤ 10000 ^ (-2:ℤ) := B_zpow_le_iff.2 hw2
      have h3 : ((10000:ℚ) ^ w) ^ 3 ≤ (10000 ^ (-2:ℤ)) ^ 3 := pow_le_pow_left₀ hB.le hb2 3
      generalize ((10000:ℚ) ^ w) ^ 3 = Z at *
      rw [hd]
      norm_num at h3 ⊢
      linarith
    · have h3 : ((10000:ℚ) ^ w) ^ 3 ≤ (10000 ^ (-1:ℤ)) ^ 3 := pow_le_pow_left₀ hB.le hb 3
      have hdq3 : (d:ℚ) + 1 ≤ 9999 := by exact_mod_cast (by omega : d + 1 ≤ 9999)
      have h4 : ((d:ℚ) + 1) ^ 5 ≤ d ^ 2 * 10 ^ 12 := by
        by_cases hd1 : d = 1
        · rw [hd1]; norm_num
        · have hdq4 : (2:ℚ) ≤ d := by exact_mod_cast (by omega : 2 ≤ d)
          generalize (d:ℚ) = D at *
          have q1 : (D + 1) ^ 2 ≤ 9999 ^ 2 := pow_le_pow_left₀ (by linarith) hdq3 2
          have q2 : (D + 1) ^ 2 ≤ 10002 * (D + 1) - 29997 := by nlinarith
          have q3 : (D + 1) ^ 4 ≤ 10 ^ 12 * (D - 1) := by
            calc (D + 1) ^ 4 = (D + 1) ^ 2 * (D + 1) ^ 2 := by ring
              _ ≤ 9999 ^ 2 * (10002 * (D + 1) - 29997) := mul_le_mul q1 q2 (by positivity) (by norm_num)
              _ ≤ _ := by norm_num; linarith
          calc (D + 1) ^ 5 = (D + 1) * (D + 1) ^ 4 := by ring
            _ ≤ (D + 1) * (10 ^ 12 * (D - 1)) := mul_le_mul_of_nonneg_left q3 (by linarith)
            _ ≤ _ := by nlinarith
      calc ((d:ℚ) + 1) ^ 5 * (10000 ^ w) ^ 3 ≤ (d ^ 2 * 10 ^ 12) * (10000 ^ (-1:ℤ)) ^ 3 := mul_le_mul h4 h3 (by positivity) (by positivity)
        _ = d ^ 2 := by norm_num; ring
  calc x ^ 5 ≤ (((d:ℚ) + 1) * 10000 ^ w) ^ 5 := pow_le_pow_left₀ h0 hlt.le 5
    _ = (((d:ℚ) + 1) ^ 5 * (10000 ^ w) ^ 3) * (10000 ^ w) ^ 2 := by ring
    _ ≤ d ^ 2 * (10000 ^ w) ^ 2 := mul_le_mul_of_nonneg_right key (by positivity)
    _ = _ := by ring

/-- `power_int` for exponents from -2 down. -/
theorem powerInt_negdec [Build] {lm : Libm} (hl : LibmOK lm) {u : Var} (hu : Canonical u) (h0 : value u ≠ 0)
    {k : ℕ} (hk1 : 2 ≤ k) (hk : k < 2 ^ 31) {s : Int} (hs0 : 0 ≤ s) (hs1 : s ≤ 1000) :
    (∃ v y, powerInt lm u (-k) s = .ok (some v) ∧ AddOK v s y ∧ HasScale y s ∧
      |y - (value u ^ k)⁻¹| ≤ (1 / 2 + 1 / 10 ^ 4) * 10 ^ (-s)) ∨
    (limit ≤ |(value u ^ k)⁻¹| ∧ powerInt lm u (-k) s = .ok none) ∨
    (Build.debug = true ∧ |value u ^ k| < 10 ^ (s - 52) ∧ powerInt lm u (-k) s = .error .overflow) := by
  obtain ⟨d, ds, hd, d1, d2, hL1, hL2, hge, hlt⟩ := lead_facts hu h0
  have hTs := T_zpow_pos (-s)
  obtain ⟨P, hlp⟩ : ∃ P, P = (d:ℚ) * 10000 ^ u.weight := ⟨_, rfl⟩
  have hl0 : 0 < P := by
    rw [hlp]
    have := B_zpow_pos u.weight
    have : (0:ℚ) < d := by exact_mod_cast d1
    positivity
  rw [← hlp] at hge
  have wle := hu.weight_le
  have wge := hu.weight_ge
  have hka : |(-((k:ℕ):ℤ))| = k := by rw [abs_neg]; exact abs_of_nonneg (by omega)
  obtain ⟨e1, -⟩ := powLog_use hl d1 d2 ds (w := u.weight) (by rw [abs_le]; omega) hk (e := -k) hka
  unfold powerInt
  rw [dassert_ok hu.not_nan]
  simp only [bind_ok]
  rw [if_neg (by omega), if_neg (by omega), if_neg (by omega), if_neg (by omega)]
  simp only [hd]
  rw [fits_ok (by fits_tac), bind_ok]
  generalize hf : powLog lm d ds u.weight (-k) = f at *
  have hXge : P ^ k ≤ |value u ^ k| := by
    rw [abs_pow]; exact pow_le_pow_left₀ hl0.le hge k
  have hPk : 0 < P ^ k := pow_pos hl0 k
  have hX0 : 0 < |value u ^ k| := lt_of_lt_of_le hPk hXge
  have hzp : ((d:ℚ) * 10000 ^ u.weight) ^ (-((k:ℕ):ℤ)) = (P ^ k)⁻¹ := by rw [zpow_neg, zpow_natCast, hlp]
  have hsmall : ∀ {c : ℚ}, 0 < c → c⁻¹ ≤ 1 / 4 * 10 ^ (-s) → c ≤ |value u ^ k| →
      |0 - (value u ^ k)⁻¹| ≤ (1 / 2 + 1 / 10 ^ 4) * 10 ^ (-s) := by
    intro c hc h1 h2
    rw [zero_sub, abs_neg, abs_inv]
    have h3 := inv_anti₀ hc h2
    generalize |value u ^ k|⁻¹ = Z at *
    generalize (10:ℚ) ^ (-s) = T at *
    norm_num at h1 ⊢
    linarith
  by_cases hbig : f > 393204
  · right; left
    rw [if_pos hbig]
    refine ⟨?_, rfl⟩
    have h1 : (393204:ℝ) < f := by exact_mod_cast hbig
    rw [abs_le] at e1
    push_cast at e1
    have h2 := lead_geQ (t := 393203) (e := -k) d1 (w := u.weight) (by push_cast; linarith [e1.1, e1.2])
    rw [hzp] at h2
    obtain ⟨l1, l2⟩ := logb_digit d1 d2
    have hkr : (2:ℝ) ≤ k := by exact_mod_cast hk1
    have hkr2 : (k:ℝ) ≤ 2147483648 := by exact_mod_cast hk.le
    have hneg : Real.logb 10 (d:ℝ) + 4 * u.weight < 0 := by
      by_contra hc
      push Not at hc
      have : 0 ≤ (k:ℝ) * (Real.logb 10 d + 4 * u.weight) := by positivity
      linarith [e1.1, e1.2]
    have hw1 : u.weight ≤ -1 := by
      have : ((u.weight : ℤ) : ℝ) < 0 := by linarith
      have : u.weight < 0 := by exact_mod_cast this
      omega
    have hx : ¬ (d = 9999 ∧ u.weight = -1) := by
      rintro ⟨ha, hb⟩
      have g1 : (4 - 1 / 6000 : ℝ) ≤ Real.logb 10 d := by
        rw [Real.le_logb_iff_rpow_le (by norm_num) (by rw [ha]; norm_num), ha]
        have q0 : (10000 / 9999 : ℝ) ^ 6000 ≤ 10 ^ 1 := by
          have a1 : (10000 / 9999 : ℝ) ≤ Real.exp (1 / 9999) := by
            have := Real.add_one_le_exp (1 / 9999 : ℝ)
            norm_num at this ⊢
            linarith
          calc (10000 / 9999 : ℝ) ^ 6000 ≤ Real.exp (1 / 9999) ^ 6000 := pow_le_pow_left₀ (by norm_num) a1 _
            _ = Real.exp (6000 / 9999) := by rw [← Real.exp_nat_mul]; norm_num
            _ ≤ Real.exp 1 := Real.exp_le_exp.2 (by norm_num)
            _ ≤ 10 ^ 1 := by have := Real.exp_one_lt_d9; norm_num at this ⊢; linarith
        have q := le_ten_rpow (c := 10000 / 9999) (m := 1) (n := 6000) (by norm_num) (by norm_num) q0
        have q2 : (10:ℝ) ^ (4 - 1 / 6000 : ℝ) = 10000 / 10 ^ ((1:ℝ) / 6000) := by
          rw [Real.rpow_sub (by norm_num)]
          norm_num
        rw [q2, div_le_iff₀ (by positivity)]
        push_cast at q ⊢
        linarith
      rw [hb] at e1 hneg
      push_cast at e1 hneg
      have g2 : -(k:ℝ) * (Real.logb 10 d + 4 * -1) ≤ 2147483648 * (1 / 6000) := by
        have : (k:ℝ) * (4 - Real.logb 10 d) ≤ 2147483648 * (1 / 6000) := mul_le_mul hkr2 (by linarith) (by linarith) (by norm_num)
        linarith
      linarith [e1.1, e1.2]
    have h5 := lead_fifth d1 d2 hw1 hx (abs_nonneg (value u)) hlt
    rw [← hlp] at h5
    -- `|x|^(5k) ≤ P^(2k)`
    have h6 : |value u ^ k| ^ 5 ≤ (P ^ k) ^ 2 := by
      rw [abs_pow, ← pow_mul, mul_comm, pow_mul, ← pow_mul P, mul_comm k, pow_mul]
      exact pow_le_pow_left₀ (by positivity) h5 k
    have h7 : ((10:ℚ) ^ (393203:ℤ)) ^ 2 ≤ (|value u ^ k|⁻¹) ^ 5 := by
      calc ((10:ℚ) ^ (393203:ℤ)) ^ 2 ≤ ((P ^ k)⁻¹) ^ 2 := pow_le_pow_left₀ (T_zpow_pos _).le h2 2
        _ = ((P ^ k) ^ 2)⁻¹ := by rw [inv_pow]
        _ ≤ (|value u ^ k| ^ 5)⁻¹ := inv_anti₀ (by positivity) h6
        _ = _ := by rw [inv_pow]
    have h8 : ((10:ℚ) ^ (131072:ℤ)) ^ 5 ≤ ((10:ℚ) ^ (393203:ℤ)) ^ 2 := by
      rw [← zpow_natCast, ← zpow_natCast, ← zpow_mul, ← zpow_mul]
      exact T_zpow_le_iff.2 (by norm_num)
    have h9 : (10:ℚ) ^ (131072:ℤ) ≤ |value u ^ k|⁻¹ := by
      refine (pow_le_pow_iff_left₀ (T_zpow_pos _).le (by positivity) (by norm_num : (5:ℕ) ≠ 0)).1 (h8.trans h7)
    rw [abs_inv, limit_eq, B_eq_T]
    exact le_trans (T_zpow_le_iff.2 (by norm_num)) h9
  · rw [if_neg hbig]
    push Not at hbig
    obtain ⟨z1, z2⟩ := zero_test (f := f) hs0 hs1
    by_cases hlow : F64.add f 1 < ((-s : Int) : ℚ) ∨ F64.add f 1 < ((-NUMERIC_MAX_DISPLAY_SCALE : Int) : ℚ)
    · left
      rw [if_pos hlow]
      simp only [zeroScaled_ok hs0 (by omega : s ≤ 16383), bind_ok, pure_ok]
      have hfr : (f:ℝ) + 1 < -(s:ℝ) + 1 / 100 := by
        have := (Rat.cast_lt (K := ℝ)).2 (z1 hlow)
        push_cast at this
        exact this
      refine ⟨_, 0, rfl, AddOK.zero, ⟨0, by simp⟩, hsmall hPk ?_ hXge⟩
      have := lead_leQ (s := s) (e := -k) d1 (w := u.weight) (c := 4) (m := 17) (n := 25) (by norm_num) (by norm_num) (by norm_num) (by
        rw [abs_le] at e1
        push_cast at e1 ⊢
        linarith [e1.1, e1.2])
      rw [hzp] at this
      exact_mod_cast this
    · rw [if_neg hlow]
      have hfl := z2 hlow
      have hflr : -(s:ℝ) - 2 < f := by
        have := (Rat.cast_lt (K := ℝ)).2 hfl
        push_cast at this
        exact this
      have hsr : (s:ℝ) ≤ 1000 := by exact_mod_cast hs1
      have hsq : (s:ℚ) ≤ 1000 := by exact_mod_cast hs1
      have hbr : (f:ℝ) ≤ 393204 := by exact_mod_cast hbig
      rw [hka, i32_ok (by omega) (by omega)]
      simp only [bind_ok]
      obtain ⟨sig, es, g1, g2, g3, g4⟩ := powSig_val hl (f := f) (by rw [abs_le]; constructor <;> linarith) hs0 hs1 (m := k) (by omega)
        (by omega) hfl hbig
      simp only [es, bind_ok]
      have hlow2 : (10:ℚ) ^ (-393560:ℤ) ≤ P ^ k := by
        have := lead_geQ (t := -393560) (e := k) d1 (w := u.weight) (by
          rw [abs_le] at e1
          push_cast at e1 ⊢
          linarith [e1.1, e1.2])
        rw [zpow_natCast, ← hlp] at this
        exact this
      have hB : (10000:ℚ) ^ (-98390:ℤ) = 10 ^ (-393560:ℤ) := by rw [B_eq_T]; norm_num
      have hneg : (decide (-((k:ℕ):ℤ) < 0)) = true := by simp; omega
      rw [hneg]
      have hlo : ∀ p ≤ k, (10000:ℚ) ^ (-98390:ℤ) ≤ |value u ^ p| := fun p hp =>
        pow_low hl0 hge (by rw [← zpow_zero (10000:ℚ)]; exact B_zpow_le_iff.2 (by norm_num))
          (hB.le.trans hlow2) hp
      rcases powLoop_start hu h0 g1 g2 (by omega : 1 ≤ k) hk g4 hlo true with ⟨v, ev, hv, wv, hve⟩ | ⟨hlim, ev⟩
      · simp only [ev, bind_ok]
        have hcc : (1 + 11 * (10:ℚ) ^ (-sig)) ^ k ≤ 1 + 1 / 10 ^ 4 := by
          obtain ⟨r1, r2⟩ := sig_rel (by omega : 1 ≤ k) g4
          generalize (1 + 11 * (10:ℚ) ^ (-sig)) ^ k = Z at *
          generalize 2 * (k:ℚ) * (11 * 10 ^ (-sig)) = Y at *
          norm_num at r2 ⊢
          linarith
        have hw0 := hv.weight_ge hcc (hlo k le_rfl)
        have hb1 := (hv.bounds hcc).1
        have hdiv := divFast_full one v s true one_powOK.digits hv.digits one_powOK.not_nan hv.not_nan (hv.digits_ne hcc h0)
          hv.stripped.1 one_powOK.stripped.1 hs0 (by omega) (.inr (by omega)) (by simp [one]) (by rw [abs_le]; omega) (by simp [one])
        rcases hdiv with ⟨q, x, eq, hx, hq⟩ | ⟨hdb, eq, -, hfd⟩
        · left
          simp only [eq, bind_ok, expect, pure_ok]
          refine ⟨q, roundHalfAway x s, rfl, by simpa using hq, roundHalfAway_hasScale x s, ?_⟩
          rw [one_powOK.value] at hx
          have h1 := roundHalfAway_err x s
          have h2 := sig_estQ (sig := sig) (rs := s) (e := -k) (by omega : 1 ≤ k) d1 (w := u.weight) (by
            rw [abs_le] at e1
            push_cast at e1 ⊢
            linarith [e1.1, e1.2])
          rw [neg_neg, zpow_natCast, ← hlp] at h2
          have hv0 : 0 < |value v| := by
            refine lt_of_lt_of_le ?_ hb1
            have : (0:ℚ) < 1 - 1 / 10 ^ 4 := by norm_num
            positivity
          have hvne : value v ≠ 0 := abs_pos.1 hv0
          have hXne : value u ^ k ≠ 0 := abs_pos.1 hX0
          have h3 : |((1:ℤ):ℚ) / value v - (value u ^ k)⁻¹| ≤ 5 / 10 ^ 5 * 10 ^ (-s) := by
            have e3 : ((1:ℤ):ℚ) / value v - (value u ^ k)⁻¹ = -(value v - value u ^ k) / (value v * value u ^ k) := by
              field_simp; push_cast; ring
            rw [e3, abs_div, abs_neg, abs_mul, div_le_iff₀ (by positivity)]
            generalize |value u ^ k| = X at *
            generalize |value v| = V at *
            generalize |value v - value u ^ k| = E at *
            generalize (10:ℚ) ^ (-s) = T at *
            generalize (k:ℚ) * 10 ^ (-sig) = K at *
            generalize P ^ k = Q at *
            have a1 : 22 * K * X ≤ 22 * (1 / 10 ^ 6 * T * Q) * X := mul_le_mul_of_nonneg_right (by linarith) hX0.le
            have a2 : 22 * (1 / 10 ^ 6 * T * Q) ≤ 22 * (1 / 10 ^ 6 * T * X) := by
              have := mul_le_mul_of_nonneg_left hXge hTs.le
              norm_num
              linarith
            have a3 : X ≤ 2 * V := by norm_num at hb1; linarith
            have a4 : T * X ≤ T * (2 * V) := mul_le_mul_of_nonneg_left a3 hTs.le
            have a5 : 22 * (1 / 10 ^ 6 * T * Q) * X ≤ (5 / 10 ^ 5 * T * V) * X := by
              refine mul_le_mul_of_nonneg_right (a2.trans ?_) hX0.le
              have := mul_pos hTs hv0
              norm_num
              linarith
            linarith
          have h4 := abs_sub_le (roundHalfAway x s) x ((value u ^ k)⁻¹)
          have h5 := abs_sub_le x (((1:ℤ):ℚ) / value v) ((value u ^ k)⁻¹)
          generalize (10:ℚ) ^ (-s) = T at *
          norm_num at *
          linarith
        · right; right
          simp only [eq]
          refine ⟨hdb, ?_, rfl⟩
          have hwv : 4 * v.weight ≤ s - 57 := by
            simp only [fastDigits, one, ndigits, DEC_DIGITS, DIV_GUARD_DIGITS, List.length_singleton] at hfd
            omega
          have h1 := hv.abs_lt
          rw [B_eq_T] at h1
          have h2 := h1.trans_le (T_zpow_le_iff.2 (by omega : 4 * (v.weight + 1) ≤ s - 53))
          rw [show s - 52 = (s - 53) + 1 by ring, zpow_add_one₀ (by norm_num)]
          have h3 := T_zpow_pos (s - 53)
          generalize |value u ^ k| = X at *
          generalize (10:ℚ) ^ (s - 53) = T at *
          norm_num at hb1
          linarith
      · left
        simp only [ev, bind_ok, if_true]
        have hrz := roundCommon_zero (s := s) hs0 (by omega)
        simp only [hrz, bind_ok, pure_ok]
        refine ⟨_, 0, rfl, AddOK.zero, ⟨0, by simp⟩, hsmall (c := 10 ^ (s + 1)) (T_zpow_pos _) ?_ (le_trans ?_ hlim)⟩
        · rw [← zpow_neg, neg_add, zpow_add₀ (by norm_num), mul_comm]
          exact mul_le_mul_of_nonneg_right (by norm_num) hTs.le
        · have h1 : (10:ℚ) ^ (s + 1) * 10 ≤ limit := by
            rw [← zpow_add_one₀ (by norm_num), limit_eq, B_eq_T]
            exact T_zpow_le_iff.2 (by omega)
          have := T_zpow_pos (s + 1)
          generalize limit = L at *
          norm_num
          linarith

end PgNumeric
