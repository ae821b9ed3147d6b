import Verif.Model.Typmod
import Verif.Proofs.Api2
import Verif.Proofs.Exists
/-!
# Type modifiers: encoding, the overflow scan, `apply_typmod`
-/
namespace PgNumeric
open Spec Var

theorem mag_head_lt_succ {d : Int} {ds : List Int} (h : Digits (d :: ds)) (w : Int) :
    (d : ℚ) * 10000 ^ w ≤ mag (d :: ds) w ∧ mag (d :: ds) w < (d + 1) * 10000 ^ w := by
  obtain ⟨_, h2⟩ := Digits.cons.1 h
  have e : w - 1 + 1 = w := by ring
  have h3 := mag_lt h2 (w - 1)
  have h4 := mag_nonneg h2 (w - 1)
  rw [e] at h3
  rw [mag_cons]
  constructor <;> linarith

/-- A leading base-10000 digit with `k` decimal digits. -/
theorem mag_decade {d : Int} {ds : List Int} (h : Digits (d :: ds)) (w : Int) (k : Nat)
    (h1 : (10:Int) ^ k ≤ d) (h2 : d + 1 ≤ 10 ^ (k + 1)) :
    (10 : ℚ) ^ (4 * w + k) ≤ mag (d :: ds) w ∧ mag (d :: ds) w < 10 ^ (4 * w + k + 1) := by
  obtain ⟨b1, b2⟩ := mag_head_lt_succ h w
  have hp := B_zpow_pos w
  have c1 : ((10:ℚ) ^ k) ≤ d := by exact_mod_cast h1
  have c2 : (d : ℚ) + 1 ≤ 10 ^ (k + 1) := by exact_mod_cast h2
  have ten : (10:ℚ) ≠ 0 := by norm_num
  have e1 : (10:ℚ) ^ (4 * w + (k:Int)) = 10 ^ k * 10000 ^ w := by
    rw [zpow_add₀ ten, B_eq_T, zpow_natCast, mul_comm]
  have e2 : (10:ℚ) ^ (4 * w + (k:Int) + 1) = 10 ^ (k + 1) * 10000 ^ w := by
    rw [zpow_add₀ ten, zpow_add₀ ten, B_eq_T, zpow_natCast, zpow_one, pow_succ]; ring
  rw [e1, e2]
  constructor
  · exact le_trans (mul_le_mul_of_nonneg_right c1 hp.le) b1
  · exact lt_of_lt_of_le b2 (mul_le_mul_of_nonneg_right c2 hp.le)

theorem T_le_iff' {a b : Int} : (10:ℚ) ^ a ≤ 10 ^ b ↔ a ≤ b := zpow_le_zpow_iff_right₀ (by norm_num)

theorem typmodScan_spec {ds : List Int} (h : Digits ds) (w m : Int) :
    typmodScan ds ((w + 1) * 4) m = true ↔ (10 : ℚ) ^ m ≤ mag ds w := by
  induction ds generalizing w with
  | nil =>
    simp only [typmodScan, mag_nil]
    have := T_zpow_pos m
    constructor
    · intro h; cases h
    · intro h; linarith
  | cons d ds ih =>
    obtain ⟨⟨h0, h1⟩, h2⟩ := Digits.cons.1 h
    unfold typmodScan
    by_cases hd : d = 0
    · subst hd
      simp only [ne_eq, not_true_eq_false, if_false, mag_cons, Int.cast_zero, zero_mul, zero_add, DEC_DIGITS]
      have := ih h2 (w - 1)
      rw [← this]
      ring_nf
    · simp only [ne_eq, hd, not_false_eq_true, if_true, decide_eq_true_eq]
      have key : ∀ k : Nat, (10:Int) ^ k ≤ d → d + 1 ≤ 10 ^ (k + 1) →
          (4 * w + k + 1 > m ↔ (10 : ℚ) ^ m ≤ mag (d :: ds) w) := by
        intro k a b
        obtain ⟨c1, c2⟩ := mag_decade h w k a b
        constructor
        · intro hg
          exact le_trans (T_le_iff'.2 (by omega)) c1
        · intro hg
          have := lt_of_le_of_lt hg c2
          rw [zpow_lt_zpow_iff_right₀ (by norm_num)] at this
          omega
      split
      · rw [← key 0 (by omega) (by norm_num; omega)]; push_cast; constructor <;> intro <;> omega
      · split
        · rw [← key 1 (by omega) (by norm_num; omega)]; push_cast; constructor <;> intro <;> omega
        · split
          · rw [← key 2 (by norm_num; omega) (by norm_num; omega)]; push_cast; constructor <;> intro <;> omega
          · rw [← key 3 (by norm_num; omega) (by norm_num; omega)]; push_cast; constructor <;> intro <;> omega

theorem typmod_flag {ds : List Int} (h : Digits ds) (w m : Int) :
    (decide ((w + 1) * DEC_DIGITS > m) && typmodScan ds ((w + 1) * DEC_DIGITS) m) = true ↔ (10 : ℚ) ^ m ≤ mag ds w := by
  simp only [DEC_DIGITS, Bool.and_eq_true, decide_eq_true_eq, typmodScan_spec h]
  constructor
  · exact And.right
  · intro hm
    refine ⟨?_, hm⟩
    have := lt_of_le_of_lt hm (mag_lt h w)
    rw [B_eq_T, zpow_lt_zpow_iff_right₀ (by norm_num)] at this
    omega

namespace Typmod

/-- The 32-bit integers. -/
abbrev I32 (x : Int) : Prop := -2147483648 ≤ x ∧ x ≤ 2147483647

theorem toInt_ofInt {x : Int} (h : I32 x) : (BitVec.ofInt 32 x).toInt = x := by
  rw [BitVec.toInt_ofInt, Int.bmod_eq_of_le] <;> simp only [I32] at h <;> omega

theorem encode_toNat {p s : Nat} (hp : p ≤ 1000) (hs : s ≤ 1000) :
    (((BitVec.ofNat 32 p <<< 16) ||| BitVec.ofNat 32 s) + 4#32).toNat = p * 65536 + s + 4 := by
  have e : (BitVec.ofNat 32 p <<< 16 ||| BitVec.ofNat 32 s) = BitVec.ofNat 32 (p * 65536 + s) := by
    apply BitVec.eq_of_toNat_eq
    simp only [BitVec.toNat_or, BitVec.toNat_shiftLeft, BitVec.toNat_ofNat]
    have h1 : p % 2 ^ 32 = p := Nat.mod_eq_of_lt (by omega)
    have h2 : s % 2 ^ 32 = s := Nat.mod_eq_of_lt (by omega)
    rw [h1, h2, Nat.shiftLeft_eq]
    have h3 : p * 2 ^ 16 % 2 ^ 32 = p * 2 ^ 16 := Nat.mod_eq_of_lt (by omega)
    rw [h3, mul_comm p, Nat.two_pow_add_eq_or_of_lt (by omega) p |>.symm]
    rw [Nat.mod_eq_of_lt (by omega)]; ring
  rw [e]
  simp only [BitVec.toNat_add, BitVec.toNat_ofNat]
  omega

theorem sub4 {t : Nat} (_ : t + 4 < 2 ^ 31) (b : BitVec 32) (hb : b.toNat = t + 4) :
    b - 4#32 = BitVec.ofNat 32 t := by
  apply BitVec.eq_of_toNat_eq
  simp only [BitVec.toNat_sub, BitVec.toNat_ofNat, hb]
  omega

theorem extract_encode [Build] {p s : Nat} (hp : p ≤ 1000) (hs : s ≤ 1000) :
    extract (((BitVec.ofNat 32 p <<< 16) ||| BitVec.ofNat 32 s) + 4#32) = .ok (BitVec.ofNat 32 p, BitVec.ofNat 32 s) := by
  have e := encode_toNat hp hs
  generalize (((BitVec.ofNat 32 p <<< 16) ||| BitVec.ofNat 32 s) + 4#32) = t at e
  have hI : t.toInt = p * 65536 + s + 4 := by
    rw [BitVec.toInt_eq_toNat_of_lt (by omega), e]; push_cast; ring
  unfold extract
  rw [i32_ok (by omega) (by omega)]
  simp only [bind_ok, pure_ok]
  rw [sub4 (t := p * 65536 + s) (by omega) t e]
  have hn : (BitVec.ofNat 32 (p * 65536 + s)).toNat = p * 65536 + s := by
    rw [BitVec.toNat_ofNat, Nat.mod_eq_of_lt (by omega)]
  congr 2
  · apply BitVec.eq_of_toNat_eq
    rw [BitVec.sshiftRight_eq_of_msb_false]
    · simp only [BitVec.toNat_and, BitVec.toNat_ushiftRight, hn, BitVec.toNat_ofNat]
      rw [Nat.shiftRight_eq_div_pow]
      have : (p * 65536 + s) / 2 ^ 16 = p := by omega
      rw [this, show (65535 % 2 ^ 32 : Nat) = 2 ^ 16 - 1 by norm_num, Nat.and_two_pow_sub_one_eq_mod]
      omega
    · rw [BitVec.msb_eq_decide]; simp only [decide_eq_false_iff_not, hn]; omega
  · apply BitVec.eq_of_toNat_eq
    simp only [BitVec.toNat_and, hn, BitVec.toNat_ofNat]
    rw [show (65535 % 2 ^ 32 : Nat) = 2 ^ 16 - 1 by norm_num, Nat.and_two_pow_sub_one_eq_mod]
    omega

theorem ofNat_of_toInt {x : BitVec 32} (h : 0 ≤ x.toInt) : x = BitVec.ofNat 32 x.toInt.toNat := by
  apply BitVec.eq_of_toNat_eq
  have h1 := BitVec.toInt_eq_toNat_cond x
  have h2 := x.isLt
  rw [BitVec.toNat_ofNat]
  split at h1 <;> omega

/-- The valid precision/scale pairs. -/
def ValidPair (p s : BitVec 32) : Prop := 1 ≤ p.toInt ∧ p.toInt ≤ 1000 ∧ 0 ≤ s.toInt ∧ s.toInt ≤ p.toInt

theorem new_valid [Build] {p s : BitVec 32} (h : ValidPair p s) :
    new p s = .ok (some (((p <<< 16) ||| s) + 4#32)) := by
  obtain ⟨h1, h2, h3, h4⟩ := h
  unfold new newUnchecked
  rw [if_neg (by simp only [NUMERIC_MAX_PRECISION]; omega), dassert_ok ⟨h1, h2⟩, dassert_ok ⟨h3, h4⟩]
  rfl

theorem new_invalid [Build] {p s : BitVec 32} (h : ¬ ValidPair p s) : new p s = .ok none := by
  unfold new
  rw [if_pos (by simp only [NUMERIC_MAX_PRECISION]; simp only [ValidPair] at h; omega)]
  rfl

theorem new_some [Build] {p s : BitVec 32} {t : Typmod} (h : new p s = .ok (some t)) :
    ValidPair p s ∧ t = ((p <<< 16) ||| s) + 4#32 := by
  by_cases hv : ValidPair p s
  · rw [new_valid hv] at h
    cases h; exact ⟨hv, rfl⟩
  · rw [new_invalid hv] at h; cases h

theorem withPrecision_eq [Build] (p : BitVec 32) : withPrecision p = new p 0#32 := by
  by_cases hv : ValidPair p 0#32
  · rw [new_valid hv]
    obtain ⟨h1, h2, _, _⟩ := hv
    unfold withPrecision withPrecisionUnchecked
    rw [if_neg (by simp only [NUMERIC_MAX_PRECISION]; omega), dassert_ok ⟨h1, h2⟩]
    simp
  · rw [new_invalid hv]
    unfold withPrecision
    rw [if_pos]; rfl
    simp only [NUMERIC_MAX_PRECISION]
    have : (0#32).toInt = 0 := by decide
    simp only [ValidPair, this] at hv
    omega

theorem new_facts [Build] {p s : BitVec 32} {t : Typmod} (h : new p s = .ok (some t)) :
    extract t = .ok (p, s) ∧ t.toInt = p.toInt * 65536 + s.toInt + 4 := by
  obtain ⟨⟨h1, h2, h3, h4⟩, rfl⟩ := new_some h
  have ep := ofNat_of_toInt (x := p) (by omega)
  have es := ofNat_of_toInt (x := s) h3
  have := extract_encode (p := p.toInt.toNat) (s := s.toInt.toNat) (by omega) (by omega)
  have e2 := encode_toNat (p := p.toInt.toNat) (s := s.toInt.toNat) (by omega) (by omega)
  rw [← ep, ← es] at this e2
  refine ⟨this, ?_⟩
  rw [BitVec.toInt_eq_toNat_of_lt (by omega), e2]
  omega

end Typmod

theorem clampScale_id {k : Int} (h0 : 0 ≤ k) (h1 : k ≤ 1000) : clampScale k = k := by
  rw [Num.clampScale_eq]; omega

theorem roundCommon_canonical [Build] {v : Var} (hv : Canonical v) (s : Int) (hs : -300000000 ≤ s ∧ s ≤ 300000000) :
    ∃ u, roundCommon v s = .ok u ∧ Digits u.digits ∧ u.sign ≠ .nan ∧ u.dscale = s ∧
      value u = roundHalfAway (value v) s ∧
      (u.weight ≤ 32767 ∨ ∃ d ds, u.digits = d :: ds ∧ d ≠ 0) ∧ -32767 ≤ u.weight ∧ u.weight ≤ 32768 ∧
      (u.digits.length : Int) ≤ 100000001 := by
  have hlo := hv.small.lo
  have hhi := hv.small.hi
  have hln := hv.small.len
  obtain ⟨u, eu, ud, un, us, uv⟩ := roundCommon_spec v s hv.digits hv.not_nan (by omega) hs
  have hsh := (roundCommon_shape v s eu).1
  have hw := roundCommon_weight v _ hv.digits hv.not_nan eu
  have h1 := hv.weight_le
  have h2 := hv.weight_ge
  refine ⟨u, eu, ud, un, us, uv, ?_, ?_, ?_, by omega⟩
  · rcases hw with h | h | ⟨h, h'⟩
    · exact .inl (by omega)
    · exact .inl (by omega)
    · exact .inr h'
  · rcases hw with h | h | ⟨h, h'⟩ <;> omega
  · rcases hw with h | h | ⟨h, h'⟩ <;> omega

theorem Num.applyTypmod_spec [Build] {a : Bin} {x : ℚ} {s : Int} (ha : Holds a x s) {p k : BitVec 32} {t : Typmod}
    (ht : Typmod.new p k = .ok (some t)) :
    ∃ o, Num.applyTypmod a t = .ok (o, decide ((10:ℚ) ^ (p.toInt - k.toInt) ≤ |roundHalfAway x k.toInt|)) ∧
      (|roundHalfAway x k.toInt| < limit → ∃ r, o = some r ∧ Holds r (roundHalfAway x k.toInt) k.toInt) ∧
      (limit ≤ |roundHalfAway x k.toInt| → o = none) := by
  obtain ⟨⟨h1, h2, h3, h4⟩, _⟩ := Typmod.new_some ht
  obtain ⟨ex, et⟩ := Typmod.new_facts ht
  obtain ⟨v, hv, rfl, -, -, -, ev⟩ := ha.exists_var
  obtain ⟨u, eu, ud, un, us, uv, uw, uw2, uw3, ul⟩ := roundCommon_canonical hv k.toInt (by omega)
  have hf := Num.finish_loose ud un us uv h3 (by omega) (roundHalfAway_hasScale _ _) uw uw2 (by omega)
  have hfl := typmod_flag ud u.weight (p.toInt - k.toInt)
  rw [← abs_value u ud, uv] at hfl
  have hb : (decide ((u.weight + 1) * DEC_DIGITS > p.toInt - k.toInt) &&
      typmodScan u.digits ((u.weight + 1) * DEC_DIGITS) (p.toInt - k.toInt)) =
      decide ((10:ℚ) ^ (p.toInt - k.toInt) ≤ |roundHalfAway (value v) k.toInt|) := by
    rw [Bool.eq_iff_iff, hfl, decide_eq_true_eq]
  have hva : Var.applyTypmod v t = .ok (u, decide ((10:ℚ) ^ (p.toInt - k.toInt) ≤ |roundHalfAway (value v) k.toInt|)) := by
    unfold Var.applyTypmod
    have hn : ¬ (Typmod.value t).toInt < 4 := by unfold Typmod.value; omega
    rw [if_neg hn]
    simp only [ex, bind_ok]
    rw [i32_ok (by omega) (by omega)]
    simp only [bind_ok, eu]
    kill_fits
    simp only [bind_ok]
    rw [i32_ok (by simp only [DEC_DIGITS]; omega) (by simp only [DEC_DIGITS]; omega)]
    simp only [bind_ok, pure_ok]
    kill_fits
    simp only [bind_ok]
    rw [hb]
  unfold Num.applyTypmod
  rw [ev]
  simp only [bind_ok, hva]
  rcases lt_or_ge |roundHalfAway (value v) k.toInt| limit with hl | hl
  · obtain ⟨r, er, hr⟩ := hf.1 hl
    refine ⟨some r, by simp only [er, bind_ok, pure_ok], fun _ => ⟨r, rfl, hr⟩, fun h => absurd hl (not_lt.2 h)⟩
  · refine ⟨none, ?_, fun h => absurd h (not_lt.2 hl), fun _ => rfl⟩
    have : (10:ℚ) ^ (p.toInt - k.toInt) ≤ |roundHalfAway (value v) k.toInt| := by
      refine le_trans ?_ hl
      unfold limit
      rw [← zpow_natCast]
      exact T_le_iff'.2 (by omega)
    simp only [hf.2 hl, bind_ok, decide_eq_true this, pure_ok]

theorem Num.applyTypmod_default [Build] {a : Bin} {x : ℚ} {s : Int} (ha : Holds a x s) :
    Num.applyTypmod a Typmod.default = .ok (some a, false) := by
  obtain ⟨v, hv, hx, hs, -, -, ev⟩ := ha.exists_var
  have hva : Var.applyTypmod v Typmod.default = .ok (v, false) := by
    unfold Var.applyTypmod
    rw [if_pos (by decide)]; rfl
  have hf := (Num.finish_loose hv.digits hv.not_nan hs hx ha.bounds.2.1 ha.bounds.2.2.1 ha.bounds.1
    (.inl hv.weight_le) (by have := hv.weight_ge; omega) (by have := hv.small.len; omega)).1 ha.bounds.2.2.2
  obtain ⟨r, er, hr⟩ := hf
  have := hr.unique ha
  subst this
  unfold Num.applyTypmod
  rw [ev]
  simp only [bind_ok, hva, er, pure_ok]

theorem Num.applyTypmod_nan_debug {e : Bool} (t : Typmod) (ht : 4 ≤ t.toInt ∨ t = Typmod.default) :
    @Num.applyTypmod ⟨true, e⟩ (@Bin.nan ⟨true, e⟩) t = .error .assert := by
  let _ : Build := ⟨true, e⟩
  have ev : Bin.asVar Bin.nan = .ok Var.nan := nan_isNaN.facts.2.2
  have hda : dassert (Var.nan.sign ≠ Sign.nan) = .error .assert := by
    unfold dassert; rfl
  show Num.applyTypmod Bin.nan t = _
  unfold Num.applyTypmod
  rw [ev]
  simp only [bind_ok]
  rcases ht with ht | rfl
  · have hva : Var.applyTypmod Var.nan t = .error .assert := by
      unfold Var.applyTypmod
      have hn : ¬ (Typmod.value t).toInt < 4 := by unfold Typmod.value; omega
      rw [if_neg hn]
      unfold Typmod.extract
      have := t.toInt_lt
      have := t.le_toInt
      rw [i32_ok (by omega) (by omega)]
      simp only [bind_ok, pure_ok]
      have k1 : ∀ x : BitVec 32, 0 ≤ (x &&& 65535#32).toInt ∧ (x &&& 65535#32).toInt ≤ 65535 := by
        intro x
        have h1 : (x &&& 65535#32).toNat ≤ 65535 := by
          rw [BitVec.toNat_and]; exact Nat.and_le_right
        rw [BitVec.toInt_eq_toNat_of_lt (by omega)]
        omega
      have a1 := k1 ((t - 4#32).sshiftRight 16)
      have a2 := k1 (t - 4#32)
      rw [i32_ok (by omega) (by omega)]
      simp only [bind_ok]
      unfold roundCommon
      rw [hda]
      rfl
    rw [hva]; rfl
  · have hva : Var.applyTypmod Var.nan Typmod.default = .ok (Var.nan, false) := by
      unfold Var.applyTypmod
      rw [if_pos (by decide)]; rfl
    rw [hva]
    simp only [bind_ok]
    unfold finish makeResult
    rw [hda]; rfl

theorem Num.applyTypmod_nan_release {e : Bool} {p k : BitVec 32} {t : Typmod}
    (ht : @Typmod.new ⟨false, e⟩ p k = .ok (some t)) :
    ∃ r, @Num.applyTypmod ⟨false, e⟩ (@Bin.nan ⟨false, e⟩) t = .ok (some r, false) ∧ @Holds ⟨false, e⟩ r 0 k.toInt := by
  let _ : Build := ⟨false, e⟩
  have ev : Bin.asVar Bin.nan = .ok Var.nan := nan_isNaN.facts.2.2
  obtain ⟨⟨h1, h2, h3, h4⟩, _⟩ := Typmod.new_some ht
  obtain ⟨ex, et⟩ := Typmod.new_facts ht
  have hrc : roundCommon Var.nan k.toInt = .ok ⟨0, k.toInt, .nan, []⟩ := by
    unfold roundCommon
    have hda : dassert (Var.nan.sign ≠ Sign.nan) = .ok () := by unfold dassert; rfl
    rw [hda]
    have c1 : ¬ ((0:Int) + 1) * DEC_DIGITS + k.toInt < 0 := by simp only [DEC_DIGITS]; omega
    simp only [bind_ok, Var.nan, pure_ok, ndigits, List.length_nil]
    kill_fits
    rw [if_neg c1, if_neg (by simp only [DEC_DIGITS]; omega)]
    rfl
  have hva : Var.applyTypmod Var.nan t = .ok (⟨0, k.toInt, .nan, []⟩, false) := by
    unfold Var.applyTypmod
    have hn : ¬ (Typmod.value t).toInt < 4 := by unfold Typmod.value; omega
    rw [if_neg hn]
    simp only [ex, bind_ok]
    rw [i32_ok (by omega) (by omega)]
    simp only [bind_ok, hrc]
    kill_fits
    simp only [bind_ok]
    rw [i32_ok (by simp only [DEC_DIGITS]; omega) (by simp only [DEC_DIGITS]; omega)]
    simp only [bind_ok]
    rw [fits_ok (by simp only [List.forall_mem_cons, List.not_mem_nil, IsEmpty.forall_iff, implies_true, and_true, DEC_DIGITS, ndigits, List.length_nil]; omega)]
    simp only [bind_ok, pure_ok, typmodScan, Bool.and_false]
  have hc : Canonical ⟨0, k.toInt, .pos, []⟩ :=
    ⟨by simp, Digits.nil, ⟨by simp, by simp, by simp⟩, by norm_num, h3, by simp only; omega, ⟨0, by simp [value]⟩⟩
  refine ⟨Bin.encode ⟨0, k.toInt, .pos, []⟩, ?_, _, hc, rfl, by simp [value], rfl⟩
  show Num.applyTypmod Bin.nan t = _
  unfold Num.applyTypmod
  rw [ev]
  simp only [bind_ok, hva]
  have hfin : finish ⟨0, k.toInt, .nan, []⟩ = .ok (some (Bin.encode ⟨0, k.toInt, .pos, []⟩)) := by
    unfold finish makeResult
    have hda : ∀ c [Decidable c], dassert c = .ok () := by intro c _; unfold dassert; rfl
    rw [hda, hda]
    simp only [bind_ok, pure_ok]
    rw [if_neg (by simp only [NUMERIC_WEIGHT_MAX, NUMERIC_WEIGHT_MIN, NUMERIC_DSCALE_MAX]; omega)]
    rw [stripM_ok (by simp) (by simp)]
    simp only [bind_ok]
    have : strip ⟨0, k.toInt, .nan, []⟩ = ⟨0, k.toInt, .pos, []⟩ := rfl
    rw [this, intoBuf_ok (by simp)]
    rfl
  simp only [hfin, bind_ok, pure_ok]

end PgNumeric
