import Verif.Proofs.UntrustedTypmod
import Verif.Props.UntrustedRound
/-!
# C84: type modifiers applied to numbers from arbitrary bytes
-/
namespace PgNumeric.Props
open PgNumeric Spec Untrusted

/-- C84: a type modifier of precision `p` and scale `k`, applied to a number read from any bytes with digits in 0..31767, in either build and without a panic: the number is
rounded digit by digit as in C82, and the overflow that is reported is that of the places that the first digit of the result is taken to have. The result is missing, and an
overflow reported, only for a number of the largest weight. -/
theorem C84_typmod [Build] {bs : List (BitVec 8)} {a : Bin} (hl : bs.length ≤ 100000000) (h : Untrusted.deserialize bs = .ok a) (h3 : kindAt bs ≠ 3)
    (hd : ∀ d ∈ digitsAt bs, 0 ≤ d ∧ d ≤ 31767) {p k : BitVec 32} {t : Typmod} (ht : Typmod.new p k = .ok (some t)) :
    (∃ r flag, Num.applyTypmod a t = .ok (some r, flag) ∧ RoundedTo r k.toInt (roundAt bs k.toInt) ∧ (flag = true ↔ TooLong r.asBytes (p.toInt - k.toInt))) ∨
    weightAt bs = 32767 ∧ Num.applyTypmod a t = .ok (none, true) := by
  obtain ⟨⟨h1, h2, h3', h4⟩, _⟩ := Typmod.new_some ht
  obtain ⟨ex, et⟩ := Typmod.new_facts ht
  obtain ⟨p1, p2, p3, p4, p5⟩ := untrusted_operand hl h h3
  have a1 := p5.lo
  have a2 := p5.hi
  have b2 := p3.weight_le
  obtain ⟨r, er, hr, hm⟩ := roundTo15 (v := varAt bs) (s := k.toInt) hd p3.not_nan (by omega) (by omega)
  have hval := kept_value hr hm p3.not_nan
  have hq : value r = roundAt bs k.toInt := by
    rw [hval]
    unfold roundAt varAt
    by_cases hg : negAt bs <;> simp [hg]
  obtain ⟨k1, -, k3, k4, k5, k6, k7⟩ := hr
  have hva : Var.applyTypmod (varAt bs) t = .ok (r, decide ((r.weight + 1) * DEC_DIGITS > p.toInt - k.toInt) &&
      Var.typmodScan r.digits ((r.weight + 1) * DEC_DIGITS) (p.toInt - k.toInt)) := by
    unfold Var.applyTypmod
    have hn : ¬ (Typmod.value t).toInt < 4 := by unfold Typmod.value; omega
    rw [if_neg hn]
    simp only [ex, bind_ok]
    rw [i32_ok (by omega) (by omega)]
    simp only [bind_ok, er]
    kill_fits
    simp only [bind_ok]
    rw [i32_ok (by simp only [DEC_DIGITS]; omega) (by simp only [DEC_DIGITS]; omega)]
    simp only [bind_ok, pure_ok]
    kill_fits
    simp only [bind_ok]
  unfold Num.applyTypmod
  simp only [p4, bind_ok, hva]
  by_cases hw : r.weight ≤ 32767
  · left
    obtain ⟨f1, -, f3⟩ := finish_kept k1 k3 (by omega) (by omega) k5 k6 hw
    have hro := rounded_of f3
    rw [hq, k4] at hro
    refine ⟨_, _, by rw [f1]; rfl, hro, ?_⟩
    obtain ⟨-, -, -, e4, -, e6⟩ := encode_says f3
    unfold TooLong
    rw [e4, e6]
    exact scan_strip r _
  · right
    have hw2 : (varAt bs).weight = weightAt bs := rfl
    refine ⟨by omega, ?_⟩
    have hfin : Num.finish r = .ok none := by
      unfold Num.finish Var.makeResult
      rw [dassert_ok k3, bind_ok, dassert_ok (by omega), bind_ok, if_pos (by left; simp only [NUMERIC_WEIGHT_MAX]; omega)]
      rfl
    rw [hfin]; rfl

/-- C84: with proper digits in the result, the overflow is that of the amount: it has more than `m` places in front of the point exactly if it is at least `10 ^ m`. -/
theorem C84_flag_meaning [Build] {bs : List (BitVec 8)} (hd : ∀ d ∈ digitsAt bs, 0 ≤ d ∧ d < 10000) (h0 : (digitsAt bs).head? ≠ some 0) (m : ℤ) :
    TooLong bs m ↔ (10 : ℚ) ^ m ≤ |amountAt bs| := by
  have hD : Digits (digitsAt bs) := hd
  have hs := typmodScan_spec hD (weightAt bs) m
  have ha : |amountAt bs| = mag (digitsAt bs) (weightAt bs) := by
    have hnn := mag_nonneg hD (weightAt bs)
    unfold amountAt
    split
    · rw [abs_neg, abs_of_nonneg hnn]
    · exact abs_of_nonneg hnn
  rw [ha, ← hs, scan_lead]
  unfold TooLong
  cases hds : digitsAt bs with
  | nil => simp [Var.stripLead]
  | cons d ds =>
    rw [hds] at h0
    have hne : d ≠ 0 := by simpa using h0
    rw [stripLead_of_head hne]

/-- C84: a digit above 9999 passes a type modifier that it does not fit: the number 25000, stored as one digit, is accepted as numeric(4, 0). -/
theorem C84_passes (d : Bool) : ∃ a t r, @Untrusted.deserialize ⟨d, false⟩ (digitBytes1 0xa8#8 0x61#8) = .ok a ∧ @Typmod.new ⟨d, false⟩ 4#32 0#32 = .ok (some t) ∧
    @Num.applyTypmod ⟨d, false⟩ a t = .ok (some r, false) ∧ @digitsAt ⟨d, false⟩ r.asBytes = [25000] ∧ weightAt r.asBytes = 0 := by
  cases d <;> exact ⟨_, _, _, rfl, rfl, rfl, rfl, rfl⟩

/-- The hypotheses are met, with an overflow: the digits 1 and 16383 as numeric(2, 2). -/
example : ∃ a t r, @Untrusted.deserialize (dbg false) (digitBytes2 1#8 0#8 0xff#8 0x3f#8) = .ok a ∧ @Typmod.new (dbg false) 2#32 2#32 = .ok (some t) ∧
    kindAt (digitBytes2 1#8 0#8 0xff#8 0x3f#8) ≠ 3 ∧ @Num.applyTypmod (dbg false) a t = .ok (some r, true) ∧ @digitsAt (dbg false) r.asBytes = [2, 6400] :=
  ⟨_, _, _, rfl, rfl, by decide, rfl, rfl⟩

end PgNumeric.Props
