import Verif.Proofs.UntrustedInt
import Verif.Props.UntrustedAdd
/-!
# C81: converting numbers from arbitrary bytes to integers
-/
namespace PgNumeric.Props
open PgNumeric Spec Untrusted Convert

theorem integer_var [Build] (bs : List (BitVec 8)) : frontSigned (varAt bs) = integerAt bs := by
  have h1 : front (digitsAt bs) (weightAt bs) = if weightAt bs < -1 then 0 else
      ((List.range (weightAt bs + 1).toNat).map fun i => (digitsAt bs).getD i 0 * 10000 ^ ((weightAt bs + 1).toNat - 1 - i)).sum +
        if 5000 ≤ (digitsAt bs).getD (weightAt bs + 1).toNat 0 then 1 else 0 := by
    unfold front
    rw [pre_sum, List.getD_eq_getElem?_getD]
  unfold frontSigned integerAt varAt
  simp only [← h1]
  by_cases hg : negAt bs <;> simp [hg]

/-- C81: a number read from any bytes without a negative digit converts to each integer type without a panic, in either build: to the integer that the bytes say, or
to the overflow error if the type does not have it. -/
theorem C81_convert [Build] {ty : IntTy} (ht : ty ∈ types) {bs : List (BitVec 8)} {a : Bin} (hn : bs.length ≤ 100000000)
    (h : Untrusted.deserialize bs = .ok a) (h3 : kindAt bs ≠ 3) (hd : ∀ d ∈ digitsAt bs, 0 ≤ d) :
    toInt ty a = .ok (if ty.InRange (integerAt bs) then .ok (integerAt bs) else .error .overflow) := by
  obtain ⟨-, -, p3, p4, p5⟩ := untrusted_operand hn h h3
  rw [← integer_var]
  refine toInt15 ht p4 (fun d hm => ⟨hd d hm, ?_⟩) p3.not_nan p5
  simp only [varAt, digitsAt, List.mem_map] at hm
  obtain ⟨i, -, rfl⟩ := hm
  unfold signed16
  split
  · omega
  · have h1 : wordAt bs (digitsFrom bs + 2 * i) < 65536 := by unfold wordAt byteAt; omega
    omega

/-- C81: NaN converts to no integer. -/
theorem C81_nan [Build] (ty : IntTy) {bs : List (BitVec 8)} {a : Bin} (hn : bs.length < 4294967288) (h : Untrusted.deserialize bs = .ok a) (h3 : kindAt bs = 3) :
    toInt ty a = .ok (.error .invalid) := by
  obtain ⟨hc, hd⟩ := untrusted_source hn h
  rw [untrusted_covered hc hd, if_pos h3] at h
  obtain rfl : Bin.nan = a := by simpa using h
  exact toInt_nan ty nan_isNaN

/-- C81: with proper digits that integer is the amount rounded to the nearest integer, ties away from zero. -/
theorem C81_proper [Build] {bs : List (BitVec 8)} {a : Bin} (hn : bs.length ≤ 100000000) (h : Untrusted.deserialize bs = .ok a) (h3 : kindAt bs ≠ 3)
    (hd : ∀ d ∈ digitsAt bs, 0 ≤ d ∧ d < 10000) : roundHalfAway (amountAt bs) 0 = integerAt bs := by
  obtain ⟨-, -, p3, -, p5⟩ := untrusted_operand hn h h3
  have a1 := p5.lo
  have a2 := p5.hi
  obtain ⟨r, er, -, -, -, rv⟩ := roundCommon_spec (varAt bs) 0 hd p3.not_nan (by omega) (by norm_num)
  obtain ⟨r', er', -, rs, -, rm⟩ := round15 (v := varAt bs) (fun d hm => ⟨(hd d hm).1, by have := (hd d hm).2; omega⟩) p3.not_nan (by omega)
  rw [er] at er'
  obtain rfl : r = r' := by simpa using er'
  rw [amount_var] at rv
  rw [← rv, ← integer_var]
  unfold frontSigned value
  rcases rs with h0 | h0
  · rw [h0] at rm ⊢
    simp only [mag] at rm
    have : front (varAt bs).digits (varAt bs).weight = 0 := by exact_mod_cast rm.symm
    rw [this]
    cases r.sign <;> simp [mag]
  · rw [h0]
    have hnn := p3.not_nan
    cases hs : (varAt bs).sign with
    | nan => exact absurd hs hnn
    | pos => simp [rm]
    | neg => simp [rm]

/-- C81: with other digits it need not be: the bytes with the only digit 25000 at weight -1 have the amount 2.5, and convert to 1, in either build. -/
theorem C81_not_nearest (d : Bool) : ∃ a, @Untrusted.deserialize ⟨d, false⟩ [32#8, 0#8, 0#8, 0#8, 0x7f#8, 0x80#8, 0xa8#8, 0x61#8] = .ok a ∧
    @amountAt ⟨d, false⟩ [32#8, 0#8, 0#8, 0#8, 0x7f#8, 0x80#8, 0xa8#8, 0x61#8] = 5 / 2 ∧ @toInt ⟨d, false⟩ .i32 a = .ok (.ok 1) := by
  have key : ∀ d : Bool, @digitsAt ⟨d, false⟩ [32#8, 0#8, 0#8, 0#8, 0x7f#8, 0x80#8, 0xa8#8, 0x61#8] = [25000] ∧
      weightAt [32#8, 0#8, 0#8, 0#8, 0x7f#8, 0x80#8, 0xa8#8, 0x61#8] = -1 ∧ ¬ negAt [32#8, 0#8, 0#8, 0#8, 0x7f#8, 0x80#8, 0xa8#8, 0x61#8] := by
    intro d
    refine ⟨by cases d <;> rfl, rfl, by unfold negAt; decide⟩
  obtain ⟨h1, h2, h3⟩ := key d
  have hq : @amountAt ⟨d, false⟩ [32#8, 0#8, 0#8, 0#8, 0x7f#8, 0x80#8, 0xa8#8, 0x61#8] = 5 / 2 := by
    unfold amountAt
    rw [if_neg h3, h1, h2]
    norm_num [mag]
  cases d <;> exact ⟨_, rfl, hq, rfl⟩

/-- C81: a negative digit can make a debug build panic: -32768 has no negative in `i16`. -/
theorem C81_panics : ∃ a, @Untrusted.deserialize (dbg false) (digitBytes1 0#8 0x80#8) = .ok a ∧ @toInt (dbg false) .i16 a = .error .overflow :=
  ⟨_, rfl, rfl⟩

/-- The hypotheses of `C81_convert` are met by bytes with digits beyond 9999: 1·10000 + 32767. -/
example : ∃ a, @Untrusted.deserialize (dbg false) [40#8, 0#8, 0#8, 0#8, 0x01#8, 0x80#8, 1#8, 0#8, 0xff#8, 0x7f#8] = .ok a ∧
    @digitsAt (dbg false) [40#8, 0#8, 0#8, 0#8, 0x01#8, 0x80#8, 1#8, 0#8, 0xff#8, 0x7f#8] = [1, 32767] ∧
    @toInt (dbg false) .i32 a = .ok (.ok 42767) ∧ @toInt (dbg false) .i16 a = .ok (.error .overflow) ∧ @toInt (dbg false) .u16 a = .ok (.ok 42767) :=
  ⟨_, rfl, rfl, rfl, rfl, rfl⟩

end PgNumeric.Props
