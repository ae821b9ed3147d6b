import Verif.Proofs.UntrustedSum
import Verif.Props.UntrustedCmp
/-!
# C80: adding and subtracting numbers from arbitrary bytes
-/
namespace PgNumeric.Props
open PgNumeric Spec Untrusted

theorem amount_var [Build] (bs : List (BitVec 8)) : value (varAt bs) = amountAt bs := by
  unfold value amountAt varAt
  by_cases hg : negAt bs <;> simp [hg]

theorem amount_encode [Build] {v : Var} (h : Storable16 v) : amountAt (Bin.encode v).asBytes = value v := by
  obtain ⟨-, -, e3, e4, -, e6⟩ := encode_says h
  have hn := h.not_nan
  unfold amountAt value
  rw [e4, e6]
  cases hs : v.sign with
  | nan => exact absurd hs hn
  | pos => rw [if_neg (by rw [e3, hs]; simp)]
  | neg => rw [if_pos (by rw [e3, hs])]

theorem small_var [Build] {bs : List (BitVec 8)} (hl : bs.length ≤ 100000000) (h : Storable16 (varAt bs)) (hc : Covered bs) (h3 : kindAt bs ≠ 3) : Small (varAt bs) := by
  have h1 := h.weight_ge
  have h2 := h.weight_le
  have h4 := (hc.2 h3).2
  refine ⟨by omega, by omega, ?_⟩
  have : (varAt bs).digits.length = declaredDigits bs := by simp [varAt, digitsAt]
  rw [this]
  omega

/-- The parts that the four theorems share. -/
theorem untrusted_operand [Build] {bs : List (BitVec 8)} {a : Bin} (hl : bs.length ≤ 100000000) (h : Untrusted.deserialize bs = .ok a) (h3 : kindAt bs ≠ 3) :
    Num.asBinary a = .ok () ∧ a.isNan = false ∧ Storable16 (varAt bs) ∧ a.asVar = .ok (varAt bs) ∧ Small (varAt bs) := by
  have hn : bs.length < 4294967288 := by omega
  obtain ⟨p1, p2⟩ := untrusted_facts hn h
  obtain ⟨-, hx, hst, hv⟩ := p2.resolve_left (fun hh => h3 hh.1)
  exact ⟨p1, hx, hst, hv, small_var hl hst (untrusted_source hn h).1 h3⟩

/-- What the sum or the difference of two numbers from bytes is: bytes that are complete, with the larger scale and the exact amount; it is missing only where a
weight is at an end of its range. -/
structure ExactAt [Build] (xs ys : List (BitVec 8)) (q : ℚ) (o : Option Bin) : Prop where
  missing : o = none → 32767 ≤ weightAt xs ∨ 32767 ≤ weightAt ys ∨ weightAt xs - (digitsAt xs).length < -32767 ∨ weightAt ys - (digitsAt ys).length < -32767
  result : ∀ r, o = some r → Complete r.asBytes ∧ kindAt r.asBytes ≠ 3 ∧ scaleAt r.asBytes = max (scaleAt xs) (scaleAt ys) ∧ amountAt r.asBytes = q

theorem exact_of [Build] {xs ys : List (BitVec 8)} {v : Var} (sx : Small (varAt xs)) (sy : Small (varAt ys)) (hx : Storable16 (varAt xs)) (hy : Storable16 (varAt ys))
    (h : Near v (lo16 (varAt xs) (varAt ys)) (hi16 (varAt xs) (varAt ys)) (max (varAt xs).dscale (varAt ys).dscale)) :
    ∃ o, Num.finish v = .ok o ∧ ExactAt xs ys (value v) o := by
  have a1 := hx.dscale_nonneg
  have a2 := hx.dscale_le
  have a3 := hy.dscale_nonneg
  have a4 := hy.dscale_le
  have b1 := hx.weight_ge
  have b2 := hx.weight_le
  have b3 := hy.weight_ge
  have b4 := hy.weight_le
  have c1 := sx.len
  have c2 := sy.len
  obtain ⟨o, ho, hn, hr⟩ := finish16 h (by omega) (by omega) (by unfold lo16 hi16; omega) (by unfold lo16; omega)
  refine ⟨o, ho, fun e => ?_, fun r e => ?_⟩
  · have := hn e
    unfold lo16 hi16 varAt at this
    simp only at this
    omega
  · obtain ⟨u, rfl, hu, hs, hval⟩ := hr r e
    obtain ⟨e1, e2, -, -, e5, -⟩ := encode_says hu
    refine ⟨e1, e2, ?_, by rw [amount_encode hu, hval]⟩
    have : (scaleAt (Bin.encode u).asBytes : ℤ) = max (scaleAt xs : ℤ) (scaleAt ys : ℤ) := by rw [e5, hs]; rfl
    omega

/-- C80: two numbers read from any bytes whose digits are in 0..16383 are added exactly, in base 10000, in either build and without a panic. -/
theorem C80_add [Build] {xs ys : List (BitVec 8)} {a b : Bin} (hx : xs.length ≤ 100000000) (hy : ys.length ≤ 100000000)
    (ha : Untrusted.deserialize xs = .ok a) (hb : Untrusted.deserialize ys = .ok b) (h3 : kindAt xs ≠ 3) (k3 : kindAt ys ≠ 3)
    (dx : ∀ d ∈ digitsAt xs, 0 ≤ d ∧ d ≤ 16383) (dy : ∀ d ∈ digitsAt ys, 0 ≤ d ∧ d ≤ 16383) :
    ∃ o, Untrusted.checkedAdd a b = .ok o ∧ ExactAt xs ys (amountAt xs + amountAt ys) o := by
  obtain ⟨p1, p2, p3, p4, p5⟩ := untrusted_operand hx ha h3
  obtain ⟨q1, q2, q3, q4, q5⟩ := untrusted_operand hy hb k3
  have a1 := p3.dscale_nonneg
  have a2 := p3.dscale_le
  have a4 := q3.dscale_le
  obtain ⟨v, ev, nv, hv⟩ := addCommon14 p5 q5 dx dy p3.not_nan q3.not_nan (by omega) (by omega)
  obtain ⟨o, ho, he⟩ := exact_of p5 q5 p3 q3 nv
  refine ⟨o, ?_, by rw [← amount_var, ← amount_var, ← hv]; exact he⟩
  unfold Untrusted.checkedAdd
  simp only [p1, q1, p2, q2, p4, q4, bind_ok, Bool.or_self, Bool.false_eq_true, if_false, ev]
  exact ho

/-- C80: and subtracted exactly. -/
theorem C80_sub [Build] {xs ys : List (BitVec 8)} {a b : Bin} (hx : xs.length ≤ 100000000) (hy : ys.length ≤ 100000000)
    (ha : Untrusted.deserialize xs = .ok a) (hb : Untrusted.deserialize ys = .ok b) (h3 : kindAt xs ≠ 3) (k3 : kindAt ys ≠ 3)
    (dx : ∀ d ∈ digitsAt xs, 0 ≤ d ∧ d ≤ 16383) (dy : ∀ d ∈ digitsAt ys, 0 ≤ d ∧ d ≤ 16383) :
    ∃ o, Untrusted.checkedSub a b = .ok o ∧ ExactAt xs ys (amountAt xs - amountAt ys) o := by
  obtain ⟨p1, p2, p3, p4, p5⟩ := untrusted_operand hx ha h3
  obtain ⟨q1, q2, q3, q4, q5⟩ := untrusted_operand hy hb k3
  have a1 := p3.dscale_nonneg
  have a2 := p3.dscale_le
  have a4 := q3.dscale_le
  obtain ⟨v, ev, nv, hv⟩ := subCommon14 p5 q5 dx dy p3.not_nan q3.not_nan (by omega) (by omega)
  obtain ⟨o, ho, he⟩ := exact_of p5 q5 p3 q3 nv
  refine ⟨o, ?_, by rw [← amount_var, ← amount_var, ← hv]; exact he⟩
  unfold Untrusted.checkedSub
  simp only [p1, q1, p2, q2, p4, q4, bind_ok, Bool.or_self, Bool.false_eq_true, if_false, ev]
  exact ho

/-- C80: NaN, whatever the other number is. -/
theorem C80_nan [Build] {xs ys : List (BitVec 8)} {a b : Bin} (hx : xs.length < 4294967288) (hy : ys.length < 4294967288)
    (ha : Untrusted.deserialize xs = .ok a) (hb : Untrusted.deserialize ys = .ok b) (h3 : kindAt xs = 3 ∨ kindAt ys = 3) :
    Untrusted.checkedAdd a b = .ok (some Bin.nan) ∧ Untrusted.checkedSub a b = .ok (some Bin.nan) := by
  obtain ⟨p1, p2⟩ := untrusted_facts hx ha
  obtain ⟨q1, q2⟩ := untrusted_facts hy hb
  have hor : (a.isNan || b.isNan) = true := by
    rcases h3 with h | h
    · rcases p2 with p | p
      · simp [p.2]
      · exact absurd h p.1
    · rcases q2 with p | p
      · simp [p.2]
      · exact absurd h p.1
  unfold Untrusted.checkedAdd Untrusted.checkedSub
  simp only [p1, q1, bind_ok, hor, if_true, Num.nan_ok, pure_ok, and_self]

/-- C80: a release build adds and subtracts any two numbers that it reads from bytes, whatever their digits are: without a panic, and what it gives is complete
bytes. (The result may be wrong: `C80_wraps`.) -/
theorem C80_release (e : Bool) {xs ys : List (BitVec 8)} {a b : Bin} (hx : xs.length ≤ 100000000) (hy : ys.length ≤ 100000000)
    (ha : @Untrusted.deserialize (rel e) xs = .ok a) (hb : @Untrusted.deserialize (rel e) ys = .ok b) :
    (∃ o, @Untrusted.checkedAdd (rel e) a b = .ok o ∧ ∀ r, o = some r → @Complete (rel e) r.asBytes) ∧
    ∃ o, @Untrusted.checkedSub (rel e) a b = .ok o ∧ ∀ r, o = some r → @Complete (rel e) r.asBytes := by
  let _ : Build := rel e
  by_cases h3 : kindAt xs = 3 ∨ kindAt ys = 3
  · obtain ⟨h1, h2⟩ := C80_nan (by omega) (by omega) ha hb h3
    have hc : Complete Bin.nan.asBytes := by
      rcases h3 with h | h
      · obtain ⟨c1, -, c3, -⟩ := C74_content (by omega) ha
        rw [← c3 h]; exact c1
      · obtain ⟨c1, -, c3, -⟩ := C74_content (by omega) hb
        rw [← c3 h]; exact c1
    exact ⟨⟨_, h1, fun r hr => by rw [← Option.some.inj hr]; exact hc⟩, ⟨_, h2, fun r hr => by rw [← Option.some.inj hr]; exact hc⟩⟩
  · push Not at h3
    obtain ⟨p1, p2, p3, p4, p5⟩ := untrusted_operand hx ha h3.1
    obtain ⟨q1, q2, q3, q4, q5⟩ := untrusted_operand hy hb h3.2
    have a1 := p3.dscale_nonneg
    have a2 := p3.dscale_le
    have a4 := q3.dscale_le
    have b1 := p3.weight_ge
    have b2 := p3.weight_le
    have b3 := q3.weight_ge
    have b4 := q3.weight_le
    have c1 := p5.len
    have c2 := q5.len
    have fin : ∀ v, Near v (lo16 (varAt xs) (varAt ys) - 1) (hi16 (varAt xs) (varAt ys)) (max (varAt xs).dscale (varAt ys).dscale) →
        ∃ o, Num.finish v = .ok o ∧ ∀ r, o = some r → Complete r.asBytes := by
      intro v nv
      obtain ⟨o, ho, -, hr⟩ := finish16 nv (by omega) (by omega) (by unfold lo16 hi16; omega) (by unfold lo16; omega)
      refine ⟨o, ho, fun r e => ?_⟩
      obtain ⟨u, rfl, hu, -, -⟩ := hr r e
      exact (encode_says hu).1
    obtain ⟨v, ev, nv⟩ := addCommon_release e p5 q5
    obtain ⟨w, ew, nw⟩ := subCommon_release e p5 q5
    obtain ⟨o, ho, hc⟩ := fin v nv
    obtain ⟨o', ho', hc'⟩ := fin w nw
    unfold Untrusted.checkedAdd Untrusted.checkedSub
    simp only [p1, q1, p2, q2, p4, q4, bind_ok, Bool.or_self, Bool.false_eq_true, if_false, ev, ew]
    exact ⟨⟨o, ho, hc⟩, ⟨o', ho', hc'⟩⟩

/-- C80: a debug build checks more: whatever the digits of two numbers read from bytes are, where it gives a sum or a difference, this is exact. -/
theorem C80_debug_exact (e : Bool) {xs ys : List (BitVec 8)} {a b : Bin} (hx : xs.length ≤ 100000000) (hy : ys.length ≤ 100000000)
    (ha : @Untrusted.deserialize (dbg e) xs = .ok a) (hb : @Untrusted.deserialize (dbg e) ys = .ok b) (h3 : kindAt xs ≠ 3) (k3 : kindAt ys ≠ 3) :
    (∀ r, @Untrusted.checkedAdd (dbg e) a b = .ok (some r) → @Complete (dbg e) r.asBytes ∧ kindAt r.asBytes ≠ 3 ∧
      scaleAt r.asBytes = max (scaleAt xs) (scaleAt ys) ∧ @amountAt (dbg e) r.asBytes = @amountAt (dbg e) xs + @amountAt (dbg e) ys) ∧
    ∀ r, @Untrusted.checkedSub (dbg e) a b = .ok (some r) → @Complete (dbg e) r.asBytes ∧ kindAt r.asBytes ≠ 3 ∧
      scaleAt r.asBytes = max (scaleAt xs) (scaleAt ys) ∧ @amountAt (dbg e) r.asBytes = @amountAt (dbg e) xs - @amountAt (dbg e) ys := by
  let _ : Build := dbg e
  obtain ⟨p1, p2, p3, p4, p5⟩ := untrusted_operand hx ha h3
  obtain ⟨q1, q2, q3, q4, q5⟩ := untrusted_operand hy hb k3
  have a1 := p3.dscale_nonneg
  have a2 := p3.dscale_le
  have a4 := q3.dscale_le
  have b1 := p3.weight_ge
  have b2 := p3.weight_le
  have b3 := q3.weight_ge
  have b4 := q3.weight_le
  have c1 := p5.len
  have c2 := q5.len
  have fin : ∀ v r, Near v (lo16 (varAt xs) (varAt ys) - 1) (hi16 (varAt xs) (varAt ys)) (max (varAt xs).dscale (varAt ys).dscale) →
      Num.finish v = .ok (some r) → Complete r.asBytes ∧ kindAt r.asBytes ≠ 3 ∧ scaleAt r.asBytes = max (scaleAt xs) (scaleAt ys) ∧ amountAt r.asBytes = value v := by
    intro v r nv hf
    obtain ⟨o, ho, -, hr⟩ := finish16 nv (by omega) (by omega) (by unfold lo16 hi16; omega) (by unfold lo16; omega)
    rw [hf] at ho
    obtain ⟨u, rfl, hu, hs, hval⟩ := hr r (Except.ok.inj ho).symm
    obtain ⟨e1, e2, -, -, e5, -⟩ := encode_says hu
    refine ⟨e1, e2, ?_, by rw [amount_encode hu, hval]⟩
    have : (scaleAt (Bin.encode u).asBytes : ℤ) = max (scaleAt xs : ℤ) (scaleAt ys : ℤ) := by rw [e5, hs]; rfl
    omega
  constructor
  · intro r h
    unfold Untrusted.checkedAdd at h
    simp only [p1, q1, p2, q2, p4, q4, bind_ok, Bool.or_self, Bool.false_eq_true, if_false] at h
    obtain ⟨v, hv, h⟩ := bind_elim h
    obtain ⟨nv, hval⟩ := addCommon_debug e p5 q5 p3.digits q3.digits hv
    have := fin v r nv h
    rw [hval, amount_var, amount_var] at this
    exact this
  · intro r h
    unfold Untrusted.checkedSub at h
    simp only [p1, q1, p2, q2, p4, q4, bind_ok, Bool.or_self, Bool.false_eq_true, if_false] at h
    obtain ⟨v, hv, h⟩ := bind_elim h
    obtain ⟨nv, hval⟩ := subCommon_debug e p5 q5 p3.digits q3.digits hv
    have := fin v r nv h
    rw [hval, amount_var, amount_var] at this
    exact this

/-- C80: where no digit is negative, this is the addition and the subtraction of the rest of the model. -/
theorem C80_model [Build] {xs ys : List (BitVec 8)} {a b : Bin} (hx : xs.length < 4294967288) (hy : ys.length < 4294967288)
    (ha : Untrusted.deserialize xs = .ok a) (hb : Untrusted.deserialize ys = .ok b) (dx : ∀ d ∈ digitsAt xs, 0 ≤ d) (dy : ∀ d ∈ digitsAt ys, 0 ≤ d) :
    Untrusted.checkedAdd a b = Num.checkedAdd a b ∧ Untrusted.checkedSub a b = Num.checkedSub a b := by
  obtain ⟨p1, p2⟩ := untrusted_facts hx ha
  obtain ⟨q1, q2⟩ := untrusted_facts hy hb
  unfold Untrusted.checkedAdd Num.checkedAdd Untrusted.checkedSub Num.checkedSub
  simp only [p1, q1, bind_ok]
  rcases p2 with ⟨h3, hn⟩ | ⟨h3, hn, hst, hv⟩
  · simp only [hn, Bool.true_or, if_true, and_self]
  · rcases q2 with ⟨k3, kn⟩ | ⟨k3, kn, kst, kv⟩
    · simp only [kn, Bool.or_true, if_true, and_self]
    · have d1 : Digits15 (varAt xs).digits := fun d hd => ⟨dx d hd, (hst.digits d hd).2⟩
      have d2 : Digits15 (varAt ys).digits := fun d hd => ⟨dy d hd, (kst.digits d hd).2⟩
      have hd := cmpAbs_ok (a := varAt xs) (b := varAt ys) d1 d2
      simp only [hn, kn, Bool.or_self, Bool.false_eq_true, if_false, hv, kv, bind_ok]
      unfold Untrusted.addCommon Var.addCommon Untrusted.subCommon Var.subCommon difference
      simp only [hd, bind_ok]
      exact ⟨trivial, trivial⟩

/-- C80 (a defect): larger digits wrap. The digit 32767 (a positive number) added to itself: a release build gives the digit -2, a debug build panics. -/
theorem C80_wraps : ∃ a r, @Untrusted.deserialize (dbg false) (digitBytes1 0xff#8 0x7f#8) = .ok a ∧ @Untrusted.deserialize (rel false) (digitBytes1 0xff#8 0x7f#8) = .ok a ∧
    @Untrusted.checkedAdd (rel false) a a = .ok (some r) ∧ @digitsAt (rel false) r.asBytes = [-2] ∧ @Untrusted.checkedAdd (dbg false) a a = .error .overflow :=
  ⟨_, _, rfl, rfl, rfl, rfl, rfl⟩

/-- C80 (a defect): an exact result need not be a number with digits in 0..9999. The digits 1, 0 less the digits 0, 16383 give the digit -6383: `1` is greater than
`0.16383…` in the order of C75, so the result is positive with a negative digit. -/
theorem C80_odd_digits (d : Bool) : ∃ a b r, @Untrusted.deserialize ⟨d, false⟩ (digitBytes2 1#8 0#8 0#8 0#8) = .ok a ∧
    @Untrusted.deserialize ⟨d, false⟩ (digitBytes2 0#8 0#8 0xff#8 0x3f#8) = .ok b ∧ @Untrusted.checkedSub ⟨d, false⟩ a b = .ok (some r) ∧
    @digitsAt ⟨d, false⟩ r.asBytes = [-6383] ∧ ¬ negAt r.asBytes := by
  cases d <;> exact ⟨_, _, _, rfl, rfl, rfl, rfl, by unfold negAt; decide⟩

/-- The hypotheses of `C80_add` and `C80_sub` are met by these bytes (digits beyond 9999). -/
example : ∃ a b, @Untrusted.deserialize (dbg false) (digitBytes2 1#8 0#8 0xff#8 0x3f#8) = .ok a ∧ @Untrusted.deserialize (dbg false) (digitBytes1 0xff#8 0x3f#8) = .ok b ∧
    @digitsAt (dbg false) (digitBytes2 1#8 0#8 0xff#8 0x3f#8) = [1, 16383] ∧ @digitsAt (dbg false) (digitBytes1 0xff#8 0x3f#8) = [16383] ∧
    kindAt (digitBytes2 1#8 0#8 0xff#8 0x3f#8) ≠ 3 ∧ kindAt (digitBytes1 0xff#8 0x3f#8) ≠ 3 :=
  ⟨_, _, rfl, rfl, rfl, rfl, by decide, by decide⟩

/-- `C80_debug_exact` speaks about negative digits too: the digit -5 and the digit 7 are added in a debug build. -/
example : ∃ a b r, @Untrusted.deserialize (dbg false) (digitBytes1 0xfb#8 0xff#8) = .ok a ∧ @Untrusted.deserialize (dbg false) (digitBytes1 7#8 0#8) = .ok b ∧
    @Untrusted.checkedAdd (dbg false) a b = .ok (some r) ∧ @digitsAt (dbg false) (digitBytes1 0xfb#8 0xff#8) = [-5] ∧ @digitsAt (dbg false) r.asBytes = [2] :=
  ⟨_, _, _, rfl, rfl, rfl, rfl, rfl⟩

end PgNumeric.Props
