import Verif.Props.Borrowed
import Verif.Model.Typmod
import Verif.Model.ToFloat
import Verif.Model.Power
import Verif.Model.Sqrt
import Verif.Model.Convert
/-!
# C79: arithmetic on borrowed numbers
-/
namespace PgNumeric.Props
open PgNumeric Spec Untrusted Borrowed

/-- What every operation reads of a number is the same for the borrowed words and the owned copy. -/
theorem borrowed_same [Build] {b a : Bin} (hn : b.asBytes.length < 4294967288) (h : Untrusted.deserialize b.asBytes = .ok a) :
    Num.asBinary b = Num.asBinary a ∧ b.isNan = a.isNan ∧ b.asVar = a.asVar ∧ b.isNegative = a.isNegative ∧ b.isPositive = a.isPositive ∧
    (a.isNan = false → b.dscale.toNat = a.dscale.toNat) := by
  obtain ⟨hc, hd⟩ := untrusted_source hn h
  obtain ⟨p1, -⟩ := untrusted_facts hn h
  obtain ⟨x, -, x2, x3, x4, x5, x6⟩ := owned_header hn h
  have hv := owned_var hn h
  rw [asVar_asBytes b hn] at hv
  obtain ⟨w, ew, hw⟩ := load16_ok (bs := b.asBytes) (i := 4) (by have := hc.1; omega)
  rw [load16_head] at ew
  have hb : b.header.toNat = headerAt b.asBytes := by rw [Except.ok.inj ew]; exact hw
  obtain ⟨y, ey, hy⟩ := header_ok hc.1
  rw [x2] at ey
  obtain rfl := Except.ok.inj ey
  obtain ⟨s1, s2, s3, s4⟩ := header_says hb
  obtain ⟨t1, t2, t3, t4⟩ := header_says hy
  refine ⟨?_, by rw [s1, ← t1, x3], hv, by rw [s2, ← t2, x4], by rw [s3, ← t3, x5], ?_⟩
  · rw [p1]
    unfold Num.asBinary
    by_cases hdb : Build.debug = true
    · apply dassert_ok
      have e1 := hd hdb
      rw [Bin.asBytes_length] at e1
      obtain ⟨w, ew, hw⟩ := load32_ok (bs := b.asBytes) (by have := hc.1; omega)
      have e2 : load32 b.asBytes 0 = .ok b.vlLen := load32_bytes _ _
      rw [e2] at ew
      obtain rfl := Except.ok.inj ew
      unfold Bin.len
      rw [hw, e1]
    · unfold dassert; simp [hdb]
  · intro ha
    have h3 : kindAt b.asBytes ≠ 3 := by
      intro hh; rw [← x3, t1] at ha; simp [hh] at ha
    rw [s4 h3, ← t4 h3, x6 ha]

/-- C79: arithmetic on a borrowed number is arithmetic on its owned copy, on either side of the operator and with any other number, whatever digits the bytes hold. -/
theorem C79_arith [Build] {b a : Bin} (hn : b.asBytes.length < 4294967288) (h : Untrusted.deserialize b.asBytes = .ok a) (c : Bin) :
    (Num.checkedAdd b c = Num.checkedAdd a c ∧ Num.checkedAdd c b = Num.checkedAdd c a) ∧
    (Num.checkedSub b c = Num.checkedSub a c ∧ Num.checkedSub c b = Num.checkedSub c a) ∧
    (Num.checkedMul b c = Num.checkedMul a c ∧ Num.checkedMul c b = Num.checkedMul c a) ∧
    (Num.checkedDiv b c = Num.checkedDiv a c ∧ Num.checkedDiv c b = Num.checkedDiv c a) ∧
    (Num.checkedDivTrunc b c = Num.checkedDivTrunc a c ∧ Num.checkedDivTrunc c b = Num.checkedDivTrunc c a) ∧
    (Num.checkedRem b c = Num.checkedRem a c ∧ Num.checkedRem c b = Num.checkedRem c a) ∧
    (Num.overflowingDiv b c = Num.overflowingDiv a c ∧ Num.overflowingDiv c b = Num.overflowingDiv c a) ∧
    (Num.overflowingRem b c = Num.overflowingRem a c ∧ Num.overflowingRem c b = Num.overflowingRem c a) := by
  obtain ⟨e1, e2, e3, e4, e5, -⟩ := borrowed_same hn h
  refine ⟨⟨?_, ?_⟩, ⟨?_, ?_⟩, ⟨?_, ?_⟩, ⟨?_, ?_⟩, ⟨?_, ?_⟩, ⟨?_, ?_⟩, ⟨?_, ?_⟩, ⟨?_, ?_⟩⟩ <;>
    simp only [Num.checkedAdd, Num.checkedSub, Num.checkedMul, Num.checkedDiv, Num.checkedDivTrunc, Num.checkedRem, Num.overflowingDiv, Num.overflowingRem, e1, e2, e3, e4, e5]

/-- C79: rounding, sign, text and conversions. -/
theorem C79_unary [Build] {b a : Bin} (hn : b.asBytes.length < 4294967288) (h : Untrusted.deserialize b.asBytes = .ok a) :
    (∀ s, Num.round b s = Num.round a s) ∧ (∀ s, Num.trunc b s = Num.trunc a s) ∧ Num.ceil b = Num.ceil a ∧ Num.floor b = Num.floor a ∧
    Num.signum b = Num.signum a ∧ Num.inc b = Num.inc a ∧ Num.toOwned b = Num.toOwned a ∧ Num.clone b = Num.clone a ∧
    Num.toString b = Num.toString a ∧ Num.normalize b = Num.normalize a ∧
    (∀ ty, Convert.toInt ty b = Convert.toInt ty a) ∧ (∀ st, Num.toF64 st b = Num.toF64 st a) ∧ (∀ st, Num.toF32 st b = Num.toF32 st a) := by
  obtain ⟨e1, e2, e3, e4, e5, -⟩ := borrowed_same hn h
  refine ⟨fun _ => ?_, fun _ => ?_, ?_, ?_, ?_, ?_, ?_, ?_, ?_, ?_, fun _ => ?_, fun _ => ?_, fun _ => ?_⟩ <;>
    simp only [Num.round, Num.trunc, Num.ceil, Num.floor, Num.signum, Num.inc, Num.toOwned, Num.clone, Num.toString, Num.normalize, Convert.toInt, Num.toF64, Num.toF32,
      e1, e2, e3, e4, e5]

/-- C79: roots, logarithms, exponentials, powers and scientific text. -/
theorem C79_real [Build] (lm : Libm) (fuel : ℕ) {b a : Bin} (hn : b.asBytes.length < 4294967288) (h : Untrusted.deserialize b.asBytes = .ok a) :
    Num.sqrt fuel b = Num.sqrt fuel a ∧ Num.ln lm fuel b = Num.ln lm fuel a ∧ Num.log2 lm fuel b = Num.log2 lm fuel a ∧ Num.log10 lm fuel b = Num.log10 lm fuel a ∧
    Num.exp lm fuel b = Num.exp lm fuel a ∧ (∀ c, Num.log lm fuel b c = Num.log lm fuel a c ∧ Num.log lm fuel c b = Num.log lm fuel c a) ∧
    (∀ c, Num.pow lm fuel b c = Num.pow lm fuel a c ∧ Num.pow lm fuel c b = Num.pow lm fuel c a) ∧ ∀ e, Num.sci lm e b = Num.sci lm e a := by
  obtain ⟨e1, e2, e3, e4, e5, -⟩ := borrowed_same hn h
  refine ⟨?_, ?_, ?_, ?_, ?_, fun _ => ⟨?_, ?_⟩, fun _ => ⟨?_, ?_⟩, fun _ => ?_⟩ <;>
    simp only [Num.sqrt, Num.ln, Num.log2, Num.log10, Num.exp, Num.log, Num.pow, Num.sci, e1, e2, e3, e4, e5]

/-- The hypotheses are met where borrowed and owned bytes differ: the number 5 with a long header, which the copy turns into a short one. -/
example : ∃ a : Bin, @Untrusted.deserialize (dbg false) (Bin.asBytes ⟨40#32, 0#16, [0#16, 5#16]⟩) = .ok a ∧ a ≠ ⟨40#32, 0#16, [0#16, 5#16]⟩ ∧
    (Bin.asBytes ⟨40#32, 0#16, [0#16, 5#16]⟩).length < 4294967288 := ⟨_, rfl, by decide, by decide⟩

end PgNumeric.Props
