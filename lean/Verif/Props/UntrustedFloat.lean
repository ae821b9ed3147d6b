import Verif.Props.Float
import Verif.Props.Text
import Verif.Props.UntrustedSqrt
import Verif.Proofs.StoredText
/-!
# C89: converting numbers from arbitrary bytes to doubles
-/
namespace PgNumeric.Props
open PgNumeric Spec Untrusted F64

theorem loose_at [Build] {bs : List (BitVec 8)} (hl : bs.length ≤ 100000000) (hc : Covered bs) (h3 : kindAt bs ≠ 3) (hst : Storable16 (varAt bs))
    (dx : ∀ d ∈ digitsAt bs, 0 ≤ d ∧ d < 10000) (hnz : ∃ d ∈ digitsAt bs, d ≠ 0) (hs : ∃ n : ℤ, amountAt bs = n / 10 ^ scaleAt bs) : Loose (varAt bs) := by
  have hsc : HasScale (value (varAt bs)) (varAt bs).dscale := by
    obtain ⟨n, e⟩ := hs
    refine ⟨n, ?_⟩
    rw [amount_var, e, show (varAt bs).dscale = (scaleAt bs : ℤ) from rfl, zpow_natCast]
    field_simp
  have hd : Digits (varAt bs).digits := dx
  have hlen : (varAt bs).digits.length = declaredDigits bs := by simp [varAt, digitsAt]
  have h4 := (hc.2 h3).2
  have s2 := hst.dscale_le
  refine ⟨hst.not_nan, hd, ?_, hst.weight_le, by rw [hlen]; omega, hst.dscale_nonneg, s2, hsc, .inr hnz⟩
  have hpos : 0 < mag (varAt bs).digits (varAt bs).weight := mag_pos_of_mem hd hnz _
  have hv : value (varAt bs) ≠ 0 := by rw [← abs_pos, abs_value _ hd]; exact hpos
  have h1 := HasScale.abs_ge (hsc.mono s2) hv
  rw [abs_value _ hd] at h1
  have h2 := lt_of_le_of_lt h1 (mag_lt hd _)
  rw [B_eq_T, T_zpow_lt_iff] at h2
  omega

theorem text_at [Build] {v : Var} (hv : Loose v) (hh : v.digits.head? ≠ some 0 ∨ v.weight ≤ 0) (hne : v.digits ≠ []) {strtod : Str → Option Convert.Float} (h : StrtodOK strtod) :
    ∃ s f, Text.write v = .ok s ∧ strtod s = some f ∧ Convert.toF64 strtod v = .ok (.ok f) ∧ RoundsTo double (value v) f := by
  obtain ⟨s, N, hs, hN⟩ := exists_nat hv.scale hv.dscale_nonneg
  have hw := Text.write_loose hv hs hN
  have hx : Text.extra v (N / 10 ^ s) = 0 := by
    unfold Text.extra
    refine if_neg fun hc => ?_
    rcases hh with h | h
    · obtain ⟨d, ds, e⟩ := List.exists_cons_of_ne_nil hne
      rw [e] at h hc
      exact h (by simpa using hc.1)
    · omega
  rw [hx] at hw
  have hw' : Text.write v = .ok (decimalText (decide (value v < 0)) N s) := by
    rw [hw]; unfold decimalText; simp
  obtain ⟨f, e, hf⟩ := h (decide (value v < 0)) N s
  have hq : ((N : ℕ) : ℚ) / 10 ^ s = |value v| := by rw [← hN]; field_simp
  rw [hq] at hf
  refine ⟨_, f, hw', e, ?_, ?_⟩
  · unfold Convert.toF64
    rw [if_neg hv.not_nan]
    simp only [hw', e, bind_ok, pure_ok]
  · rcases hf with h | ⟨h1, h2⟩
    · exact .inl h
    · right
      refine ⟨?_, h2⟩
      by_cases hc : (2:ℚ) ^ double.emax ≤ double.nearest |value v|
      · rw [round_inf hc] at h1; cases h1
      · rw [round_fin (not_le.1 hc)] at h1
        injection h1

/-- C89: a number read from any bytes with proper digits (0..9999), not all zero, no decimal places behind its scale and a text without superfluous zeros in front (the first
digit is not zero, or the number has at most one digit in front of the point) becomes the double nearest to its amount, or the infinity of its sign beyond the range. -/
theorem C89_f64 [Build] {strtod : Str → Option Convert.Float} (hst : StrtodOK strtod) {bs : List (BitVec 8)} {a : Bin} (hl : bs.length ≤ 100000000)
    (h : Untrusted.deserialize bs = .ok a) (h3 : kindAt bs ≠ 3) (dx : ∀ d ∈ digitsAt bs, 0 ≤ d ∧ d < 10000) (hnz : ∃ d ∈ digitsAt bs, d ≠ 0)
    (hs : ∃ n : ℤ, amountAt bs = n / 10 ^ scaleAt bs) (hh : (digitsAt bs).head? ≠ some 0 ∨ weightAt bs ≤ 0) :
    (|amountAt bs| < 2 ^ 1024 - 2 ^ 970 → ∃ f y, Num.toF64 strtod a = .ok (.ok f) ∧ FloatIs f y ∧ Nearest IsDouble (amountAt bs) y) ∧
    (2 ^ 1024 - 2 ^ 970 ≤ |amountAt bs| → Num.toF64 strtod a = .ok (.ok (.inf (decide (amountAt bs < 0))))) := by
  obtain ⟨p1, p2, p3, p4, p5⟩ := untrusted_operand hl h h3
  have hv := loose_at hl (untrusted_source (by omega) h).1 h3 p3 dx hnz hs
  have hne : (varAt bs).digits ≠ [] := by
    obtain ⟨d, hd, -⟩ := hnz
    exact List.ne_nil_of_mem (show d ∈ (varAt bs).digits from hd)
  obtain ⟨-, f, -, -, e, hf⟩ := text_at hv hh hne hst
  rw [toF64_unfold strtod p4, ← amount_var]
  refine ⟨fun hx => ?_, fun hx => ?_⟩
  · have hlt : double.nearest |value (varAt bs)| < 2 ^ double.emax := by rw [← not_le, double_overflow (abs_nonneg _), not_le]; exact hx
    exact ⟨f, double.signed (value (varAt bs)), e, hf.value hlt, Format.signed_nearest (by decide) (by decide) hlt⟩
  · rw [e, hf.inf ((double_overflow (abs_nonneg _)).2 hx)]

/-- C89: to a single: as for a valid number (C57) the single nearest to the double nearest to the amount, which is one of the two singles around it, when the amount is in the range
of the singles; an overflow error beyond and below it; and beyond the range of the doubles an infinity, below it zero. -/
theorem C89_f32 [Build] {strtod : Str → Option Convert.Float} (hst : StrtodOK strtod) {bs : List (BitVec 8)} {a : Bin} (hl : bs.length ≤ 100000000)
    (h : Untrusted.deserialize bs = .ok a) (h3 : kindAt bs ≠ 3) (dx : ∀ d ∈ digitsAt bs, 0 ≤ d ∧ d < 10000) (hnz : ∃ d ∈ digitsAt bs, d ≠ 0)
    (hs : ∃ n : ℤ, amountAt bs = n / 10 ^ scaleAt bs) (hh : (digitsAt bs).head? ≠ some 0 ∨ weightAt bs ≤ 0) :
    (1 / 2 ^ 150 + 1 / 2 ^ 203 < |amountAt bs| → |amountAt bs| < 2 ^ 128 - 2 ^ 103 - 2 ^ 74 →
      ∃ f y, Num.toF32 strtod a = .ok (.ok f) ∧ FloatIs f y ∧ (∃ d, Nearest IsDouble (amountAt bs) d ∧ Nearest IsSingle d y) ∧
        ∀ g, IsSingle g → (g ≤ amountAt bs → g ≤ y) ∧ (amountAt bs ≤ g → y ≤ g)) ∧
    ((2 ^ 128 - 2 ^ 103 - 2 ^ 74 ≤ |amountAt bs| ∧ |amountAt bs| < 2 ^ 1024 - 2 ^ 970) ∨
      (1 / 2 ^ 1075 < |amountAt bs| ∧ |amountAt bs| ≤ 1 / 2 ^ 150 + 1 / 2 ^ 203) → Num.toF32 strtod a = .ok (.error .overflow)) ∧
    (2 ^ 1024 - 2 ^ 970 ≤ |amountAt bs| → Num.toF32 strtod a = .ok (.ok (.inf (decide (amountAt bs < 0))))) ∧
    (|amountAt bs| ≤ 1 / 2 ^ 1075 → ∃ f, Num.toF32 strtod a = .ok (.ok f) ∧ FloatIs f 0) := by
  obtain ⟨p1, p2, p3, p4, p5⟩ := untrusted_operand hl h h3
  have hv := loose_at hl (untrusted_source (by omega) h).1 h3 p3 dx hnz hs
  have hne : (varAt bs).digits ≠ [] := by
    obtain ⟨d, hd, -⟩ := hnz
    exact List.ne_nil_of_mem (show d ∈ (varAt bs).digits from hd)
  obtain ⟨t, f, e1, e2, -, hf⟩ := text_at hv hh hne hst
  obtain ⟨c1, c2, c3, c4, c5⟩ := Convert.toF32_of_text hv.not_nan e1 e2 hf
  rw [toF32_unfold strtod p4, ← amount_var]
  refine ⟨fun h1 h2 => ?_, ?_, c1, fun hx => ?_⟩
  · obtain ⟨hd, hs, hv⟩ := single_in_range h1 h2
    refine ⟨_, single.signed (double.signed (value (varAt bs))), c5 h1 h2, ?_, ⟨double.signed (value (varAt bs)), ?_, ?_⟩, ?_⟩
    · unfold FloatIs; exact hv.symm
    · exact Format.signed_nearest (F := double) (by decide) (by decide) hd
    · exact Format.signed_nearest (F := single) (by decide) (by decide) (by rw [Format.abs_signed]; exact hs)
    · intro g hg
      obtain ⟨d1, d2⟩ := Format.signed_faithful (F := double) (x := value (varAt bs)) (by decide) (single_rep_double hg)
      obtain ⟨s1, s2⟩ := Format.signed_faithful (F := single) (x := double.signed (value (varAt bs))) (by decide) hg
      exact ⟨fun h => s1 (d1 h), fun h => s2 (d2 h)⟩
  · rintro (⟨h1, h2⟩ | ⟨h1, h2⟩)
    · exact c2 h1 h2
    · exact c3 h1 h2
  · obtain ⟨neg, e⟩ := c4 hx
    exact ⟨_, e, by unfold FloatIs; simp⟩

/-- The hypotheses are met: 5, with a zero behind it that a valid number does not have. -/
example : StrtodOK exactStrtod ∧ ∃ a, @Untrusted.deserialize (dbg false) (digitBytes2 5#8 0#8 0#8 0#8) = .ok a ∧ kindAt (digitBytes2 5#8 0#8 0#8 0#8) ≠ 3 ∧
    @digitsAt (dbg false) (digitBytes2 5#8 0#8 0#8 0#8) = [5, 0] ∧
    (∃ n : ℤ, @amountAt (dbg false) (digitBytes2 5#8 0#8 0#8 0#8) = n / 10 ^ scaleAt (digitBytes2 5#8 0#8 0#8 0#8)) ∧
    (@digitsAt (dbg false) (digitBytes2 5#8 0#8 0#8 0#8)).head? ≠ some 0 ∧ |@amountAt (dbg false) (digitBytes2 5#8 0#8 0#8 0#8)| < 2 ^ 1024 - 2 ^ 970 := by
  have hg : ¬ negAt (digitBytes2 5#8 0#8 0#8 0#8) := by unfold negAt; decide
  have ha : @amountAt (dbg false) (digitBytes2 5#8 0#8 0#8 0#8) = 5 := by
    unfold amountAt
    rw [if_neg hg, show @digitsAt (dbg false) (digitBytes2 5#8 0#8 0#8 0#8) = [5, 0] from rfl, show weightAt (digitBytes2 5#8 0#8 0#8 0#8) = 0 from rfl]
    simp [mag]
  refine ⟨exactStrtod_ok, _, rfl, by decide, rfl, ⟨5, ?_⟩, ?_, ?_⟩
  · rw [ha, show scaleAt (digitBytes2 5#8 0#8 0#8 0#8) = 0 from rfl]; norm_num
  · rw [show @digitsAt (dbg false) (digitBytes2 5#8 0#8 0#8 0#8) = [5, 0] from rfl]; simp
  · rw [ha, show (2:ℚ) ^ 1024 = 2 ^ 54 * 2 ^ 970 by rw [← pow_add]]
    have : (1:ℚ) ≤ 2 ^ 970 := one_le_pow₀ (by norm_num)
    rw [abs_of_pos (by norm_num : (0:ℚ) < 5)]
    generalize (2:ℚ) ^ 970 = t at this ⊢
    linarith

end PgNumeric.Props
