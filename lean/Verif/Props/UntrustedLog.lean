import Verif.Props.LogAcc
import Verif.Props.UntrustedLn
/-!
# C91: logarithms to any base of numbers from arbitrary bytes
-/
namespace PgNumeric.Props
open PgNumeric Spec Untrusted Var

/-- The bytes of a positive number with proper digits (0..9999), the first of which is not zero, and no decimal places behind the scale. Trailing zero digits, and the long header where
the short one would do, are allowed, which numbers made by the library do not have. -/
structure PositiveAt [Build] (bs : List (BitVec 8)) : Prop where
  length : bs.length ≤ 380000
  not_nan : kindAt bs ≠ 3
  digits : ∀ d ∈ digitsAt bs, 0 ≤ d ∧ d < 10000
  ne : digitsAt bs ≠ []
  first : (digitsAt bs).head? ≠ some 0
  sign : ¬ negAt bs
  scale : ∃ n : ℤ, amountAt bs = n / 10 ^ scaleAt bs

theorem PositiveAt.posVar [Build] {bs : List (BitVec 8)} {a : Bin} (h : PositiveAt bs) (e : Untrusted.deserialize bs = .ok a) :
    Num.asBinary a = .ok () ∧ a.isNan = false ∧ a.asVar = .ok (varAt bs) ∧ PosVar (varAt bs) := by
  have hl := h.length
  obtain ⟨p1, p2, p3, p4, -⟩ := untrusted_operand (by omega) e h.not_nan
  exact ⟨p1, p2, p4, posVar_at hl (untrusted_source (by omega) e).1 h.not_nan p3 h.digits h.ne h.first h.sign h.scale⟩

theorem log_pos [Build] {lm : Libm} (hl : LibmOK lm) (fuel : Nat) {r : Bin} {u b : Var} (hu : PosVar u) (hb : PosVar b)
    (hu1 : (10:ℚ) ^ (-900:ℤ) ≤ |value u - 1|) (hb1 : (10:ℚ) ^ (-190:ℤ) ≤ |value b - 1|)
    (hr : (do let w ← Var.log lm fuel u b; Num.finishNoOverflow w) = .ok r) :
    ∃ (y : ℚ) (t : Int), Holds r y t ∧ min (max u.dscale b.dscale) 1000 ≤ t ∧ t ≤ 1000 ∧
      |(y:ℝ) - Real.logb (value b) (value u)| ≤ (51 / 100) * 10 ^ (-t) ∧
      (t = 1000 ∨ |(y:ℝ) - Real.logb (value b) (value u)| ≤ |Real.logb (value b) (value u)| / 10 ^ 14) := by
  have hun : Var.log lm fuel u b = logCommon lm fuel u b := by
    have h1 := hu.cmp_zero_pos
    have h2 := hb.cmp_zero_pos
    unfold Var.log
    rw [dassert_ok hu.not_nan, dassert_ok hb.not_nan]
    simp only [bind_ok]
    rw [if_neg (by omega), if_neg (by omega), if_neg (by omega), if_neg (by omega)]
  rw [hun] at hr
  obtain ⟨v, e1, e2⟩ := bind_elim hr
  have hne : value u ≠ 1 := by
    intro h; rw [h, sub_self, _root_.abs_zero] at hu1
    exact absurd hu1 (not_le.2 (T_zpow_pos _))
  obtain ⟨t, hw, ht1, ht2, hacc, hsig, hbig⟩ := logCommon_pos hl hu hb (fun h => absurd h hne) (.inr hu1) hb1 e1
  have hlim := log_lim hw hacc hbig
  obtain ⟨r', er, hr'⟩ := Num.finishNoOverflow_spec hw.digits hw.not_nan hw.dscale rfl hw.l_nonneg hw.l_le' hw.scale hlim
    (hw.sm_limit hlim).stripM
  have : r' = r := by
    have : (Except.ok r' : M Bin) = .ok r := er.symm.trans e2
    cases this; rfl
  subst this
  exact ⟨value v, t, hr', ht1, ht2, hacc, hsig⟩

/-- C91: the logarithm to any base, of positive numbers read from any bytes with proper digits: whenever it returns, it is a valid number within 0.51 units in its last place of the
logarithm of the amounts, with 14 correct significant digits unless its scale is 1000. -/
theorem C91_log [Build] {lm : Libm} (hl : LibmOK lm) (fuel : Nat) {bs cs : List (BitVec 8)} {a b r : Bin} (hb : PositiveAt bs) (hc : PositiveAt cs)
    (ea : Untrusted.deserialize bs = .ok a) (eb : Untrusted.deserialize cs = .ok b)
    (h1 : (10:ℚ) ^ (-900:ℤ) ≤ |amountAt bs - 1|) (h2 : (10:ℚ) ^ (-190:ℤ) ≤ |amountAt cs - 1|) (hr : Num.log lm fuel a b = .ok r) :
    ∃ (z : ℚ) (q : ℤ), Holds r z q ∧ min (max (scaleAt bs : ℤ) (scaleAt cs)) 1000 ≤ q ∧ q ≤ 1000 ∧
      |(z:ℝ) - Real.logb (amountAt cs) (amountAt bs)| ≤ (51 / 100) * 10 ^ (-q) ∧
      (q = 1000 ∨ |(z:ℝ) - Real.logb (amountAt cs) (amountAt bs)| ≤ |Real.logb (amountAt cs) (amountAt bs)| / 10 ^ 14) := by
  obtain ⟨p1, p2, p3, p4⟩ := hb.posVar ea
  obtain ⟨q1, q2, q3, q4⟩ := hc.posVar eb
  rw [log_unfold lm fuel p1 p2 p3 q1 q2 q3] at hr
  rw [← amount_var] at h1 h2 ⊢
  rw [← amount_var]
  exact log_pos hl fuel p4 q4 h1 h2 hr

/-- C91: `log2` and `log10`. -/
theorem C91_log2 [Build] {lm : Libm} (hl : LibmOK lm) (fuel : Nat) {bs : List (BitVec 8)} {a r : Bin} (hb : PositiveAt bs)
    (ea : Untrusted.deserialize bs = .ok a) (h1 : (10:ℚ) ^ (-900:ℤ) ≤ |amountAt bs - 1|) (hr : Num.log2 lm fuel a = .ok r) :
    ∃ (z : ℚ) (q : ℤ), Holds r z q ∧ min (scaleAt bs : ℤ) 1000 ≤ q ∧ q ≤ 1000 ∧ |(z:ℝ) - Real.logb 2 (amountAt bs)| ≤ (51 / 100) * 10 ^ (-q) ∧
      (q = 1000 ∨ |(z:ℝ) - Real.logb 2 (amountAt bs)| ≤ |Real.logb 2 (amountAt bs)| / 10 ^ 14) := by
  obtain ⟨p1, p2, p3, p4⟩ := hb.posVar ea
  unfold Num.log2 at hr
  simp only [p1, p2, p3, bind_ok, Bool.false_eq_true, if_false] at hr
  have h2 : value Var.two = 2 := by simp [value, mag, Var.two]
  rw [← amount_var] at h1 ⊢
  obtain ⟨z, q, h, h3, h4, h5, h6⟩ := log_pos hl fuel p4 (PosVar.of_canonical two_canonical (by rw [h2]; norm_num)) h1 (by rw [h2]; norm_num) hr
  rw [h2, Rat.cast_ofNat] at h5 h6
  have hd : (varAt bs).dscale = (scaleAt bs : ℤ) := rfl
  exact ⟨z, q, h, by simp only [Var.two] at h3; omega, h4, h5, h6⟩

theorem C91_log10 [Build] {lm : Libm} (hl : LibmOK lm) (fuel : Nat) {bs : List (BitVec 8)} {a r : Bin} (hb : PositiveAt bs)
    (ea : Untrusted.deserialize bs = .ok a) (h1 : (10:ℚ) ^ (-900:ℤ) ≤ |amountAt bs - 1|) (hr : Num.log10 lm fuel a = .ok r) :
    ∃ (z : ℚ) (q : ℤ), Holds r z q ∧ min (scaleAt bs : ℤ) 1000 ≤ q ∧ q ≤ 1000 ∧ |(z:ℝ) - Real.logb 10 (amountAt bs)| ≤ (51 / 100) * 10 ^ (-q) ∧
      (q = 1000 ∨ |(z:ℝ) - Real.logb 10 (amountAt bs)| ≤ |Real.logb 10 (amountAt bs)| / 10 ^ 14) := by
  obtain ⟨p1, p2, p3, p4⟩ := hb.posVar ea
  unfold Num.log10 at hr
  simp only [p1, p2, p3, bind_ok, Bool.false_eq_true, if_false] at hr
  have h2 : value Var.ten = 10 := by simp [value, mag, Var.ten]
  rw [← amount_var] at h1 ⊢
  obtain ⟨z, q, h, h3, h4, h5, h6⟩ := log_pos hl fuel p4 (PosVar.of_canonical ten_canonical (by rw [h2]; norm_num)) h1 (by rw [h2]; norm_num) hr
  rw [h2, Rat.cast_ofNat] at h5 h6
  have hd : (varAt bs).dscale = (scaleAt bs : ℤ) := rfl
  exact ⟨z, q, h, by simp only [Var.ten] at h3; omega, h4, h5, h6⟩

/-- The hypotheses are met: 5, with a zero behind it that a valid number does not have. -/
example : (∃ a, @Untrusted.deserialize (dbg false) (digitBytes2 5#8 0#8 0#8 0#8) = .ok a) ∧ @PositiveAt (dbg false) (digitBytes2 5#8 0#8 0#8 0#8) ∧
    (10:ℚ) ^ (-190:ℤ) ≤ |@amountAt (dbg false) (digitBytes2 5#8 0#8 0#8 0#8) - 1| := by
  have hg : ¬ negAt (digitBytes2 5#8 0#8 0#8 0#8) := by unfold negAt; decide
  have hd : @digitsAt (dbg false) (digitBytes2 5#8 0#8 0#8 0#8) = [5, 0] := rfl
  have ha : @amountAt (dbg false) (digitBytes2 5#8 0#8 0#8 0#8) = 5 := by
    unfold amountAt
    rw [if_neg hg, hd, show weightAt (digitBytes2 5#8 0#8 0#8 0#8) = 0 from rfl]
    simp [mag]
  refine ⟨⟨_, rfl⟩, @PositiveAt.mk (dbg false) _ (by simp [digitBytes2]) (by decide) (by rw [hd]; decide) (by rw [hd]; simp) (by rw [hd]; simp) hg ⟨5, ?_⟩, ?_⟩
  · rw [ha, show scaleAt (digitBytes2 5#8 0#8 0#8 0#8) = 0 from rfl]; norm_num
  · rw [ha]; norm_num

end PgNumeric.Props
