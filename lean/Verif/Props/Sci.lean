import Verif.Proofs.Sci
import Verif.Props.Log
import Verif.Proofs.Strtod
/-!
# Scientific notation (C35)
-/
namespace PgNumeric.Props
open PgNumeric Spec Var

theorem sci_unfold [Build] (lm : Libm) (c : ℕ) {a : Bin} {u : Var} (va : a.asVar = .ok u) :
    Num.sci lm c a = (do let s ← selectSciScale u; writeSci lm u s c) := by
  unfold Num.sci
  simp only [va, bind_ok]

/-- The exponent of a number in scientific notation is unique. -/
theorem sci_exponent {x : ℚ} {m p : ℕ} {e E : ℤ} (h : |x| = m * 10 ^ (e - p)) (h1 : 10 ^ p ≤ m) (h2 : m < 10 ^ (p + 1))
    (hE1 : 10 ^ E ≤ |x|) (hE2 : |x| < 10 ^ (E + 1)) : e = E := by
  have hT := T_zpow_pos (e - p)
  have a1 : (10:ℚ) ^ e ≤ |x| := by
    have : ((10 ^ p : ℕ) : ℚ) ≤ m := by exact_mod_cast h1
    calc (10:ℚ) ^ e = ((10 ^ p : ℕ) : ℚ) * 10 ^ (e - p) := by
          push_cast; rw [← zpow_natCast, ← zpow_add₀ (by norm_num)]; congr 1; ring
      _ ≤ _ := by rw [h]; exact mul_le_mul_of_nonneg_right this hT.le
  have a2 : |x| < (10:ℚ) ^ (e + 1) := by
    have : (m : ℚ) < ((10 ^ (p + 1) : ℕ) : ℚ) := by exact_mod_cast h2
    calc |x| < ((10 ^ (p + 1) : ℕ) : ℚ) * 10 ^ (e - p) := by rw [h]; exact mul_lt_mul_of_pos_right this hT
      _ = _ := by push_cast; rw [← zpow_natCast, ← zpow_add₀ (by norm_num)]; congr 1; push_cast; ring
  have b1 := T_zpow_lt_iff.1 (lt_of_le_of_lt a1 hE2)
  have b2 := T_zpow_lt_iff.1 (lt_of_le_of_lt hE1 a2)
  omega

theorem sci_all [Build] {lm : Libm} (hl : LibmOK lm) {a : Bin} {x : ℚ} {s : Int} (ha : Holds a x s) (hx : x ≠ 0) {E : ℤ}
    (hE1 : 10 ^ E ≤ |x|) (hE2 : |x| < 10 ^ (E + 1)) (c : ℕ) :
    ∃ m p : ℕ, |x| = m * 10 ^ (E - p) ∧ 10 ^ p ≤ m ∧ m < 10 ^ (p + 1) ∧ m % 10 ≠ 0 ∧
      (-1001 ≤ E → Num.sci lm c a = .ok (sciText (decide (x < 0)) m p E c)) ∧
      (E < -1001 → Num.sci lm c a = .error (.panic DIVIDE_BY_ZERO_MSG)) := by
  obtain ⟨u, hu, rfl, rfl, -, -, va⟩ := ha.exists_var
  have hne : u.digits ≠ [] := fun h => hx ((stripped_zero_iff hu.digits hu.stripped).2 h)
  obtain ⟨m, p, hsel, hval, hm1, hm2, hm10, h1, h2⟩ := sci_spec hl hu hne c
  have := sci_exponent hval hm1 hm2 hE1 hE2
  rw [sci_unfold lm c va]
  simp only [hsel, bind_ok]
  rw [this] at hval h1 h2
  exact ⟨m, p, hval, hm1, hm2, hm10, h1, h2⟩

/-- C35: a non-zero number with decimal exponent `E ≥ -1001` is written as `d.ddd…e±EE`: one non-zero digit before the
point, no trailing zero, and a value that is exactly the number. -/
theorem C35_scientific [Build] {lm : Libm} (hl : LibmOK lm) {a : Bin} {x : ℚ} {s : Int} (ha : Holds a x s) (hx : x ≠ 0) {E : ℤ}
    (hE1 : 10 ^ E ≤ |x|) (hE2 : |x| < 10 ^ (E + 1)) (hE : -1001 ≤ E) (c : ℕ) :
    ∃ m p : ℕ, Num.sci lm c a = .ok (sciText (decide (x < 0)) m p E c) ∧ |x| = m * 10 ^ (E - p) ∧
      1 ≤ m / 10 ^ p ∧ m / 10 ^ p ≤ 9 ∧ m % 10 ≠ 0 := by
  obtain ⟨m, p, hval, hm1, hm2, hm10, h1, -⟩ := sci_all hl ha hx hE1 hE2 c
  refine ⟨m, p, h1 hE, hval, ?_, ?_, hm10⟩
  · exact (Nat.one_le_div_iff (by positivity)).2 hm1
  · have : m / 10 ^ p < 10 := by rw [Nat.div_lt_iff_lt_mul (by positivity), mul_comm, ← pow_succ]; exact hm2
    omega

/-- C35, defect: below `10^-1001` scientific notation panics with "attempt to divide by zero", for every number the
library can store. -/
theorem C35_tiny_panics [Build] {lm : Libm} (hl : LibmOK lm) {a : Bin} {x : ℚ} {s : Int} (ha : Holds a x s) (hx : x ≠ 0)
    (hlt : |x| < 10 ^ (-1001 : ℤ)) (c : ℕ) : Num.sci lm c a = .error (.panic DIVIDE_BY_ZERO_MSG) := by
  obtain ⟨u, hu, rfl, rfl, -, -, va⟩ := ha.exists_var
  have hne : u.digits ≠ [] := fun h => hx ((stripped_zero_iff hu.digits hu.stripped).2 h)
  obtain ⟨m, p, hsel, hval, hm1, hm2, hm10, h1, h2⟩ := sci_spec hl hu hne c
  rw [sci_unfold lm c va]
  simp only [hsel, bind_ok]
  apply h2
  have hT := T_zpow_pos (sciExponent lm u - p)
  have a1 : (10:ℚ) ^ sciExponent lm u ≤ |value u| := by
    have : ((10 ^ p : ℕ) : ℚ) ≤ m := by exact_mod_cast hm1
    calc (10:ℚ) ^ sciExponent lm u = ((10 ^ p : ℕ) : ℚ) * 10 ^ (sciExponent lm u - p) := by
          push_cast; rw [← zpow_natCast, ← zpow_add₀ (by norm_num)]; congr 1; ring
      _ ≤ _ := by rw [hval]; exact mul_le_mul_of_nonneg_right this hT.le
  exact T_zpow_lt_iff.1 (lt_of_le_of_lt a1 hlt)

/-- C35: zero, whatever its scale, is written `0e+00` (or `0E+00`). -/
theorem C35_zero [Build] (lm : Libm) {a : Bin} {s : Int} (ha : Holds a 0 s) (c : ℕ) :
    Num.sci lm c a = .ok ([48] ++ c :: [43, 48, 48]) := by
  obtain ⟨u, hu, hu0, rfl, -, -, va⟩ := ha.exists_var
  have hne : u.digits = [] := (stripped_zero_iff hu.digits hu.stripped).1 hu0
  rw [sci_unfold lm c va]
  have hs : selectSciScale u = .ok 0 := by unfold selectSciScale; rw [hne]; rfl
  have he : sciExponent lm u = 0 := by unfold sciExponent; rw [hne]
  have hp : powerInt lm ten 0 0 = .ok (some one) := by
    unfold powerInt; rw [dassert_ok ten_powOK.not_nan]; rfl
  obtain ⟨q, eq, hq⟩ := divCommon_spec u one hu.small one_small 0 (by norm_num) true hu.digits one_powOK.digits hu.not_nan one_powOK.not_nan
    one_powOK.digits_ne one_powOK.stripped.1 (by norm_num) (.inl (by norm_num))
  rw [if_pos rfl, hu0, one_powOK.value] at hq
  have h0 : roundHalfAway ((0:ℚ) / ((1:ℤ):ℚ)) 0 = 0 := by
    rw [rmag_eq_self_iff ⟨0, by norm_num⟩]; norm_num
  rw [h0] at hq
  have hw := Text.write_spec' (s := 0) (N := 0) hq hq.value hq.dscale (by simp)
    (hq.small ⟨0, by simp⟩ (by norm_num) (by rw [abs_zero]; exact lt_huge limit_pos)) (by norm_num)
  simp only [hs, bind_ok]
  unfold writeSci
  have := hu.weight_le
  have := hu.weight_ge
  rw [if_neg hu.not_nan, he, fits_ok (by fits_tac), bind_ok]
  simp only [lt_irrefl, if_false, hp, bind_ok, expect, eq, hw, pure_ok]
  rw [show (decimalText (decide False) 0 0) = [48] by decide +kernel, show expText 0 = [43, 48, 48] by decide +kernel]

/-- C35: `NaN` is written `NaN`. -/
theorem C35_nan [Build] (lm : Libm) {a : Bin} (ha : IsNaN a) (c : ℕ) : Num.sci lm c a = .ok (str "NaN") := by
  rw [sci_unfold lm c ha.facts.2.2]
  have hs : selectSciScale Var.nan = .ok 0 := rfl
  simp only [hs, bind_ok]
  unfold writeSci
  rw [if_pos nan_sign]
  rfl

theorem exponentText_numeral (E : ℤ) (c : ℕ) (hc : c = 101 ∨ c = 69) : Exponent (c :: exponentText E) E := by
  refine .inr ⟨c, [if E < 0 then 45 else 43], (if E.natAbs < 10 then [48, 48 + E.natAbs] else natText E.natAbs), decide (E < 0), hc, ?_, ?_, ?_,
    rfl, ?_⟩
  · by_cases h : E < 0
    · rw [if_pos h, decide_eq_true h]; exact .minus
    · rw [if_neg h, decide_eq_false h]; exact .plus
  · split
    · intro d hd
      simp at hd
      omega
    · exact (Text.natText_dec _).1
  · split
    · simp
    · exact (Text.natText_dec _).2.1
  · have : numVal (if E.natAbs < 10 then [48, 48 + E.natAbs] else natText E.natAbs) = E.natAbs := by
      split
      · simp [numVal]
      · exact (Text.natText_dec _).2.2
    rw [this]
    by_cases h : E < 0
    · rw [decide_eq_true h, if_pos rfl]; omega
    · rw [decide_eq_false h, if_neg (by simp)]; omega

theorem sciText_numeral (neg : Bool) (m p : ℕ) (E : ℤ) (c : ℕ) (hc : c = 101 ∨ c = 69) :
    Numeral (sciText neg m p E c) neg (natText (m / 10 ^ p)) (fixedText p m) E := by
  refine ⟨if neg then [45] else [], if p = 0 then [] else [46], c :: exponentText E, ?_, (Text.natText_dec _).1, (Text.fixedText_dec _ _).1,
    ?_, ?_, exponentText_numeral E c hc, ?_⟩
  · cases neg
    · exact SignOf.none
    · exact SignOf.minus
  · simp [(Text.natText_dec (m / 10 ^ p)).2.1]
  · by_cases h : p = 0
    · right; subst h; exact ⟨rfl, rfl⟩
    · left; rw [if_neg h]
  · unfold sciText decimalText
    by_cases h : p = 0
    · subst h; simp [fixedText]
    · simp [h]

theorem sciText_value (neg : Bool) (m p : ℕ) (E : ℤ) :
    numeralValue neg (natText (m / 10 ^ p)) (fixedText p m) E = (if neg then -1 else 1) * ((m : ℚ) * 10 ^ (E - p)) := by
  unfold numeralValue
  rw [Parse.numVal_append, (Text.natText_dec _).2.2, (Text.fixedText_dec _ _).2, Text.fixedText_length, Nat.div_add_mod', mul_assoc]

/-- C35: reading the scientific text back gives a numeric equal to the original. -/
theorem C35_parse_back [Build] {lm : Libm} (hl : LibmOK lm) {a : Bin} {x : ℚ} {s : Int} (ha : Holds a x s) (hx : x ≠ 0)
    (hE : 10 ^ (-1001 : ℤ) ≤ |x|) (c : ℕ) (hc : c = 101 ∨ c = 69) :
    ∃ t r s', Num.sci lm c a = .ok t ∧ Parse.fromStr t = .ok (.ok r) ∧ Holds r x s' ∧ s' ≤ s := by
  obtain ⟨u, hu, rfl, rfl, -, -, va⟩ := ha.exists_var
  have hne : u.digits ≠ [] := fun h => hx ((stripped_zero_iff hu.digits hu.stripped).2 h)
  obtain ⟨m, p, hsel, hval, hm1, hm2, hm10, h1, h2⟩ := sci_spec hl hu hne c
  rw [sci_unfold lm c va]
  simp only [hsel, bind_ok]
  generalize sciExponent lm u = E at *
  have hT := T_zpow_pos (E - p)
  have a1 : (10:ℚ) ^ E ≤ |value u| := by
    have : ((10 ^ p : ℕ) : ℚ) ≤ m := by exact_mod_cast hm1
    calc (10:ℚ) ^ E = ((10 ^ p : ℕ) : ℚ) * 10 ^ (E - p) := by
          push_cast; rw [← zpow_natCast, ← zpow_add₀ (by norm_num)]; congr 1; ring
      _ ≤ _ := by rw [hval]; exact mul_le_mul_of_nonneg_right this hT.le
  have a2 : |value u| < (10:ℚ) ^ (E + 1) := by
    have : (m : ℚ) < ((10 ^ (p + 1) : ℕ) : ℚ) := by exact_mod_cast hm2
    calc |value u| < ((10 ^ (p + 1) : ℕ) : ℚ) * 10 ^ (E - p) := by rw [hval]; exact mul_lt_mul_of_pos_right this hT
      _ = _ := by push_cast; rw [← zpow_natCast, ← zpow_add₀ (by norm_num)]; congr 1; push_cast; ring
  have hEl : -1001 ≤ E := by
    have := T_zpow_lt_iff.1 (lt_of_le_of_lt hE a2); omega
  have hEu : E < 131072 := by
    have h := lt_of_le_of_lt a1 hu.abs_lt
    unfold limit at h
    rw [show (10:ℚ) ^ (131072:ℕ) = 10 ^ (131072:ℤ) by rw [← zpow_natCast]; rfl, T_zpow_lt_iff] at h
    exact h
  have hpE : (p:ℤ) - E ≤ u.dscale := by
    obtain ⟨n, hn⟩ := hu.scale.abs
    by_contra hlt
    push Not at hlt
    have hn' : (m:ℚ) = 10 * (((n * 10 ^ (p - E - u.dscale - 1).toNat : ℤ)) : ℚ) := by
      push_cast
      rw [← hn, hval, ← zpow_natCast (10:ℚ) (Int.toNat _), Int.toNat_of_nonneg (by omega)]
      have : (10:ℚ) * (m * 10 ^ (E - p) * 10 ^ u.dscale * 10 ^ (p - E - u.dscale - 1)) = m * 10 ^ (1 + (E - p) + u.dscale + (p - E - u.dscale - 1)) := by
        rw [zpow_add₀ (by norm_num), zpow_add₀ (by norm_num), zpow_add₀ (by norm_num), zpow_one]; ring
      rw [this, show 1 + (E - p) + u.dscale + (p - E - u.dscale - 1) = (0:ℤ) by ring]; simp
    have h10 : (m:ℤ) = 10 * (n * 10 ^ (p - E - u.dscale - 1).toNat) := by exact_mod_cast hn'
    generalize n * 10 ^ (p - E - u.dscale - 1).toNat = k at h10
    omega
  have hds := hu.dscale_le
  have hds0 := hu.dscale_nonneg
  rw [h1 hEl]
  have hn := sciText_numeral (decide (value u < 0)) m p E c hc
  have hint : (natText (m / 10 ^ p)).length ≤ 1 := Text.natText_length_le (by norm_num) (by
    rw [pow_one, Nat.div_lt_iff_lt_mul (by positivity), mul_comm, ← pow_succ]; exact hm2)
  have hel : (exponentText E).length ≤ 10 := by
    unfold exponentText
    have : (natText E.natAbs).length ≤ 9 := Text.natText_length_le (by norm_num) (by omega)
    split_ifs <;> simp <;> omega
  have hbody : (sciText (decide (value u < 0)) m p E c).length < 536870912 := by
    unfold sciText decimalText
    simp only [List.length_append, List.length_cons]
    split <;> split <;> simp [Text.fixedText_length] <;> omega
  obtain ⟨r, e, hr⟩ := (Parse.fromStr_numeral (w₁ := []) (w₂ := []) (by simp [White]) (by simp [White]) hn hbody).1
    ⟨by rw [abs_lt]; constructor <;> simp only [Parse.LIM, exponentLimit] <;> omega, by rw [Text.fixedText_length]; omega, by omega⟩
  rw [List.nil_append, List.append_nil] at e
  rw [sciText_value, ← hval, Text.fixedText_length] at hr
  have e1 : (if (decide (value u < 0)) = true then -1 else 1) * |value u| = value u := by
    by_cases h : value u < 0
    · simp [h, abs_of_neg h]
    · simp [h, abs_of_nonneg (not_lt.1 h)]
  rw [e1] at hr
  exact ⟨_, r, _, rfl, e, hr, by omega⟩

/-! ## Witnesses -/

/-- The hypothesis `LibmOK` is satisfiable. -/
example : ∃ lm : Libm, LibmOK lm := by
  have h : ∀ y : ℝ, ∃ q : ℚ, |(q:ℝ) - y| ≤ 1 / 10 ^ 10 := fun y => by
    obtain ⟨q, h1, h2⟩ := exists_rat_btwn (show y < y + 1 / 10 ^ 10 by norm_num)
    exact ⟨q, by rw [abs_le]; constructor <;> linarith⟩
  choose f hf using h
  refine ⟨⟨fun x => if x = 1 then 0 else if x = 10 then 1 else if x = 100 then 2 else if x = 1000 then 3 else f (Real.logb 10 x),
    fun x => f (Real.log x), exactStrtod⟩, ?_, ?_, ?_, exactStrtod_ok⟩
  · intro x h1 h2
    dsimp only
    have hp : ∀ k : ℕ, |((k:ℚ):ℝ) - Real.logb 10 ((10:ℝ) ^ k)| ≤ 1 / 10 ^ 10 := fun k => by
      rw [Real.logb_pow, Real.logb_self_eq_one (by norm_num)]; norm_num
    split_ifs with a b c d
    · subst a; simp
    · subst b; simp
    · have := hp 2; subst c; norm_num at this ⊢; exact this
    · have := hp 3; subst d; norm_num at this ⊢; exact this
    · exact hf _
  · intro k hk
    interval_cases k <;> norm_num
  · intro k _ _
    exact hf _

/-- A number to which the theorems apply. -/
example [Build] : ∃ b, Holds b (-1234500) 2 ∧ (10:ℚ) ^ (6:ℤ) ≤ |(-1234500 : ℚ)| ∧ |(-1234500 : ℚ)| < 10 ^ ((6:ℤ) + 1) := by
  obtain ⟨b, hb⟩ := witness (x := -1234500) (s := 2) (-123450000) (by norm_num) (by norm_num) (by norm_num) (by norm_num [abs_lt])
  exact ⟨b, hb, by norm_num, by norm_num⟩

/-- `-1234500.00` is written `-1.2345e+06`. -/
example [Build] {lm : Libm} (hl : LibmOK lm) {b : Bin} (hb : Holds b (-1234500) 2) : Num.sci lm 101 b = .ok (str "-1.2345e+06") := by
  obtain ⟨m, p, e, h1, h2, h3, h4⟩ := C35_scientific hl hb (by norm_num) (E := 6) (by norm_num) (by norm_num) (by norm_num) 101
  have hm : m * 10 ^ 4 = 12345 * 10 ^ p := by
    have : (m:ℚ) * 10 ^ 4 = 12345 * 10 ^ p := by
      rw [show |(-1234500:ℚ)| = 1234500 by norm_num, zpow_sub₀ (by norm_num), zpow_natCast] at h1
      field_simp at h1
      norm_num at h1 ⊢
      linarith
    exact_mod_cast this
  have hp : p = 4 := by
    have h5 : p ≤ 4 ∨ 5 ≤ p := by omega
    rcases h5 with h5 | h5
    · interval_cases p <;> omega
    · obtain ⟨k, rfl⟩ := Nat.exists_eq_add_of_le h5
      rw [pow_add] at hm
      omega
  subst hp
  have : m = 12345 := by omega
  subst this
  rw [e]
  decide +kernel

end PgNumeric.Props
