import Verif.Proofs.ToFloat32
import Verif.Proofs.Float
/-!
# Rounding of signed numbers, and decimal-binary-decimal round trips
-/
namespace PgNumeric
open Spec F64

namespace F64.Format
variable {F : Format} {x y : ℚ}

theorem signed_neg (F : Format) (x : ℚ) : F.signed (-x) = -F.signed x := by
  unfold signed
  rcases lt_trichotomy x 0 with h | rfl | h
  · rw [if_neg (by linarith), if_pos h, abs_neg, neg_neg]
  · simp [nearest_zero]
  · rw [if_pos (by linarith), if_neg (by linarith), abs_neg]

theorem signed_nonneg (h : 0 ≤ x) : F.signed x = F.nearest x := by
  unfold signed
  rw [if_neg (not_lt.2 h), abs_of_nonneg h]

theorem abs_signed (F : Format) (x : ℚ) : |F.signed x| = F.nearest |x| := by
  have := nearest_nonneg (F := F) (abs_nonneg x)
  unfold signed
  split
  · rw [abs_neg, abs_of_nonneg this]
  · rw [abs_of_nonneg this]

theorem signed_mono (hP : 1 ≤ F.prec) (h : x ≤ y) : F.signed x ≤ F.signed y := by
  rcases le_total 0 x with hx | hx
  · rw [signed_nonneg hx, signed_nonneg (hx.trans h)]
    exact nearest_mono hP hx h
  · have hx' := nearest_nonneg (F := F) (q := -x) (by linarith)
    rw [← neg_neg x, signed_neg, signed_nonneg (x := -x) (by linarith)]
    rcases le_total 0 y with hy | hy
    · rw [signed_nonneg hy]
      have := nearest_nonneg (F := F) hy
      linarith
    · rw [← neg_neg y, signed_neg, signed_nonneg (x := -y) (by linarith)]
      have := nearest_mono (F := F) hP (a := -y) (b := -x) (by linarith) (by linarith)
      linarith

theorem signed_self (hP : 1 ≤ F.prec) {E : ℤ} (h : Representable F.prec F.emin E x) : F.signed x = x := by
  obtain ⟨m, e, hm, he, -, rfl⟩ := h
  rcases le_total 0 ((m:ℚ) * 2 ^ e) with hx | hx
  · rw [signed_nonneg hx]
    exact nearest_self hP hx hm he rfl
  · rw [← neg_neg ((m:ℚ) * 2 ^ e), signed_neg, signed_nonneg (by linarith)]
    congr 1
    exact nearest_self hP (by linarith) (m := -m) (by rw [abs_neg]; exact hm) he (by push_cast; ring)

theorem signed_rep (hP : 1 ≤ F.prec) (hE : F.emin + F.prec ≤ F.emax) (h : F.nearest |x| < 2 ^ F.emax) :
    Representable F.prec F.emin F.emax (F.signed x) := by
  obtain ⟨m, e, h1, h2, h3, h4⟩ := nearest_rep hP hE (abs_nonneg x) h
  unfold signed
  split
  · exact ⟨-m, e, by rwa [abs_neg], h2, h3, by rw [h4]; push_cast; ring⟩
  · exact ⟨m, e, h1, h2, h3, h4⟩

theorem signed_nearest (hP : 1 ≤ F.prec) (hE : F.emin + F.prec ≤ F.emax) (h : F.nearest |x| < 2 ^ F.emax) :
    Nearest (Representable F.prec F.emin F.emax) x (F.signed x) := by
  refine ⟨signed_rep hP hE h, ?_⟩
  rintro g ⟨m, e, hm, he, -, rfl⟩
  rcases lt_trichotomy x 0 with hx | rfl | hx
  · have := nearest_best (F := F) hP (q := -x) (by linarith) (m := -m) (by rwa [abs_neg]) he
    rw [← neg_neg x, signed_neg, signed_nonneg (x := -x) (by linarith)]
    rw [← abs_neg, ← abs_neg ((m:ℚ) * 2 ^ e - _)]
    refine le_trans (le_of_eq ?_) (this.trans (le_of_eq ?_)) <;> congr 1 <;> push_cast <;> ring
  · rw [signed_nonneg le_rfl, nearest_zero, sub_zero, abs_zero]; exact abs_nonneg _
  · rw [signed_nonneg hx.le]
    exact nearest_best hP hx hm he

/-- No number of the format lies strictly between `x` and its image. -/
theorem signed_faithful (hP : 1 ≤ F.prec) {g : ℚ} {E : ℤ} (h : Representable F.prec F.emin E g) :
    (g ≤ x → g ≤ F.signed x) ∧ (x ≤ g → F.signed x ≤ g) :=
  ⟨fun hx => (signed_self hP h).symm.le.trans (signed_mono hP hx), fun hx => (signed_mono hP hx).trans (signed_self hP h).le⟩

end F64.Format

/-- A single is a double. -/
theorem single_rep_double {g : ℚ} (h : IsSingle g) : Representable double.prec double.emin double.emax g := by
  obtain ⟨m, e, h1, h2, h3, h4⟩ := h
  refine ⟨m, e, h1.trans (by decide), ?_, ?_, h4⟩
  · show (-1074:ℤ) ≤ e; omega
  · show e + ((53:ℕ):ℤ) ≤ 1024; push_cast at h3 ⊢; omega

/-! ## Decimal digits survive -/

theorem roundHalfEven_eq {t : ℚ} {n : ℤ} (h : |t - n| < 1 / 2) : roundHalfEven t = n := by
  have h1 := Convert.roundHalfEven_near t
  have h2 : |(roundHalfEven t : ℚ) - n| < 1 := by
    have := abs_sub_le (roundHalfEven t : ℚ) t n
    linarith
  have h3 : |roundHalfEven t - n| < 1 := by exact_mod_cast h2
  have := abs_lt.1 h3
  omega

/-- The value of `sigRound`, whichever branch it takes. -/
theorem sigRound_eq {P : ℕ} (hP : 0 < P) {q : ℚ} (hq : 0 < q) {n : ℤ} (hn : 0 ≤ n)
    (h : |q * 10 ^ ((P : ℤ) - 1 - Int.log 10 q) - n| < 1 / 2) : sigRound P q = n * 10 ^ (Int.log 10 q - P + 1) := by
  unfold sigRound sigDigits
  rw [if_neg hq.ne']
  simp only [roundHalfEven_eq h]
  have hc : ((n.toNat : ℕ) : ℚ) = n := by
    have : ((n.toNat : ℕ) : ℤ) = n := Int.toNat_of_nonneg hn
    exact_mod_cast this
  split
  · rename_i h10
    rw [← hc, h10]
    push_cast
    rw [← zpow_natCast, ← zpow_natCast, ← zpow_add₀ (by norm_num), ← zpow_add₀ (by norm_num)]
    congr 1
    omega
  · rw [hc]

/-- A number with at most `P` digits, disturbed by less than a third of `10^-P` of itself, is restored by rounding to `P` digits. -/
theorem sigRound_restores {P : ℕ} (hP : 0 < P) {x d : ℚ} (hx : 0 < x) (hs : SigDigits P x) (hd : |d - x| ≤ x / (3 * 10 ^ P)) :
    sigRound P d = x := by
  have hP10 : (10:ℚ) ≤ 10 ^ P := by
    calc (10:ℚ) = 10 ^ 1 := by norm_num
      _ ≤ 10 ^ P := pow_le_pow_right₀ (by norm_num) hP
  have hd1 := abs_le.1 hd
  have hε : x / (3 * 10 ^ P) ≤ x / 30 := div_le_div_of_nonneg_left hx.le (by norm_num) (by linarith)
  have hd0 : 0 < d := by linarith
  obtain ⟨n, k, hn, hxe⟩ := hs
  have hnpos : 0 < n := by
    have : (0:ℚ) < n := by
      by_contra hc
      push Not at hc
      have := mul_nonpos_of_nonpos_of_nonneg hc (T_zpow_pos k).le
      rw [← hxe] at this
      linarith
    exact_mod_cast this
  obtain ⟨E, hE⟩ : ∃ E, E = Int.log 10 d := ⟨_, rfl⟩
  have l1 := Int.zpow_log_le_self (b := 10) (by norm_num) hd0
  have l2 := Int.lt_zpow_succ_log_self (b := 10) (by norm_num) d
  push_cast at l1 l2
  rw [← hE] at l1 l2
  have hnP : (n:ℚ) < 10 ^ P := by
    have : n < 10 ^ P := lt_of_le_of_lt (le_abs_self n) hn
    exact_mod_cast this
  -- the exponent of the last digit
  have hk : E - P + 1 ≤ k := by
    by_contra hc
    push Not at hc
    -- then `x < 10^(k+P)`, both are multiples of `10^k`, and `d ≥ 10^E ≥ 10^(k+P)`
    have hn1 : (n:ℚ) + 1 ≤ 10 ^ P := by
      have h1 : n < 10 ^ P := lt_of_le_of_lt (le_abs_self n) hn
      have h2 : n + 1 ≤ 10 ^ P := h1
      exact_mod_cast h2
    have h1 : (10:ℚ) ^ (k + P) ≤ 10 ^ E := T_zpow_le_iff.2 (by omega)
    rw [zpow_add₀ (by norm_num), zpow_natCast] at h1
    have hk0 := T_zpow_pos k
    have h2 : (10:ℚ) ^ k ≤ d - x := by rw [hxe]; nlinarith
    have h3 : x / (3 * 10 ^ P) < 10 ^ k := by
      rw [div_lt_iff₀ (by positivity), hxe]
      nlinarith
    linarith
  obtain ⟨j, hj⟩ : ∃ j : ℕ, k = E - P + 1 + j := ⟨(k - (E - P + 1)).toNat, by omega⟩
  have hx2 : x = ((n * 10 ^ j : ℤ) : ℚ) * 10 ^ (E - P + 1) := by
    rw [hxe, hj, zpow_add₀ (by norm_num) (E - P + 1), zpow_natCast]
    push_cast; ring
  have hu := T_zpow_pos (E - P + 1)
  have hinv : (10:ℚ) ^ ((P : ℤ) - 1 - E) * 10 ^ (E - P + 1) = 1 := by
    rw [← zpow_add₀ (by norm_num)]
    have : (P : ℤ) - 1 - E + (E - P + 1) = 0 := by ring
    rw [this, zpow_zero]
  rw [sigRound_eq hP hd0 (n := n * 10 ^ j) (by positivity), ← hE, ← hx2]
  rw [← hE]
  have hp' := T_zpow_pos ((P : ℤ) - 1 - E)
  have e1 : d * 10 ^ ((P : ℤ) - 1 - E) - ((n * 10 ^ j : ℤ) : ℚ) = (d - x) * 10 ^ ((P : ℤ) - 1 - E) := by
    rw [hx2, sub_mul, mul_assoc (((n * 10 ^ j : ℤ) : ℚ)), mul_comm ((10:ℚ) ^ (E - P + 1)), hinv, mul_one]
  rw [e1, abs_mul, abs_of_pos hp']
  have h4 : x ≤ 30 / 29 * d := by linarith
  have h5 : (10:ℚ) ^ (E + 1) = 10 ^ P * 10 ^ (E - P + 1) := by
    rw [← zpow_natCast, ← zpow_add₀ (by norm_num)]; congr 1; ring
  have h6 : x / (3 * 10 ^ P) < 1 / 2 * 10 ^ (E - P + 1) := by
    rw [div_lt_iff₀ (by positivity)]
    rw [h5] at l2
    nlinarith
  calc |d - x| * 10 ^ ((P : ℤ) - 1 - E) < 1 / 2 * 10 ^ (E - P + 1) * 10 ^ ((P : ℤ) - 1 - E) :=
        mul_lt_mul_of_pos_right (lt_of_le_of_lt hd h6) hp'
    _ = 1 / 2 := by rw [mul_assoc, mul_comm ((10:ℚ) ^ (E - P + 1)), hinv, mul_one]

end PgNumeric
