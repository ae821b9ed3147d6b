import Verif.Proofs.Ieee
import Verif.Proofs.Text
import Verif.SpecLibm
/-!
# The conversion to `f64`: text, then the nearest double
-/
namespace PgNumeric
open Spec F64

/-- `f` is the number of the format nearest to `x`, up to the sign of a zero. -/
def RoundsTo (F : Format) (x : ℚ) (f : Convert.Float) : Prop :=
  f = F.round (decide (x < 0)) |x| ∨ (F.nearest |x| = 0 ∧ f = .fin (!decide (x < 0)) 0)

/-- The signed nearest number. -/
def F64.Format.signed (F : Format) (x : ℚ) : ℚ := if x < 0 then -F.nearest |x| else F.nearest |x|

theorem F64.Format.signed_err (F : Format) (x : ℚ) : |F.signed x - x| = |F.nearest (|x|) - (|x|)| := by
  unfold Format.signed
  split
  · rename_i h
    rw [abs_of_neg h]
    rw [← abs_neg]; congr 1; ring
  · rename_i h
    rw [abs_of_nonneg (not_lt.1 h)]

theorem round_fin {F : Format} {neg : Bool} {q : ℚ} (h : F.nearest q < 2 ^ F.emax) : F.round neg q = .fin neg (F.nearest q) := by
  unfold Format.round; rw [if_neg (not_le.2 h)]

theorem round_inf {F : Format} {neg : Bool} {q : ℚ} (h : 2 ^ F.emax ≤ F.nearest q) : F.round neg q = .inf neg := by
  unfold Format.round; rw [if_pos h]

/-- Below the threshold the result is finite, and its value is the signed nearest number. -/
theorem RoundsTo.value {F : Format} {x : ℚ} {f : Convert.Float} (h : RoundsTo F x f) (hlt : F.nearest |x| < 2 ^ F.emax) :
    FloatIs f (F.signed x) := by
  rcases h with rfl | ⟨h0, rfl⟩
  · rw [round_fin hlt]
    unfold FloatIs Format.signed
    by_cases h : x < 0 <;> simp [h]
  · unfold FloatIs Format.signed
    rw [h0]; simp

theorem RoundsTo.inf {F : Format} {x : ℚ} {f : Convert.Float} (h : RoundsTo F x f) (hle : 2 ^ F.emax ≤ F.nearest |x|) :
    f = .inf (decide (x < 0)) := by
  rcases h with rfl | ⟨h0, rfl⟩
  · rw [round_inf hle]
  · rw [h0] at hle
    exact absurd hle (not_le.2 (two_pos _))

namespace Convert

/-- The text of a variable is read as the nearest double. -/
theorem text_spec [Build] {strtod : Str → Option Float} (h : StrtodOK strtod) {v : Var} (hd : Digits v.digits) (hn : v.sign ≠ .nan)
    (hst : Stripped v) (h0 : 0 ≤ v.dscale) (hs : HasScale (value v) v.dscale) (hsm : Small v) (hds : v.dscale ≤ 1000000000) :
    ∃ s f, Text.write v = .ok s ∧ strtod s = some f ∧ RoundsTo double (value v) f := by
  obtain ⟨s, hs'⟩ := Int.eq_ofNat_of_zero_le h0
  obtain ⟨n, hnn⟩ := hs
  have hN : |value v| * 10 ^ s = (n.natAbs : ℕ) := by
    rw [hs', zpow_natCast] at hnn
    have : |value v| * 10 ^ s = |value v * 10 ^ s| := by rw [abs_mul, abs_of_pos (by positivity : (0:ℚ) < 10 ^ s)]
    rw [this, hnn, ← Int.cast_abs, Int.abs_eq_natAbs]
    rfl
  obtain ⟨f, e, hf⟩ := h (decide (value v < 0)) n.natAbs s
  have hq : ((n.natAbs : ℕ) : ℚ) / 10 ^ s = |value v| := by rw [← hN]; field_simp
  rw [hq] at hf
  refine ⟨_, f, Text.write_spec' ⟨hd, hn, hst, rfl, rfl⟩ rfl hs' hN hsm (by omega), e, ?_⟩
  rcases hf with h | ⟨h1, h2⟩
  · exact .inl h
  · right
    refine ⟨?_, h2⟩
    by_cases hc : (2:ℚ) ^ double.emax ≤ double.nearest |value v|
    · rw [round_inf hc] at h1; cases h1
    · rw [round_fin (not_le.1 hc)] at h1
      injection h1

theorem toF64_spec [Build] {strtod : Str → Option Float} (h : StrtodOK strtod) {v : Var} (hd : Digits v.digits) (hn : v.sign ≠ .nan)
    (hst : Stripped v) (h0 : 0 ≤ v.dscale) (hs : HasScale (value v) v.dscale) (hsm : Small v) (hds : v.dscale ≤ 1000000000) :
    ∃ f, toF64 strtod v = .ok (.ok f) ∧ RoundsTo double (value v) f := by
  obtain ⟨s, f, e1, e2, hf⟩ := text_spec h hd hn hst h0 hs hsm hds
  refine ⟨f, ?_, hf⟩
  unfold toF64
  rw [if_neg hn]
  simp only [e1, e2, bind_ok, pure_ok]

end Convert

theorem double_overflow {q : ℚ} (hq : 0 ≤ q) :
    (2:ℚ) ^ double.emax ≤ double.nearest q ↔ (2:ℚ) ^ 1024 - 2 ^ 970 ≤ q := by
  rw [Format.overflow_iff (by decide) (by decide) hq]
  show (2:ℚ) ^ (1024 : ℤ) - 2 ^ (1024 - ((53:ℕ):ℤ) - 1) ≤ q ↔ _
  rw [show (2:ℚ) ^ (1024 - ((53:ℕ):ℤ) - 1) = 2 ^ (970:ℕ) by rw [← zpow_natCast]; norm_num,
    show (2:ℚ) ^ (1024:ℤ) = 2 ^ (1024:ℕ) by rw [← zpow_natCast]; rfl]

theorem big_limit : (10:ℚ) ^ 300 ≤ 2 ^ 1024 - 2 ^ 970 := by
  have : (10:ℤ) ^ 300 ≤ 2 ^ 1024 - 2 ^ 970 := by decide +kernel
  exact_mod_cast this

/-- The double is accurate to one part in `10^15`, with an absolute error below `10^-300`. -/
theorem double_near {x : ℚ} : |double.signed x - x| ≤ |x| / 10 ^ 15 + 1 / 10 ^ 300 := by
  rw [Format.signed_err]
  have h0 := abs_nonneg x
  have hε : (0:ℚ) ≤ 1 / 10 ^ 300 := by positivity
  rcases Format.nearest_rel (F := double) h0 with h | h
  · have : |x| / 2 ^ double.prec ≤ |x| / 10 ^ 15 := by
      apply div_le_div_of_nonneg_left h0 (by positivity)
      show (10:ℚ) ^ 15 ≤ 2 ^ 53
      norm_num
    linarith
  · have : (2:ℚ) ^ (double.emin - 1) ≤ 1 / 10 ^ 300 := by
      show (2:ℚ) ^ ((-1074:ℤ) - 1) ≤ _
      rw [show (-1074:ℤ) - 1 = -((1075:ℕ):ℤ) by norm_num, zpow_neg, zpow_natCast, one_div]
      apply inv_anti₀ (by positivity)
      have : (10:ℤ) ^ 300 ≤ 2 ^ 1075 := by decide +kernel
      exact_mod_cast this
    have : 0 ≤ |x| / 10 ^ 15 := by positivity
    linarith

/-- The conversion inside `exp` and `pow` for numbers a double can hold. -/
theorem Spec.LibmOK.toF64 [Build] {lm : Libm} (hl : LibmOK lm) {v : Var} (hd : Digits v.digits) (hn : v.sign ≠ .nan)
    (hst : Stripped v) (h0 : 0 ≤ v.dscale) (hs : HasScale (value v) v.dscale) (hsm : Small v) (hds : v.dscale ≤ 1000000000) (hv : |value v| ≤ 10 ^ 250) :
    ∃ f, lm.toF64 v = .ok f ∧ |f - value v| ≤ |value v| / 10 ^ 15 + 1 / 10 ^ 300 := by
  obtain ⟨f, e, hf⟩ := Convert.toF64_spec hl.strtod hd hn hst h0 hs hsm hds
  have hlt : double.nearest |value v| < 2 ^ double.emax := by
    rw [← not_le, double_overflow (abs_nonneg _), not_le]
    refine lt_of_le_of_lt hv (lt_of_lt_of_le ?_ big_limit)
    exact pow_lt_pow_right₀ (by norm_num) (by norm_num)
  have hval := hf.value hlt
  refine ⟨double.signed (value v), ?_, double_near⟩
  unfold Libm.toF64
  rw [e]
  simp only [bind_ok]
  cases f with
  | nan => exact hval.elim
  | inf => exact hval.elim
  | fin neg m => unfold FloatIs at hval; rw [hval]; rfl

/-- The conversion inside `exp` and `pow` always succeeds, and a big number gives a big double (or infinity). -/
theorem Spec.LibmOK.toF64_big [Build] {lm : Libm} (hl : LibmOK lm) {v : Var} (hd : Digits v.digits) (hn : v.sign ≠ .nan)
    (hst : Stripped v) (h0 : 0 ≤ v.dscale) (hs : HasScale (value v) v.dscale) (hsm : Small v) (hds : v.dscale ≤ 1000000000) {B : ℚ} (hB : 0 ≤ B) (hB2 : B ≤ 2 ^ 1024) (hv : 2 * B + 1 ≤ |value v|) :
    ∃ f, lm.toF64 v = .ok f ∧ B ≤ |f| := by
  obtain ⟨f, e, hf⟩ := Convert.toF64_spec hl.strtod hd hn hst h0 hs hsm hds
  unfold Libm.toF64
  rw [e]
  simp only [bind_ok]
  rcases lt_or_ge (double.nearest |value v|) (2 ^ double.emax) with hlt | hge
  · have hval := hf.value hlt
    refine ⟨double.signed (value v), ?_, ?_⟩
    · cases f with
      | nan => exact hval.elim
      | inf => exact hval.elim
      | fin neg m => unfold FloatIs at hval; rw [hval]; rfl
    · have h1 := double_near (x := value v)
      have h2 := abs_sub_abs_le_abs_sub (value v) (double.signed (value v))
      rw [abs_sub_comm] at h2
      have h3 : (1:ℚ) / 10 ^ 300 ≤ 1 / 2 := by
        apply div_le_div_of_nonneg_left (by norm_num) (by norm_num)
        have : (2:ℤ) ≤ 10 ^ 300 := by decide +kernel
        exact_mod_cast this
      generalize (1:ℚ) / 10 ^ 300 = ε at *
      generalize |value v| = X at *
      norm_num at h1 ⊢
      linarith
  · rw [hf.inf hge]
    refine ⟨if decide (value v < 0) then -2 ^ 1024 else 2 ^ 1024, rfl, ?_⟩
    have : |(if decide (value v < 0) then -2 ^ 1024 else 2 ^ 1024 : ℚ)| = 2 ^ 1024 := by
      split <;> simp
    rw [this]
    exact hB2

end PgNumeric
