import Verif.Props.Arith
import Verif.Proofs.Float
/-!
# Conversions from and to machine integers, and from floats (C29, C30, C39)

`Convert.types` lists the ten fixed-width integer types; `ty.InRange n` says that `n` is a value of the type.
-/
namespace PgNumeric.Props
open PgNumeric Spec

/-- The integer types and their ranges, as the specification. -/
theorem C29_types : Convert.types.map (fun ty => (ty.lo, ty.hi)) =
    [(-2 ^ 7, 2 ^ 7 - 1), (-2 ^ 15, 2 ^ 15 - 1), (-2 ^ 31, 2 ^ 31 - 1), (-2 ^ 63, 2 ^ 63 - 1), (-2 ^ 127, 2 ^ 127 - 1),
     (0, 2 ^ 8 - 1), (0, 2 ^ 16 - 1), (0, 2 ^ 32 - 1), (0, 2 ^ 64 - 1), (0, 2 ^ 128 - 1)] := by decide

/-- The rounded value of an integer. -/
theorem round_int (n : ℤ) : roundHalfAway (n : ℚ) 0 = n := rmag_eq_self_iff (HasScale.int n le_rfl)

/-- C29: every value of an integer type converts to exactly that number at scale 0, without fault. -/
theorem C29_from_int [Build] {ty : IntTy} (ht : ty ∈ Convert.types) {n : ℤ} (hn : ty.lo ≤ n ∧ n ≤ ty.hi) :
    ∃ b, Convert.ofInt ty n = .ok b ∧ Holds b n 0 := Convert.ofInt_spec (Convert.types_ok ht) hn

/-- C29: and converting back returns the same integer. -/
theorem C29_round_trip [Build] {ty : IntTy} (ht : ty ∈ Convert.types) {n : ℤ} (hn : ty.lo ≤ n ∧ n ≤ ty.hi) :
    ∃ b, Convert.ofInt ty n = .ok b ∧ Convert.toInt ty b = .ok (.ok n) := by
  obtain ⟨b, e, h⟩ := C29_from_int ht hn
  refine ⟨b, e, ?_⟩
  rw [Convert.toInt_spec ht h (round_int n), if_pos (show ty.InRange n from hn)]

/-- C29: booleans. -/
theorem C29_from_bool [Build] (b : Bool) : ∃ r, Convert.ofBool b = .ok r ∧ Holds r (if b then 1 else 0) 0 := by
  obtain ⟨r, e, h⟩ := C29_from_int (ty := .u8) (by decide) (n := if b then 1 else 0) (by cases b <;> decide)
  refine ⟨r, e, cast h ?_ rfl⟩
  cases b <;> simp

/-- C29: `isize` and `usize` go through the type of the host's word size. -/
theorem C29_size_types (signed bits64 : Bool) : Convert.sizeTy signed bits64 ∈ Convert.types := by
  cases signed <;> cases bits64 <;> decide

example [Build] : ∃ b, Convert.ofInt .i64 (-9223372036854775808) = .ok b ∧ Holds b (-9223372036854775808) 0 ∧
    Convert.toInt .i64 b = .ok (.ok (-9223372036854775808)) := by
  obtain ⟨b, e, h⟩ := C29_from_int (ty := .i64) (by decide) (n := -9223372036854775808) (by decide)
  obtain ⟨b', e', h'⟩ := C29_round_trip (ty := .i64) (by decide) (n := -9223372036854775808) (by decide)
  rw [e] at e'; cases e'
  exact ⟨b, e, cast h (by norm_num) rfl, h'⟩

/-- C30: the conversion to an integer type succeeds exactly when the value, rounded half away from zero, is in
range, with that integer; otherwise it fails with `overflow`. -/
theorem C30_to_int [Build] {ty : IntTy} (ht : ty ∈ Convert.types) {a : Bin} {x : ℚ} {s : Int} (ha : Holds a x s) :
    ∃ n : ℤ, roundHalfAway x 0 = n ∧
      (ty.lo ≤ n ∧ n ≤ ty.hi → Convert.toInt ty a = .ok (.ok n)) ∧
      (¬ (ty.lo ≤ n ∧ n ≤ ty.hi) → Convert.toInt ty a = .ok (.error .overflow)) := by
  obtain ⟨n, hn⟩ := roundHalfAway_hasScale x 0
  have hn : roundHalfAway x 0 = n := by rw [← hn]; simp
  refine ⟨n, hn, fun h => ?_, fun h => ?_⟩
  · rw [Convert.toInt_spec ht ha hn, if_pos (show ty.InRange n from h)]
  · rw [Convert.toInt_spec ht ha hn, if_neg (show ¬ ty.InRange n from h)]

/-- C30: NaN gives `invalid`. -/
theorem C30_nan [Build] (ty : IntTy) {a : Bin} (ha : IsNaN a) : Convert.toInt ty a = .ok (.error .invalid) :=
  Convert.toInt_nan ty ha

/-- 127.5 rounds to 128, which is no `i8`; -128.4 is. -/
example [Build] : ∃ a b, Holds a (1275/10) 1 ∧ Holds b (-1284/10) 1 ∧ Convert.toInt .i8 a = .ok (.error .overflow) ∧
    Convert.toInt .i8 b = .ok (.ok (-128)) := by
  obtain ⟨a, ha⟩ := witness (x := 1275/10) (s := 1) 1275 (by norm_num) (by norm_num) (by norm_num) (by norm_num [abs_lt])
  obtain ⟨b, hb⟩ := witness (x := -1284/10) (s := 1) (-1284) (by norm_num) (by norm_num) (by norm_num) (by norm_num [abs_lt])
  refine ⟨a, b, ha, hb, ?_, ?_⟩
  · obtain ⟨n, hn, -, h⟩ := C30_to_int (ty := .i8) (by decide) ha
    have e : roundHalfAway (1275/10) 0 = 128 := by norm_num [roundHalfAway]
    have : n = 128 := by rw [e] at hn; exact_mod_cast hn.symm
    subst this
    exact h (by decide)
  · obtain ⟨n, hn, h, -⟩ := C30_to_int (ty := .i8) (by decide) hb
    have e : roundHalfAway (-1284/10) 0 = -128 := by norm_num [roundHalfAway]
    have : n = -128 := by rw [e] at hn; exact_mod_cast hn.symm
    subst this
    exact h (by decide)

/-! ## C39 -/

/-- C39: NaN becomes NaN, infinities are rejected. -/
theorem C39_nan_inf [Build] (P : ℕ) (neg : Bool) :
    Convert.ofFloat P .nan = .ok (.ok Bin.nan) ∧ Convert.ofFloat P (.inf neg) = .ok (.error .invalid) := by
  constructor
  · unfold Convert.ofFloat
    simp only [Num.nan_ok, bind_ok, pure_ok]
  · rfl

/-- C39: a finite number always converts; the result is exactly the decimal that `%.Pg` prints, which denotes the
number rounded to `P` significant digits (`P = 6` for `f32`, `15` for `f64`). -/
theorem C39_finite [Build] {P : ℕ} (hP : P = 6 ∨ P = 15) (neg : Bool) {q : ℚ} (hq : FloatRange q) :
    ∃ r s, Convert.ofFloat P (.fin neg q) = .ok (.ok r) ∧ Parse.fromStr (printfG P neg q) = .ok (.ok r) ∧
      Holds r ((if neg then -1 else 1) * sigRound P q) s :=
  Convert.ofFloat_fin (by rcases hP with rfl | rfl <;> norm_num) (by rcases hP with rfl | rfl <;> norm_num) neg hq

/-- C39: rounding to `P` significant digits means: at most half a unit of the `P`-th significant digit off. -/
theorem C39_sigRound_near {P : ℕ} (hP : 0 < P) {q : ℚ} (hq : 0 < q) :
    |sigRound P q - q| ≤ 1 / 2 * 10 ^ (Int.log 10 q - P + 1) := (Convert.sigDigits_spec hq P hP).2.2.2.2

/-- C39: a number that has at most `P` significant digits is not changed. -/
theorem C39_sigRound_exact {P : ℕ} (hP : 0 < P) {q : ℚ} (hq : 0 < q) {n : ℤ}
    (hn : q * 10 ^ ((P : ℤ) - 1 - Int.log 10 q) = n) : sigRound P q = q := by
  obtain ⟨-, h2⟩ := Convert.log_scaled hq P hP
  rw [hn] at h2
  have h2 : n < 10 ^ P := by
    have : (10:ℚ) ^ (P : ℤ) = ((10 ^ P : ℤ) : ℚ) := by push_cast; rw [← zpow_natCast]
    rw [this] at h2; exact_mod_cast h2
  have hnn : 0 ≤ n := by
    have : (0:ℚ) ≤ n := by rw [← hn]; exact mul_nonneg hq.le (T_zpow_pos _).le
    exact_mod_cast this
  have hne : n.toNat ≠ 10 ^ P := by
    intro h
    have : (n.toNat : ℤ) = 10 ^ P := by rw [h]; push_cast; rfl
    rw [Int.toNat_of_nonneg hnn] at this
    omega
  unfold sigRound sigDigits
  rw [if_neg hq.ne']
  simp only [hn, Convert.roundHalfEven_int]
  rw [if_neg hne]
  have : ((n.toNat : ℕ) : ℚ) = n := by
    have : ((n.toNat : ℕ) : ℤ) = n := Int.toNat_of_nonneg hnn
    exact_mod_cast this
  rw [this, ← hn, mul_assoc, ← zpow_add₀ (by norm_num)]
  have : (P : ℤ) - 1 - Int.log 10 q + (Int.log 10 q - P + 1) = 0 := by ring
  rw [this]; simp

/-- C39: the printed text is short, so the 128-byte buffer never truncates it. -/
theorem C39_printf_short {P : ℕ} (hP : P = 6 ∨ P = 15) (neg : Bool) {q : ℚ} (hq : FloatRange q) :
    (printfG P neg q).length ≤ 45 :=
  Convert.printfG_length (by rcases hP with rfl | rfl <;> norm_num) (by rcases hP with rfl | rfl <;> norm_num) neg hq

/-- -0.375 (a dyadic number) as an `f64` converts to exactly -0.375. -/
example [Build] : ∃ r s, Convert.ofFloat 15 (.fin true (3/8)) = .ok (.ok r) ∧ Holds r (-3/8) s := by
  have hlog : Int.log 10 (3/8 : ℚ) = -1 := by
    apply le_antisymm
    · have : Int.log 10 (3/8 : ℚ) < 0 := (Int.lt_zpow_iff_log_lt (by norm_num) (by norm_num)).1 (by norm_num)
      omega
    · exact (Int.zpow_le_iff_le_log (by norm_num) (by norm_num)).1 (by norm_num)
  obtain ⟨r, s, e, -, h⟩ := C39_finite (.inr rfl) true (q := 3/8) (.inr ⟨by
    refine le_trans (b := (10:ℚ) ^ (-1 : ℤ)) ?_ (by norm_num)
    exact T_le_iff'.2 (by norm_num), by
    refine lt_of_lt_of_le (b := (10:ℚ) ^ (0 : ℤ)) (by norm_num) ?_
    exact T_le_iff'.2 (by norm_num)⟩)
  refine ⟨r, s, e, cast h ?_ rfl⟩
  rw [C39_sigRound_exact (by norm_num) (by norm_num) (n := 375000000000000) (by rw [hlog]; norm_num)]
  norm_num

end PgNumeric.Props
