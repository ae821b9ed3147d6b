import Verif.Proofs.F64
import Verif.SpecIeee
/-!
# Rounding to a binary format: nearest, monotone, error bounds
-/
namespace PgNumeric.F64
open PgNumeric Spec

theorem two_pos (e : ℤ) : (0:ℚ) < 2 ^ e := zpow_pos (by norm_num) e
theorem two_le {a b : ℤ} (h : a ≤ b) : (2:ℚ) ^ a ≤ 2 ^ b := zpow_le_zpow_right₀ (by norm_num) h
theorem two_le_iff {a b : ℤ} : (2:ℚ) ^ a ≤ 2 ^ b ↔ a ≤ b := zpow_le_zpow_iff_right₀ (by norm_num)
theorem two_lt_iff {a b : ℤ} : (2:ℚ) ^ a < 2 ^ b ↔ a < b := zpow_lt_zpow_iff_right₀ (by norm_num)

theorem log2_eq {q : ℚ} {k : ℤ} (h1 : 2 ^ k ≤ q) (h2 : q < 2 ^ (k + 1)) : log2 q = k := by
  obtain ⟨a, b⟩ := log2_spec (lt_of_lt_of_le (two_pos k) h1)
  have := two_lt_iff.1 (lt_of_le_of_lt h1 b)
  have := two_lt_iff.1 (lt_of_le_of_lt a h2)
  omega

theorem log2_mono {a b : ℚ} (ha : 0 < a) (h : a ≤ b) : log2 a ≤ log2 b := by
  have h1 := (log2_spec ha).1
  have h2 := (log2_spec (lt_of_lt_of_le ha h)).2
  have := two_lt_iff.1 (lt_of_le_of_lt (h1.trans h) h2)
  omega

theorem roundEven_int (n : ℤ) : roundEven (n : ℚ) = n := by
  unfold roundEven
  simp

/-- Rounding cannot pass an integer. -/
theorem roundEven_le {x : ℚ} {n : ℤ} (h : x ≤ n) : roundEven x ≤ n := by
  have h1 := Int.floor_le x
  have h2 := Int.lt_floor_add_one x
  by_contra hc
  push Not at hc
  have hf : ⌊x⌋ ≤ n := by
    have : (⌊x⌋ : ℚ) ≤ n := h1.trans h
    exact_mod_cast this
  unfold roundEven at hc
  simp only at hc
  have hf2 : ⌊x⌋ = n := by split_ifs at hc <;> omega
  rw [if_pos (by rw [hf2]; linarith)] at hc
  omega

theorem le_roundEven {x : ℚ} {n : ℤ} (h : (n:ℚ) ≤ x) : n ≤ roundEven x := by
  have : n ≤ ⌊x⌋ := Int.le_floor.2 h
  unfold roundEven
  simp only
  split_ifs <;> omega

theorem roundEven_mono {x y : ℚ} (h : x ≤ y) : roundEven x ≤ roundEven y := by
  have hf : ⌊x⌋ ≤ ⌊y⌋ := Int.floor_le_floor h
  rcases hf.lt_or_eq with hlt | heq
  · have h1 : roundEven x ≤ ⌊x⌋ + 1 := by unfold roundEven; simp only; split_ifs <;> omega
    have h2 : ⌊y⌋ ≤ roundEven y := by unfold roundEven; simp only; split_ifs <;> omega
    omega
  · unfold roundEven
    simp only [heq]
    split_ifs <;> first | omega | (exfalso; linarith)

/-- No integer is closer. -/
theorem roundEven_nearest (x : ℚ) (n : ℤ) : |(roundEven x : ℚ) - x| ≤ |n - x| := by
  by_cases h : n = roundEven x
  · rw [h]
  · have h1 := roundEven_err x
    have h2 : (1:ℚ) ≤ |(n:ℚ) - roundEven x| := by
      have : 1 ≤ |n - roundEven x| := Int.one_le_abs (by omega)
      exact_mod_cast this
    have h3 := abs_sub_le (n:ℚ) x (roundEven x)
    rw [abs_sub_comm x] at h3
    linarith

namespace Format
variable {F : Format} {q : ℚ}

theorem nearest_zero : F.nearest 0 = 0 := by simp [nearest]

theorem nearest_eq (hq : 0 < q) : F.nearest q = (roundEven (q / 2 ^ F.unit q) : ℚ) * 2 ^ F.unit q := by
  unfold nearest; rw [if_neg hq.ne']

theorem nearest_nonneg (hq : 0 ≤ q) : 0 ≤ F.nearest q := by
  rcases hq.eq_or_lt with rfl | hq
  · rw [nearest_zero]
  · rw [nearest_eq hq]
    have : (0:ℤ) ≤ roundEven (q / 2 ^ F.unit q) := le_roundEven (by push_cast; exact div_nonneg hq.le (two_pos _).le)
    exact mul_nonneg (by exact_mod_cast this) (two_pos _).le

theorem unit_ge : F.emin ≤ F.unit q := le_max_right _ _
theorem unit_ge' : log2 q - (F.prec - 1) ≤ F.unit q := le_max_left _ _

theorem grid_err (hq : 0 < q) (n : ℤ) : |F.nearest q - q| ≤ |n * 2 ^ F.unit q - q| := by
  have h := roundEven_nearest (q / 2 ^ F.unit q) n
  have hp := two_pos (F.unit q)
  rw [nearest_eq hq]
  have e : ∀ z : ℚ, z * 2 ^ F.unit q - q = (z - q / 2 ^ F.unit q) * 2 ^ F.unit q := fun z => by field_simp
  rw [e, e, abs_mul, abs_mul, abs_of_pos hp]
  exact mul_le_mul_of_nonneg_right h hp.le

/-- Half a spacing. -/
theorem nearest_err (hq : 0 < q) : |F.nearest q - q| ≤ 1 / 2 * 2 ^ F.unit q := by
  have hp := two_pos (F.unit q)
  rw [nearest_eq hq]
  have e : (roundEven (q / 2 ^ F.unit q) : ℚ) * 2 ^ F.unit q - q = ((roundEven (q / 2 ^ F.unit q) : ℚ) - q / 2 ^ F.unit q) * 2 ^ F.unit q := by
    field_simp
  rw [e, abs_mul, abs_of_pos hp]
  exact mul_le_mul_of_nonneg_right (roundEven_err _) hp.le

theorem grid_mul {e e' : ℤ} (h : e ≤ e') (m : ℤ) : ∃ n : ℤ, (m : ℚ) * 2 ^ e' = n * 2 ^ e := by
  refine ⟨m * 2 ^ (e' - e).toNat, ?_⟩
  push_cast
  rw [mul_assoc, ← zpow_natCast, Int.toNat_of_nonneg (by omega), ← zpow_add₀ (by norm_num)]
  congr 2; ring

/-- Nearest among all numbers with `prec` bits, whatever their exponent above `emin`. -/
theorem nearest_best (hP : 1 ≤ F.prec) (hq : 0 < q) {m e : ℤ} (hm : |m| < 2 ^ F.prec) (he : F.emin ≤ e) :
    |F.nearest q - q| ≤ |m * 2 ^ e - q| := by
  by_cases hc : F.unit q ≤ e
  · obtain ⟨n, hn⟩ := grid_mul hc m
    rw [hn]
    exact grid_err hq n
  · push Not at hc
    have hu : F.unit q = log2 q - (F.prec - 1) := by unfold unit at hc ⊢; omega
    obtain ⟨n, hn⟩ := grid_mul (e := F.unit q) (e' := log2 q) (by omega) 1
    refine (grid_err hq n).trans ?_
    rw [← hn, Int.cast_one, one_mul]
    have h1 := (log2_spec hq).1
    have h2 : (m:ℚ) * 2 ^ e ≤ 2 ^ log2 q := by
      have h3 : (m:ℚ) ≤ 2 ^ (F.prec : ℤ) := by
        have : m ≤ 2 ^ F.prec := (le_abs_self m).trans hm.le
        rw [zpow_natCast]; exact_mod_cast this
      calc (m:ℚ) * 2 ^ e ≤ 2 ^ (F.prec : ℤ) * 2 ^ e := mul_le_mul_of_nonneg_right h3 (two_pos _).le
        _ = 2 ^ ((F.prec : ℤ) + e) := by rw [zpow_add₀ (by norm_num)]
        _ ≤ 2 ^ log2 q := two_le (by omega)
    rw [abs_of_nonpos (by linarith), abs_of_nonpos (by linarith)]
    linarith

theorem mag_bound (hP : 1 ≤ F.prec) (hq : 0 < q) :
    0 ≤ roundEven (q / 2 ^ F.unit q) ∧ roundEven (q / 2 ^ F.unit q) ≤ 2 ^ F.prec := by
  have hp := two_pos (F.unit q)
  refine ⟨le_roundEven (by push_cast; positivity), roundEven_le ?_⟩
  rw [div_le_iff₀ hp]
  have h2 := (log2_spec hq).2
  have : (2:ℚ) ^ (log2 q + 1) ≤ 2 ^ ((F.prec : ℤ) + F.unit q) := two_le (by have := unit_ge' (F := F) (q := q); omega)
  rw [zpow_add₀ (by norm_num) (F.prec : ℤ), zpow_natCast] at this
  push_cast
  linarith

/-- Below the overflow threshold the result is a number of the format. -/
theorem nearest_rep (hP : 1 ≤ F.prec) (hE : F.emin + F.prec ≤ F.emax) (hq : 0 ≤ q) (h : F.nearest q < 2 ^ F.emax) :
    Representable F.prec F.emin F.emax (F.nearest q) := by
  rcases hq.eq_or_lt with rfl | hq
  · exact ⟨0, F.emin, by positivity, le_rfl, hE, by rw [nearest_zero]; simp⟩
  obtain ⟨h0, h1⟩ := mag_bound hP hq
  have hlog := log2_spec hq
  rw [nearest_eq hq] at h ⊢
  have hge := unit_ge (F := F) (q := q)
  rcases h1.lt_or_eq with h1 | h1
  · refine ⟨_, F.unit q, by rw [abs_of_nonneg h0]; exact h1, hge, ?_, rfl⟩
    by_cases hc : F.unit q = F.emin
    · omega
    · have hu : F.unit q = log2 q - (F.prec - 1) := by unfold unit at hc ⊢; omega
      have h2 : (2:ℤ) ^ (F.prec - 1) ≤ roundEven (q / 2 ^ F.unit q) := by
        apply le_roundEven
        rw [le_div_iff₀ (two_pos _)]
        push_cast
        rw [← zpow_natCast, ← zpow_add₀ (by norm_num), hu]
        refine le_trans (two_le ?_) hlog.1
        omega
      have h3 : (2:ℚ) ^ ((F.prec - 1 : ℕ) : ℤ) * 2 ^ F.unit q ≤ (roundEven (q / 2 ^ F.unit q) : ℚ) * 2 ^ F.unit q := by
        apply mul_le_mul_of_nonneg_right _ (two_pos _).le
        rw [zpow_natCast]; exact_mod_cast h2
      rw [← zpow_add₀ (by norm_num)] at h3
      have := two_lt_iff.1 (lt_of_le_of_lt h3 h)
      omega
  · rw [h1] at h ⊢
    have e : ((2 ^ F.prec : ℤ) : ℚ) * 2 ^ F.unit q = 2 ^ ((F.prec : ℤ) + F.unit q) := by
      push_cast; rw [zpow_add₀ (by norm_num), zpow_natCast]
    rw [e] at h ⊢
    have := two_lt_iff.1 h
    refine ⟨2 ^ (F.prec - 1), F.unit q + 1, ?_, by omega, by omega, ?_⟩
    · rw [abs_of_pos (by positivity)]
      exact pow_lt_pow_right₀ (by norm_num) (by omega)
    · push_cast
      rw [← zpow_natCast, ← zpow_add₀ (by norm_num)]
      congr 1; omega

/-- Numbers of the format are not changed. -/
theorem nearest_self (hP : 1 ≤ F.prec) (hq : 0 ≤ q) {m e : ℤ} (hm : |m| < 2 ^ F.prec) (he : F.emin ≤ e) (h : q = m * 2 ^ e) :
    F.nearest q = q := by
  rcases hq.eq_or_lt with rfl | hq
  · rw [nearest_zero]
  · have := nearest_best hP hq hm he
    rw [← h, sub_self, abs_zero] at this
    have := abs_nonpos_iff.1 this
    linarith

theorem nearest_mono {a b : ℚ} (hP : 1 ≤ F.prec) (ha : 0 ≤ a) (h : a ≤ b) : F.nearest a ≤ F.nearest b := by
  rcases ha.eq_or_lt with rfl | ha
  · rw [nearest_zero]; exact nearest_nonneg h
  have hb := lt_of_lt_of_le ha h
  have hl := log2_mono ha h
  rcases (show F.unit a ≤ F.unit b by unfold unit; omega).lt_or_eq with hlt | heq
  · have hu : F.unit b = log2 b - (F.prec - 1) := by unfold unit at hlt ⊢; omega
    have hab : log2 a < log2 b := by
      have := unit_ge' (F := F) (q := a)
      omega
    have h1 : F.nearest a ≤ 2 ^ log2 b := by
      rw [nearest_eq ha]
      obtain ⟨n, hn⟩ := grid_mul (e := F.unit a) (e' := log2 b) (by omega) 1
      rw [Int.cast_one, one_mul] at hn
      rw [hn]
      apply mul_le_mul_of_nonneg_right _ (two_pos _).le
      have : roundEven (a / 2 ^ F.unit a) ≤ n := by
        apply roundEven_le
        rw [div_le_iff₀ (two_pos _), ← hn]
        exact ((log2_spec ha).2.le).trans (two_le (by omega))
      exact_mod_cast this
    have h2 : 2 ^ log2 b ≤ F.nearest b := by
      rw [nearest_eq hb]
      obtain ⟨n, hn⟩ := grid_mul (e := F.unit b) (e' := log2 b) (by omega) 1
      rw [Int.cast_one, one_mul] at hn
      conv_lhs => rw [hn]
      apply mul_le_mul_of_nonneg_right _ (two_pos _).le
      have : n ≤ roundEven (b / 2 ^ F.unit b) := by
        apply le_roundEven
        rw [le_div_iff₀ (two_pos _), ← hn]
        exact (log2_spec hb).1
      exact_mod_cast this
    linarith
  · rw [nearest_eq ha, nearest_eq hb, heq]
    apply mul_le_mul_of_nonneg_right _ (two_pos _).le
    have : roundEven (a / 2 ^ F.unit b) ≤ roundEven (b / 2 ^ F.unit b) :=
      roundEven_mono (div_le_div_of_nonneg_right h (two_pos _).le)
    exact_mod_cast this

/-- Relative error in the normal range, absolute error below it. -/
theorem nearest_rel (hq : 0 ≤ q) : |F.nearest q - q| ≤ q / 2 ^ F.prec ∨ |F.nearest q - q| ≤ 2 ^ (F.emin - 1) := by
  rcases hq.eq_or_lt with rfl | hq
  · left; rw [nearest_zero]; simp
  have h := nearest_err (F := F) hq
  by_cases hc : F.unit q = F.emin
  · right
    rw [hc] at h
    rw [zpow_sub₀ (by norm_num), zpow_one]
    linarith
  · left
    have hu : F.unit q = log2 q - (F.prec - 1) := by unfold unit at hc ⊢; omega
    refine h.trans ?_
    rw [le_div_iff₀ (by positivity)]
    have h1 := (log2_spec hq).1
    have : 1 / 2 * (2:ℚ) ^ F.unit q * 2 ^ F.prec = 2 ^ log2 q := by
      rw [hu, ← zpow_natCast, show (1/2:ℚ) = 2 ^ (-1:ℤ) by norm_num, ← zpow_add₀ (by norm_num), ← zpow_add₀ (by norm_num)]
      congr 1; ring
    linarith

theorem nearest_normal (hq : 2 ^ (F.emin + F.prec - 1) ≤ q) : |F.nearest q - q| ≤ q / 2 ^ F.prec := by
  have hq0 := lt_of_lt_of_le (two_pos _) hq
  rcases nearest_rel (F := F) hq0.le with h | h
  · exact h
  · refine h.trans ?_
    rw [le_div_iff₀ (by positivity), ← zpow_natCast, ← zpow_add₀ (by norm_num)]
    refine le_trans (le_of_eq ?_) hq
    congr 1; ring

/-- The overflow threshold: half a spacing below `2^emax`. -/
theorem overflow_iff (hP : 1 ≤ F.prec) (hE : F.emin + F.prec ≤ F.emax) (hq : 0 ≤ q) :
    2 ^ F.emax ≤ F.nearest q ↔ 2 ^ F.emax - 2 ^ (F.emax - F.prec - 1) ≤ q := by
  have hhalf : (2:ℚ) ^ (F.emax - F.prec - 1) * 2 = 2 ^ (F.emax - F.prec) := by
    rw [← zpow_add_one₀ (by norm_num)]; congr 1; ring
  have hbig : (2:ℚ) ^ F.emax = 2 ^ F.prec * 2 ^ (F.emax - F.prec) := by
    rw [← zpow_natCast, ← zpow_add₀ (by norm_num)]; congr 1; ring
  have hpos := two_pos (F.emax - F.prec - 1)
  rcases le_or_gt (2 ^ F.emax) q with h | h
  · constructor
    · intro _; linarith
    · intro _
      have hs : F.nearest ((2:ℚ) ^ F.emax) = 2 ^ F.emax := by
        apply nearest_self hP (two_pos _).le (m := 1) (e := F.emax)
        · rw [abs_one]; exact one_lt_pow₀ (by norm_num) (by omega)
        · omega
        · simp
      rw [← hs]
      exact nearest_mono hP (two_pos _).le h
  rcases le_or_gt (2 ^ (F.emax - 1)) q with h1 | h1
  · have hq0 := lt_of_lt_of_le (two_pos _) h1
    have hl : log2 q = F.emax - 1 := log2_eq h1 (by rw [sub_add_cancel]; exact h)
    have hu : F.unit q = F.emax - F.prec := by unfold unit; omega
    rw [nearest_eq hq0, hu, hbig, mul_le_mul_iff_left₀ (two_pos _)]
    have hp := two_pos (F.emax - F.prec)
    obtain ⟨x, hx⟩ : ∃ x, x = q / 2 ^ (F.emax - F.prec) := ⟨_, rfl⟩
    have hqx : q = x * 2 ^ (F.emax - F.prec) := by rw [hx]; field_simp
    rw [← hx, hqx, ← hhalf]
    have hx1 : x < 2 ^ F.prec := by rw [hx, div_lt_iff₀ hp, ← hbig]; exact h
    generalize (2:ℚ) ^ (F.emax - F.prec - 1) = H at *
    have key : 2 ^ F.prec ≤ roundEven x ↔ (2:ℚ) ^ F.prec - 1 / 2 ≤ x := by
      have hf : ⌊x⌋ < 2 ^ F.prec := by
        have : (⌊x⌋ : ℚ) < 2 ^ F.prec := lt_of_le_of_lt (Int.floor_le x) hx1
        exact_mod_cast this
      have hx2 := Int.lt_floor_add_one x
      constructor
      · intro h
        have := roundEven_err x
        have h' : (2:ℚ) ^ F.prec ≤ roundEven x := by exact_mod_cast h
        have := (abs_le.1 this).2
        linarith
      · intro h
        have hf2 : ⌊x⌋ = 2 ^ F.prec - 1 := by
          have : (2:ℤ) ^ F.prec - 1 ≤ ⌊x⌋ := Int.le_floor.2 (by push_cast; linarith)
          omega
        obtain ⟨k, hk⟩ : ∃ k, F.prec = k + 1 := ⟨F.prec - 1, by omega⟩
        have heven : ⌊x⌋ % 2 ≠ 0 := by rw [hf2, hk, pow_succ]; omega
        have hr : (⌊x⌋ : ℚ) = 2 ^ F.prec - 1 := by rw [hf2]; push_cast; rfl
        unfold roundEven
        simp only
        rw [if_neg (by rw [hr]; linarith)]
        split_ifs <;> omega
    constructor
    · intro h
      have := key.1 (by exact_mod_cast h)
      nlinarith
    · intro h
      have h' : (2:ℚ) ^ F.prec - 1 / 2 ≤ x := by
        by_contra hc
        push Not at hc
        nlinarith
      exact_mod_cast key.2 h'
  · constructor
    · intro hc
      exfalso
      have hs : F.nearest ((2:ℚ) ^ (F.emax - 1)) = 2 ^ (F.emax - 1) := by
        apply nearest_self hP (two_pos _).le (m := 1) (e := F.emax - 1)
        · rw [abs_one]; exact one_lt_pow₀ (by norm_num) (by omega)
        · omega
        · simp
      have := nearest_mono (F := F) hP hq h1.le
      rw [hs] at this
      have := two_le_iff.1 (hc.trans this)
      omega
    · intro hc
      exfalso
      have h2 : (2:ℚ) ^ F.emax = 2 ^ (F.emax - 1) * 2 := by rw [← zpow_add_one₀ (by norm_num)]; congr 1; ring
      have h3 : (2:ℚ) ^ (F.emax - F.prec - 1) ≤ 2 ^ (F.emax - 1) := two_le (by omega)
      have h4 : (2:ℚ) ^ (F.emax - F.prec - 1) < 2 ^ (F.emax - 1) := two_lt_iff.2 (by omega)
      linarith

end Format
end PgNumeric.F64
