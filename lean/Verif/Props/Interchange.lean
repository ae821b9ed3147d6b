import Verif.Props.Client
/-!
# Equal numbers are interchangeable (C63)

`==` ignores the scale: 1.0 equals 1.00. For which functions does it not matter which of two equal numbers one passes?
-/
namespace PgNumeric.Props
open PgNumeric Spec

/-- Two calls have the same outcome, up to `==`: both return nothing, or both return numbers that compare equal. -/
def SameOption [Build] (m m' : M (Option Bin)) : Prop :=
  (m = .ok none ∧ m' = .ok none) ∨ ∃ r r', m = .ok (some r) ∧ m' = .ok (some r') ∧ Num.eq r r' = .ok true

/-- Two calls have the same outcome, up to `==`: both panic with the same message, or both return numbers that compare equal. -/
def SameNumber [Build] (m m' : M Bin) : Prop :=
  (∃ msg, m = .error (.panic msg) ∧ m' = .error (.panic msg)) ∨ ∃ r r', m = .ok r ∧ m' = .ok r' ∧ Num.eq r r' = .ok true

theorem eq_num [Build] {r r' : Bin} {x y : ℚ} {s t : ℤ} (h : Holds r x s) (h' : Holds r' y t) : Num.eq r r' = .ok (decide (x = y)) := by
  rw [Num.eq_spec (.inr ⟨x, s, h, rfl⟩) (.inr ⟨y, t, h', rfl⟩)]
  congr 1
  exact decide_eq_decide.2 WithTop.coe_inj

theorem eq_same [Build] {r r' : Bin} {x : ℚ} {s t : ℤ} (h : Holds r x s) (h' : Holds r' x t) : Num.eq r r' = .ok true := by
  rw [eq_num h h', decide_eq_true rfl]

theorem eq_nan [Build] : Num.eq Bin.nan Bin.nan = .ok true := by
  rw [Num.eq_spec (.inl ⟨nan_isNaN, rfl⟩) (.inl ⟨nan_isNaN, rfl⟩), decide_eq_true rfl]

/-- Numbers that compare equal: both NaN, or the same rational. -/
theorem eq_cases [Build] {a a' : Bin} (ha : Valid a) (ha' : Valid a') (h : Num.eq a a' = .ok true) :
    (IsNaN a ∧ IsNaN a') ∨ ∃ x s s', Holds a x s ∧ Holds a' x s' := by
  rcases ha with ha | ⟨x, s, ha⟩ <;> rcases ha' with ha' | ⟨y, t, ha'⟩
  · exact .inl ⟨ha, ha'⟩
  · rw [Num.eq_spec (.inl ⟨ha, rfl⟩) (.inr ⟨y, t, ha', rfl⟩), Except.ok.injEq, decide_eq_true_eq] at h
    exact absurd h.symm (WithTop.coe_ne_top)
  · rw [Num.eq_spec (.inr ⟨x, s, ha, rfl⟩) (.inl ⟨ha', rfl⟩), Except.ok.injEq, decide_eq_true_eq] at h
    exact absurd h WithTop.coe_ne_top
  · rw [eq_num ha ha', Except.ok.injEq, decide_eq_true_eq] at h
    subst h
    exact .inr ⟨x, s, t, ha, ha'⟩

theorem same_of_range [Build] {m m' : M Bin} {y : ℚ} {t : ℤ} {msg : String} (h1 : |y| < limit → ∃ r, m = .ok r ∧ Holds r y t)
    (h2 : limit ≤ |y| → m = .error (.panic msg)) (h1' : |y| < limit → ∃ r, m' = .ok r ∧ Holds r y t)
    (h2' : limit ≤ |y| → m' = .error (.panic msg)) : m = m' := by
  rcases lt_or_ge |y| limit with h | h
  · obtain ⟨r, e, hr⟩ := h1 h
    obtain ⟨r', e', hr'⟩ := h1' h
    rw [e, e', hr.unique hr']
  · rw [h2 h, h2' h]

/-- C63: functions that do not look at the scale: for equal numbers they give the same result, byte for byte (or the same panic). -/
theorem C63_scale_blind [Build] {a a' : Bin} (ha : Valid a) (ha' : Valid a') (h : Num.eq a a' = .ok true) :
    (∀ n, Num.round a n = Num.round a' n) ∧ (∀ n, Num.trunc a n = Num.trunc a' n) ∧ Num.ceil a = Num.ceil a' ∧ Num.floor a = Num.floor a' ∧
    Num.signum a = Num.signum a' ∧ Num.isNan a = Num.isNan a' ∧ Num.isNegative a = Num.isNegative a' ∧ Num.isPositive a = Num.isPositive a' ∧
    Num.hash a = Num.hash a' ∧ Num.normalize a = Num.normalize a' ∧ (∀ ty ∈ Convert.types, Convert.toInt ty a = Convert.toInt ty a') ∧
    (∀ lm c, LibmOK lm → Num.sci lm c a = Num.sci lm c a') := by
  have hhash : Num.hash a = Num.hash a' := by
    obtain ⟨wa, wb, e1, e2, hi⟩ := C22_hash_iff_eq ha ha'
    rw [e1, e2, hi.2]
    rcases eq_cases ha ha' h with ⟨hn, hn'⟩ | ⟨x, s, s', hx, hx'⟩
    · rw [Num.cmp_spec (.inl ⟨hn, rfl⟩) (.inl ⟨hn', rfl⟩), compare_eq_iff_eq.2 rfl]
    · rw [Num.cmp_spec (.inr ⟨x, s, hx, rfl⟩) (.inr ⟨x, s', hx', rfl⟩), compare_eq_iff_eq.2 rfl]
  have hnorm : Num.normalize a = Num.normalize a' := by
    obtain ⟨ta, tb, e1, e2, hi⟩ := C23_normalize_iff_eq ha ha'
    rw [e1, e2, hi.2 h]
  rcases eq_cases ha ha' h with ⟨hn, hn'⟩ | ⟨x, s, s', hx, hx'⟩
  · have k := fun n => C24_nan_unary hn n
    have k' := fun n => C24_nan_unary hn' n
    obtain ⟨a1, -, a3, a4, -⟩ := C24_nan_accessors hn
    obtain ⟨b1, -, b3, b4, -⟩ := C24_nan_accessors hn'
    refine ⟨fun n => by rw [(k n).1, (k' n).1], fun n => by rw [(k n).2.1, (k' n).2.1], by rw [(k 0).2.2.1, (k' 0).2.2.1],
      by rw [(k 0).2.2.2.1, (k' 0).2.2.2.1], by rw [(k 0).2.2.2.2.2.2.1, (k' 0).2.2.2.2.2.2.1], by rw [a1, b1], by rw [a3, b3], by rw [a4, b4],
      hhash, hnorm, fun ty _ => by rw [C30_nan ty hn, C30_nan ty hn'], fun lm c _ => by rw [C35_nan lm hn, C35_nan lm hn']⟩
  · obtain ⟨a1, a2, a3, -⟩ := C20_accessors hx
    obtain ⟨b1, b2, b3, -⟩ := C20_accessors hx'
    obtain ⟨-, -, ⟨sa, ea, ga⟩, -⟩ := C20_sign_ops hx
    obtain ⟨-, -, ⟨sb, eb, gb⟩, -⟩ := C20_sign_ops hx'
    obtain ⟨c1, c2⟩ := C19_ceil_floor hx
    obtain ⟨d1, d2⟩ := C19_ceil_floor hx'
    refine ⟨fun n => ?_, fun n => ?_, same_of_range c1.1 c1.2 d1.1 d1.2, same_of_range c2.1 c2.2 d2.1 d2.2, by rw [ea, eb, ga.unique gb],
      by rw [a3, b3], by rw [a1, b1], by rw [a2, b2], hhash, hnorm, fun ty hty => ?_, fun lm c hlm => ?_⟩
    · exact same_of_range (C17_round hx n).1 (C17_round hx n).2 (C17_round hx' n).1 (C17_round hx' n).2
    · obtain ⟨r, e, hr⟩ := C18_trunc hx n
      obtain ⟨r', e', hr'⟩ := C18_trunc hx' n
      rw [e, e', hr.unique hr']
    · obtain ⟨n, hn, e1, e2⟩ := C30_to_int hty hx
      obtain ⟨n', hn', e1', e2'⟩ := C30_to_int hty hx'
      have : n = n' := by rw [hn] at hn'; exact_mod_cast hn'
      subst this
      by_cases hr : ty.lo ≤ n ∧ n ≤ ty.hi
      · rw [e1 hr, e1' hr]
      · rw [e2 hr, e2' hr]
    · -- both texts are the one the specification determines
      by_cases h0 : x = 0
      · subst h0
        rw [C35_zero lm hx, C35_zero lm hx']
      · rcases lt_or_ge |x| (10 ^ (-1001 : ℤ)) with hlt | hge
        · rw [C35_tiny_panics hlm hx h0 hlt, C35_tiny_panics hlm hx' h0 hlt]
        · have hp : 0 < |x| := abs_pos.2 h0
          have e1 : (10:ℚ) ^ Int.log 10 |x| ≤ |x| := by exact_mod_cast Int.zpow_log_le_self (by norm_num) hp
          have e2 : |x| < (10:ℚ) ^ (Int.log 10 |x| + 1) := by exact_mod_cast Int.lt_zpow_succ_log_self (b := 10) (by norm_num) |x|
          have hE : -1001 ≤ Int.log 10 |x| := by
            have : (10:ℚ) ^ (-1001:ℤ) < 10 ^ (Int.log 10 |x| + 1) := lt_of_le_of_lt hge e2
            have := (zpow_lt_zpow_iff_right₀ (by norm_num : (1:ℚ) < 10)).1 this
            omega
          obtain ⟨m, p, e, hm, -, -, k3⟩ := C35_scientific hlm hx h0 e1 e2 hE c
          obtain ⟨m', p', e', hm', -, -, k3'⟩ := C35_scientific hlm hx' h0 e1 e2 hE c
          obtain ⟨rfl, rfl⟩ := mantissa_unique (hm.symm.trans hm') k3 k3'
          rw [e, e']

/-- C63: comparison with a third number, and truncating division by it or of it, do not depend on which of two equal numbers is passed. -/
theorem C63_scale_blind_binary [Build] {a a' c : Bin} (ha : Valid a) (ha' : Valid a') (hc : Valid c) (h : Num.eq a a' = .ok true) :
    Num.cmp a c = Num.cmp a' c ∧ Num.cmp c a = Num.cmp c a' ∧
    Num.checkedDivTrunc a c = Num.checkedDivTrunc a' c ∧ Num.checkedDivTrunc c a = Num.checkedDivTrunc c a' := by
  obtain ⟨l, hl⟩ := Num.valid_denotes hc
  have hcmp : ∃ k, Denotes a k ∧ Denotes a' k := by
    rcases eq_cases ha ha' h with ⟨hn, hn'⟩ | ⟨x, s, s', hx, hx'⟩
    · exact ⟨⊤, .inl ⟨hn, rfl⟩, .inl ⟨hn', rfl⟩⟩
    · exact ⟨x, .inr ⟨x, s, hx, rfl⟩, .inr ⟨x, s', hx', rfl⟩⟩
  obtain ⟨k, hk, hk'⟩ := hcmp
  refine ⟨by rw [Num.cmp_spec hk hl, Num.cmp_spec hk' hl], by rw [Num.cmp_spec hl hk, Num.cmp_spec hl hk'], ?_⟩
  by_cases hcn : IsNaN c
  · obtain ⟨-, -, -, -, e1, -⟩ := C24_nan_binary ha hc (.inr hcn)
    obtain ⟨-, -, -, -, e2, -⟩ := C24_nan_binary ha' hc (.inr hcn)
    obtain ⟨-, -, -, -, e3, -⟩ := C24_nan_binary hc ha (.inl hcn)
    obtain ⟨-, -, -, -, e4, -⟩ := C24_nan_binary hc ha' (.inl hcn)
    exact ⟨by rw [e1, e2], by rw [e3, e4]⟩
  · obtain ⟨z, u, hz⟩ := hc.resolve_left hcn
    rcases eq_cases ha ha' h with ⟨hn, hn'⟩ | ⟨x, s, s', hx, hx'⟩
    · obtain ⟨-, -, -, -, e1, -⟩ := C24_nan_binary ha hc (.inl hn)
      obtain ⟨-, -, -, -, e2, -⟩ := C24_nan_binary ha' hc (.inl hn')
      obtain ⟨-, -, -, -, e3, -⟩ := C24_nan_binary hc ha (.inr hn)
      obtain ⟨-, -, -, -, e4, -⟩ := C24_nan_binary hc ha' (.inr hn')
      exact ⟨by rw [e1, e2], by rw [e3, e4]⟩
    · have key : ∀ {p p' q q' : Bin} {x y : ℚ} {s s' t t' : ℤ}, Holds p x s → Holds p' x s' → Holds q y t → Holds q' y t' →
          Num.checkedDivTrunc p q = Num.checkedDivTrunc p' q' := by
        intro p p' q q' x y s s' t t' hp hp' hq hq'
        by_cases hy : y = 0
        · subst hy
          rw [(C14_div_by_zero hp hq).2.1, (C14_div_by_zero hp' hq').2.1]
        · obtain ⟨i1, i2⟩ := C15_div_trunc hp hq hy
          obtain ⟨j1, j2⟩ := C15_div_trunc hp' hq' hy
          rcases lt_or_ge |((if 0 ≤ x / y then ⌊x / y⌋ else ⌈x / y⌉ : ℤ) : ℚ)| limit with hlt | hge
          · obtain ⟨r, e, hr⟩ := i1 hlt
            obtain ⟨r', e', hr'⟩ := j1 hlt
            rw [e, e', hr.unique hr']
          · rw [i2 hge, j2 hge]
      exact ⟨key hx hx' hz hz, key hz hz hx hx'⟩

theorem sameOption_range [Build] {m m' : M (Option Bin)} {y : ℚ} {t t' : ℤ} (h1 : |y| < limit → ∃ r, m = .ok (some r) ∧ Holds r y t)
    (h2 : limit ≤ |y| → m = .ok none) (h1' : |y| < limit → ∃ r, m' = .ok (some r) ∧ Holds r y t')
    (h2' : limit ≤ |y| → m' = .ok none) : SameOption m m' := by
  rcases lt_or_ge |y| limit with h | h
  · obtain ⟨r, e, hr⟩ := h1 h
    obtain ⟨r', e', hr'⟩ := h1' h
    exact .inr ⟨r, r', e, e', eq_same hr hr'⟩
  · exact .inl ⟨h2 h, h2' h⟩

/-- C63: addition, subtraction and remainder of equal numbers give equal numbers, or overflow (or are undefined) together, whichever
operand is exchanged; so do negation, absolute value and increment. -/
theorem C63_congruence [Build] {a a' c c' : Bin} (ha : Valid a) (ha' : Valid a') (h : Num.eq a a' = .ok true) (hc : Valid c) (hc' : Valid c')
    (h' : Num.eq c c' = .ok true) :
    SameOption (Num.checkedAdd a c) (Num.checkedAdd a' c') ∧ SameOption (Num.checkedSub a c) (Num.checkedSub a' c') ∧
    SameOption (Num.checkedRem a c) (Num.checkedRem a' c') ∧
    SameNumber (Num.negate a) (Num.negate a') ∧ SameNumber (Num.abs a) (Num.abs a') ∧ SameNumber (Num.inc a) (Num.inc a') := by
  have hun : SameNumber (Num.negate a) (Num.negate a') ∧ SameNumber (Num.abs a) (Num.abs a') ∧ SameNumber (Num.inc a) (Num.inc a') := by
    rcases eq_cases ha ha' h with ⟨hn, hn'⟩ | ⟨x, s, s', hx, hx'⟩
    · obtain ⟨-, -, -, -, k1, k2, -, k3⟩ := C24_nan_unary hn 0
      obtain ⟨-, -, -, -, l1, l2, -, l3⟩ := C24_nan_unary hn' 0
      exact ⟨.inr ⟨_, _, k2, l2, eq_nan⟩, .inr ⟨_, _, k1, l1, eq_nan⟩, .inr ⟨_, _, k3, l3, eq_nan⟩⟩
    · obtain ⟨⟨r1, e1, g1⟩, ⟨r2, e2, g2⟩, -, i1, i2⟩ := C20_sign_ops hx
      obtain ⟨⟨r1', e1', g1'⟩, ⟨r2', e2', g2'⟩, -, i1', i2'⟩ := C20_sign_ops hx'
      refine ⟨.inr ⟨_, _, e1, e1', eq_same g1 g1'⟩, .inr ⟨_, _, e2, e2', eq_same g2 g2'⟩, ?_⟩
      rcases lt_or_ge |x + 1| limit with hlt | hge
      · obtain ⟨r, e, g⟩ := i1 hlt
        obtain ⟨r', e', g'⟩ := i1' hlt
        exact .inr ⟨_, _, e, e', eq_same g g'⟩
      · exact .inl ⟨_, i2 hge, i2' hge⟩
  refine ⟨?_, ?_, ?_, hun⟩
  all_goals
    rcases eq_cases ha ha' h with ⟨hn, hn'⟩ | ⟨x, s, s', hx, hx'⟩
    · obtain ⟨k1, k2, -, -, -, k3, -⟩ := C24_nan_binary ha hc (.inl hn)
      obtain ⟨l1, l2, -, -, -, l3, -⟩ := C24_nan_binary ha' hc' (.inl hn')
      first
      | exact .inr ⟨_, _, k1, l1, eq_nan⟩
      | exact .inr ⟨_, _, k2, l2, eq_nan⟩
      | exact .inr ⟨_, _, k3, l3, eq_nan⟩
    rcases eq_cases hc hc' h' with ⟨hn, hn'⟩ | ⟨y, t, t', hy, hy'⟩
    · obtain ⟨k1, k2, -, -, -, k3, -⟩ := C24_nan_binary ha hc (.inr hn)
      obtain ⟨l1, l2, -, -, -, l3, -⟩ := C24_nan_binary ha' hc' (.inr hn')
      first
      | exact .inr ⟨_, _, k1, l1, eq_nan⟩
      | exact .inr ⟨_, _, k2, l2, eq_nan⟩
      | exact .inr ⟨_, _, k3, l3, eq_nan⟩
  · exact sameOption_range (C08_add_exact hx hy).1 (C08_add_exact hx hy).2 (C08_add_exact hx' hy').1 (C08_add_exact hx' hy').2
  · exact sameOption_range (C09_sub_exact hx hy).1 (C09_sub_exact hx hy).2 (C09_sub_exact hx' hy').1 (C09_sub_exact hx' hy').2
  · by_cases h0 : y = 0
    · subst h0
      exact .inl ⟨(C14_div_by_zero hx hy).2.2.1, (C14_div_by_zero hx' hy').2.2.1⟩
    · obtain ⟨r, e, g, -⟩ := C16_rem_law hx hy h0
      obtain ⟨r', e', g', -⟩ := C16_rem_law hx' hy' h0
      exact .inr ⟨_, _, e, e', eq_same g g'⟩

/-- C63: products of equal numbers are equal, when both exist. (One may fail to exist because its scale would exceed 16383.) -/
theorem C63_congruence_mul [Build] {a a' c c' r r' : Bin} (ha : Valid a) (ha' : Valid a') (h : Num.eq a a' = .ok true) (hc : Valid c)
    (hc' : Valid c') (h' : Num.eq c c' = .ok true) (hr : Num.checkedMul a c = .ok (some r)) (hr' : Num.checkedMul a' c' = .ok (some r')) :
    Num.eq r r' = .ok true := by
  rcases eq_cases ha ha' h with ⟨hn, hn'⟩ | ⟨x, s, s', hx, hx'⟩
  · rw [(C24_nan_binary ha hc (.inl hn)).2.2.1] at hr
    rw [(C24_nan_binary ha' hc' (.inl hn')).2.2.1] at hr'
    cases hr; cases hr'
    exact eq_nan
  rcases eq_cases hc hc' h' with ⟨hn, hn'⟩ | ⟨y, t, t', hy, hy'⟩
  · rw [(C24_nan_binary ha hc (.inr hn)).2.2.1] at hr
    rw [(C24_nan_binary ha' hc' (.inr hn')).2.2.1] at hr'
    cases hr; cases hr'
    exact eq_nan
  · exact eq_same (C10_mul_sound hx hy hr) (C10_mul_sound hx' hy' hr')

theorem round_third {k : ℤ} (hk : 0 ≤ k) : roundHalfAway (1/3) k = (1 - 10 ^ (-k)) / 3 := by
  obtain ⟨n, rfl⟩ := Int.eq_ofNat_of_zero_le hk
  obtain ⟨m, hm⟩ : ∃ m : ℤ, (10:ℤ) ^ n = 3 * m + 1 := by
    induction n with
    | zero => exact ⟨0, by norm_num⟩
    | succ n ih =>
      obtain ⟨m, h⟩ := ih (by omega)
      exact ⟨10 * m + 3, by rw [pow_succ, h]; ring⟩
  have hq : (10:ℚ) ^ n = 3 * m + 1 := by exact_mod_cast hm
  have hp : (0:ℚ) < 10 ^ n := by positivity
  have hf : ⌊(1/3 : ℚ) * 10 ^ n + 1 / 2⌋ = m := by
    rw [Int.floor_eq_iff, hq]
    constructor <;> linarith
  rw [roundHalfAway_of_nonneg (by norm_num), rmag]
  simp only [Int.ofNat_eq_natCast, zpow_neg, zpow_natCast]
  rw [hf]
  have : (10:ℚ) ^ n ≠ 0 := hp.ne'
  field_simp
  linarith

theorem lead_small {d : ℚ} {n : ℤ} (hd : d = n) (h1 : 1 ≤ n) (h2 : n < 10000) : leadDigit d = n ∧ leadWeight d = 0 := by
  have hp : (0:ℚ) < d := by rw [hd]; exact_mod_cast (by omega : 0 < n)
  have hw : leadWeight d = 0 := by
    unfold leadWeight
    rw [abs_of_pos hp]
    apply le_antisymm
    · have : Int.log 10000 d < 1 := (Int.lt_zpow_iff_log_lt (by norm_num) hp).1 (by rw [hd]; norm_num; exact_mod_cast h2)
      omega
    · exact (Int.zpow_le_iff_le_log (by norm_num) hp).1 (by rw [hd]; norm_num; exact_mod_cast h1)
  refine ⟨?_, hw⟩
  unfold leadDigit
  rw [hw, abs_of_pos hp, hd]
  simp

/-- C63 (a limit of interchangeability): division is different. 1 and 1 written with 30 decimals are equal, but their quotients by 3 are not. -/
theorem C63_division_depends_on_scale [Build] {a a' b : Bin} (ha : Holds a 1 0) (ha' : Holds a' 1 30) (hb : Holds b 3 0) :
    Num.eq a a' = .ok true ∧ ∃ r r', Num.checkedDiv a b = .ok (some r) ∧ Num.checkedDiv a' b = .ok (some r') ∧ Num.eq r r' = .ok false := by
  obtain ⟨d1, w1⟩ := lead_small (d := 1) (n := 1) (by norm_num) (by norm_num) (by norm_num)
  obtain ⟨d3, w3⟩ := lead_small (d := 3) (n := 3) (by norm_num) (by norm_num) (by norm_num)
  have q0 : quotientScale 1 3 0 0 = 20 := by unfold quotientScale; rw [d1, w1, d3, w3]; norm_num
  have q1 : quotientScale 1 3 30 0 = 30 := by unfold quotientScale; rw [d1, w1, d3, w3]; norm_num
  obtain ⟨h1, -⟩ := C12_div_rounded ha hb (by norm_num)
  obtain ⟨h2, -⟩ := C12_div_rounded ha' hb (by norm_num)
  rw [q0, round_third (by norm_num)] at h1
  rw [q1, round_third (by norm_num)] at h2
  obtain ⟨r, e, hr⟩ := h1 (lt_limit (by norm_num [abs_lt]))
  obtain ⟨r', e', hr'⟩ := h2 (lt_limit (by norm_num [abs_lt]))
  refine ⟨eq_same ha ha', r, r', e, e', ?_⟩
  rw [eq_num hr hr', decide_eq_false (by norm_num)]

/-- The numbers of the last theorem exist; and so do equal numbers of different scale for the other theorems. -/
example [Build] : ∃ a a' b, Holds a 1 0 ∧ Holds a' 1 30 ∧ Holds b 3 0 ∧ Valid a ∧ Valid a' ∧ Valid b ∧ a ≠ a' ∧ Num.eq a a' = .ok true := by
  obtain ⟨a, ha⟩ := witness (x := 1) (s := 0) 1 (by norm_num) (by norm_num) (by norm_num) (by norm_num [abs_lt])
  obtain ⟨a', ha'⟩ := witness (x := 1) (s := 30) (10 ^ 30) (by norm_num) (by norm_num) (by norm_num) (by norm_num [abs_lt])
  obtain ⟨b, hb⟩ := witness (x := 3) (s := 0) 3 (by norm_num) (by norm_num) (by norm_num) (by norm_num [abs_lt])
  refine ⟨a, a', b, ha, ha', hb, .inr ⟨_, _, ha⟩, .inr ⟨_, _, ha'⟩, .inr ⟨_, _, hb⟩, ?_, eq_same ha ha'⟩
  rintro rfl
  have := (ha.inj ha').2
  norm_num at this

end PgNumeric.Props
