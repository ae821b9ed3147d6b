import Verif.Props.Interchange
/-!
# Laws of division and remainder (C64)
-/
namespace PgNumeric.Props
open PgNumeric Spec

/-- The second call gives the negative of what the first one gives (byte for byte what `negate` would make of it), or both give nothing. -/
def Opposite [Build] (m m' : M (Option Bin)) : Prop :=
  (m = .ok none ∧ m' = .ok none) ∨ ∃ r r', m = .ok (some r) ∧ Num.negate r = .ok r' ∧ m' = .ok (some r')

theorem opposite_of [Build] {m m' : M (Option Bin)} {y : ℚ} {t : ℤ} (h1 : |y| < limit → ∃ r, m = .ok (some r) ∧ Holds r y t)
    (h2 : limit ≤ |y| → m = .ok none) (h1' : |-y| < limit → ∃ r, m' = .ok (some r) ∧ Holds r (-y) t)
    (h2' : limit ≤ |-y| → m' = .ok none) : Opposite m m' := by
  rw [abs_neg] at h1' h2'
  rcases lt_or_ge |y| limit with h | h
  · obtain ⟨r, e, hr⟩ := h1 h
    obtain ⟨r', e', hr'⟩ := h1' h
    obtain ⟨q, eq, hq⟩ := Num.negate_ok hr
    exact .inr ⟨r, r', e, by rw [eq, hq.unique hr'], e'⟩
  · exact .inl ⟨h2 h, h2' h⟩

theorem opposite_nan [Build] {m m' : M (Option Bin)} (h : m = .ok (some Bin.nan)) (h' : m' = .ok (some Bin.nan)) : Opposite m m' :=
  .inr ⟨_, _, h, (C24_nan_unary nan_isNaN 0).2.2.2.2.2.1, h'⟩

theorem leadWeight_neg (x : ℚ) : leadWeight (-x) = leadWeight x := by unfold leadWeight; rw [abs_neg]

theorem leadDigit_neg (x : ℚ) : leadDigit (-x) = leadDigit x := by unfold leadDigit; rw [abs_neg, leadWeight_neg]

theorem quotientScale_neg_left (x y : ℚ) (s t : ℤ) : quotientScale (-x) y s t = quotientScale x y s t := by
  unfold quotientScale; rw [leadDigit_neg, leadWeight_neg]

theorem quotientScale_neg_right (x y : ℚ) (s t : ℤ) : quotientScale x (-y) s t = quotientScale x y s t := by
  unfold quotientScale; rw [leadDigit_neg, leadWeight_neg]

theorem quotientScale_ge (x y : ℚ) (s t : ℤ) : min 1000 (max s t) ≤ quotientScale x y s t := by
  unfold quotientScale; dsimp only; omega

theorem negate_num [Build] {a na : Bin} {x : ℚ} {s : ℤ} (ha : Holds a x s) (h : Num.negate a = .ok na) : Holds na (-x) s := by
  obtain ⟨r, e, hr⟩ := Num.negate_ok ha
  rw [h] at e; cases e; exact hr

theorem negate_valid [Build] {a na : Bin} (ha : Valid a) (h : Num.negate a = .ok na) : Valid na := by
  rcases ha with hn | ⟨x, s, ha⟩
  · rw [(C24_nan_unary hn 0).2.2.2.2.2.1] at h; cases h; exact .inl nan_isNaN
  · exact .inr ⟨_, _, negate_num ha h⟩

theorem negate_nan [Build] {a na : Bin} (ha : IsNaN a) (h : Num.negate a = .ok na) : IsNaN na := by
  rw [(C24_nan_unary ha 0).2.2.2.2.2.1] at h; cases h; exact nan_isNaN

/-- C64: the sign of a quotient is the product of the signs: exchanging one operand for its negative gives exactly the negative quotient,
or overflows (or divides by zero) just the same; the remainder has the sign of the dividend and does not see the sign of the divisor. -/
theorem C64_signs [Build] {a b na nb : Bin} (ha : Valid a) (hb : Valid b) (hna : Num.negate a = .ok na) (hnb : Num.negate b = .ok nb) :
    Opposite (Num.checkedDiv a b) (Num.checkedDiv na b) ∧ Opposite (Num.checkedDiv a b) (Num.checkedDiv a nb) ∧
    Opposite (Num.checkedDivTrunc a b) (Num.checkedDivTrunc na b) ∧ Opposite (Num.checkedDivTrunc a b) (Num.checkedDivTrunc a nb) ∧
    Opposite (Num.checkedRem a b) (Num.checkedRem na b) ∧ Num.checkedRem a nb = Num.checkedRem a b := by
  have hva := negate_valid ha hna
  have hvb := negate_valid hb hnb
  by_cases hn : IsNaN a ∨ IsNaN b
  · have hn1 : IsNaN na ∨ IsNaN b := hn.imp_left (negate_nan · hna)
    have hn2 : IsNaN a ∨ IsNaN nb := hn.imp_right (negate_nan · hnb)
    obtain ⟨-, -, -, d, t, r, -⟩ := C24_nan_binary ha hb hn
    obtain ⟨-, -, -, d1, t1, r1, -⟩ := C24_nan_binary hva hb hn1
    obtain ⟨-, -, -, d2, t2, r2, -⟩ := C24_nan_binary ha hvb hn2
    exact ⟨opposite_nan d d1, opposite_nan d d2, opposite_nan t t1, opposite_nan t t2, opposite_nan r r1, by rw [r2, r]⟩
  · push Not at hn
    obtain ⟨x, s, hx⟩ := ha.resolve_left hn.1
    obtain ⟨y, t, hy⟩ := hb.resolve_left hn.2
    have hx' := negate_num hx hna
    have hy' := negate_num hy hnb
    by_cases h0 : y = 0
    · subst h0
      rw [neg_zero] at hy'
      obtain ⟨d, t, r, -⟩ := C14_div_by_zero hx hy
      obtain ⟨d1, t1, r1, -⟩ := C14_div_by_zero hx' hy
      obtain ⟨d2, t2, r2, -⟩ := C14_div_by_zero hx hy'
      exact ⟨.inl ⟨d, d1⟩, .inl ⟨d, d2⟩, .inl ⟨t, t1⟩, .inl ⟨t, t2⟩, .inl ⟨r, r1⟩, by rw [r2, r]⟩
    · have h0' : -y ≠ 0 := neg_ne_zero.2 h0
      have e1 : -x / y = -(x / y) := neg_div _ _
      have e2 : x / -y = -(x / y) := div_neg _
      obtain ⟨d, d'⟩ := C12_div_rounded hx hy h0
      obtain ⟨d1, d1'⟩ := C12_div_rounded hx' hy h0
      obtain ⟨d2, d2'⟩ := C12_div_rounded hx hy' h0'
      rw [quotientScale_neg_left, e1, roundHalfAway_neg] at d1 d1'
      rw [quotientScale_neg_right, e2, roundHalfAway_neg] at d2 d2'
      obtain ⟨t, t'⟩ := Num.checkedDivTrunc_spec hx hy h0
      obtain ⟨t1, t1'⟩ := Num.checkedDivTrunc_spec hx' hy h0
      obtain ⟨t2, t2'⟩ := Num.checkedDivTrunc_spec hx hy' h0'
      rw [e1, truncTo_neg] at t1 t1'
      rw [e2, truncTo_neg] at t2 t2'
      obtain ⟨r, er, -, hr⟩ := Num.checkedRem_spec hx hy h0
      obtain ⟨r1, er1, -, hr1⟩ := Num.checkedRem_spec hx' hy h0
      obtain ⟨r2, er2, -, hr2⟩ := Num.checkedRem_spec hx hy' h0'
      refine ⟨opposite_of d d' d1 d1', opposite_of d d' d2 d2', opposite_of t t' t1 t1', opposite_of t t' t2 t2', ?_, ?_⟩
      · obtain ⟨q, eq, hq⟩ := Num.negate_ok hr
        refine .inr ⟨r, r1, er, ?_, er1⟩
        rw [eq, hq.unique (cast hr1 (by rw [e1, truncTo_neg]; ring) rfl)]
      · rw [er2, er, hr2.unique (cast hr (by rw [e2, truncTo_neg]; ring) rfl)]

/-- C64: dividing a product by a factor gives back the other factor: `(a * b) / b == a`, if `a` needs at most 1000 decimals. -/
theorem C64_cancel [Build] {a b p : Bin} {x y : ℚ} {s t : ℤ} (ha : Holds a x s) (hb : Holds b y t) (hy : y ≠ 0) (hx : HasScale x 1000)
    (hp : Num.checkedMul a b = .ok (some p)) : ∃ q, Num.checkedDiv p b = .ok (some q) ∧ Num.eq q a = .ok true := by
  have hpm := C10_mul_sound ha hb hp
  obtain ⟨hs, hs0, -, hl⟩ := ha.bounds
  have ht0 := hb.bounds.2.1
  obtain ⟨d, -⟩ := C12_div_rounded hpm hb hy
  have hsc : HasScale x (quotientScale (x * y) y (s + t) t) := by
    have := quotientScale_ge (x * y) y (s + t) t
    rcases le_total 1000 (max (s + t) t) with h | h
    · exact hx.mono (by omega)
    · exact hs.mono (by omega)
  rw [mul_div_cancel_right₀ x hy, rmag_eq_self_iff hsc] at d
  obtain ⟨q, e, hq⟩ := d hl
  exact ⟨q, e, eq_same hq ha⟩

/-- C64: `a / a == 1`, `0 / a == 0`, and `a / 1 == a` if `a` needs at most 1000 decimals, whatever the scales. -/
theorem C64_units [Build] {a o z : Bin} {x : ℚ} {s t u : ℤ} (ha : Holds a x s) (ho : Holds o 1 t) (hz : Holds z 0 u) :
    (x ≠ 0 → ∃ q, Num.checkedDiv a a = .ok (some q) ∧ Num.eq q o = .ok true) ∧
    (x ≠ 0 → ∃ q, Num.checkedDiv z a = .ok (some q) ∧ Num.eq q z = .ok true) ∧
    (HasScale x 1000 → ∃ q, Num.checkedDiv a o = .ok (some q) ∧ Num.eq q a = .ok true) := by
  obtain ⟨hs, hs0, -, hl⟩ := ha.bounds
  have hu0 := hz.bounds.2.1
  refine ⟨fun hx => ?_, fun hx => ?_, fun hx => ?_⟩
  · obtain ⟨d, -⟩ := C12_div_rounded ha ha hx
    have hq := (Num.quotientScale_bounds x x (t := s) hs0).1
    rw [div_self hx, rmag_eq_self_iff (HasScale.mono (s := 0) ⟨1, by norm_num⟩ hq)] at d
    obtain ⟨q, e, hq⟩ := d (lt_limit (by norm_num))
    exact ⟨q, e, eq_same hq ho⟩
  · obtain ⟨d, -⟩ := C12_div_rounded hz ha hx
    have hq := (Num.quotientScale_bounds 0 x (t := s) hu0).1
    rw [zero_div, rmag_eq_self_iff (HasScale.mono (s := 0) ⟨0, by norm_num⟩ hq)] at d
    obtain ⟨q, e, hq⟩ := d (lt_limit (by norm_num))
    exact ⟨q, e, eq_same hq hz⟩
  · obtain ⟨d, -⟩ := C12_div_rounded ha ho one_ne_zero
    have hsc : HasScale x (quotientScale x 1 s t) := by
      have := quotientScale_ge x 1 s t
      rcases le_total 1000 (max s t) with h | h
      · exact hx.mono (by omega)
      · exact hs.mono (by omega)
    rw [div_one, rmag_eq_self_iff hsc] at d
    obtain ⟨q, e, hq⟩ := d hl
    exact ⟨q, e, eq_same hq ha⟩

/-- C64: multiplying a quotient back misses the dividend by at most half a unit of the quotient's last place times the divisor. -/
theorem C64_back [Build] {a b q p : Bin} {x y : ℚ} {s t : ℤ} (ha : Holds a x s) (hb : Holds b y t) (hy : y ≠ 0)
    (hq : Num.checkedDiv a b = .ok (some q)) (hp : Num.checkedMul q b = .ok (some p)) :
    ∃ z k, Num.scale q = .ok (some k) ∧ Holds p z (k + t) ∧ |z - x| ≤ |y| * (1 / 2 * 10 ^ (-k)) := by
  obtain ⟨d, d'⟩ := C12_div_rounded ha hb hy
  rcases lt_or_ge |roundHalfAway (x / y) (quotientScale x y s t)| limit with h | h
  · obtain ⟨q', e, hq'⟩ := d h
    rw [hq] at e; cases e
    have hpm := C10_mul_sound hq' hb hp
    refine ⟨_, _, (C20_accessors hq').2.2.2, hpm, ?_⟩
    obtain ⟨hr, -, -⟩ := C12_round_meaning (x / y) (quotientScale x y s t)
    generalize quotientScale x y s t = k at *
    have hT := T_zpow_pos k
    have h1 : |roundHalfAway (x / y) k - x / y| ≤ 1 / 2 * 10 ^ (-k) := by
      rw [zpow_neg, ← div_eq_mul_inv, le_div_iff₀ hT]; exact hr
    have e : roundHalfAway (x / y) k * y - x = y * (roundHalfAway (x / y) k - x / y) := by field_simp
    rw [e, abs_mul]
    exact mul_le_mul_of_nonneg_left h1 (abs_nonneg y)
  · rw [d' h] at hq; cases hq

/-- C64: quotients rounded at the same scale keep the order of the dividends (for a positive divisor). -/
theorem C64_monotone [Build] {a a' b q q' : Bin} {x x' y : ℚ} {s s' t k : ℤ} (ha : Holds a x s) (ha' : Holds a' x' s') (hb : Holds b y t)
    (hy : 0 < y) (hle : Num.le a a' = .ok true) (hq : Num.checkedDiv a b = .ok (some q)) (hq' : Num.checkedDiv a' b = .ok (some q'))
    (hk : Num.scale q = .ok (some k)) (hk' : Num.scale q' = .ok (some k)) : Num.le q q' = .ok true := by
  rw [le_iff ha ha'] at hle
  have key : ∀ {a q : Bin} {x : ℚ} {s : ℤ}, Holds a x s → Num.checkedDiv a b = .ok (some q) → Num.scale q = .ok (some k) →
      Holds q (roundHalfAway (x / y) k) k := by
    intro a q x s ha hq hk
    obtain ⟨d, d'⟩ := C12_div_rounded ha hb hy.ne'
    rcases lt_or_ge |roundHalfAway (x / y) (quotientScale x y s t)| limit with h | h
    · obtain ⟨r, e, hr⟩ := d h
      rw [hq] at e; cases e
      rw [(C20_accessors hr).2.2.2] at hk
      cases hk
      exact hr
    · rw [d' h] at hq; cases hq
  rw [le_iff (key ha hq hk) (key ha' hq' hk')]
  exact roundHalfAway_mono (by gcongr) k

/-- C64: a dividend smaller than the divisor is its own remainder; taking the remainder twice changes nothing (byte for byte); the
remainder of an integer multiple of a number by that number is zero; and the remainder by one is what truncation cuts off. -/
theorem C64_remainder [Build] {a b r : Bin} {x y : ℚ} {s t : ℤ} (ha : Holds a x s) (hb : Holds b y t) (hy : y ≠ 0)
    (hr : Num.checkedRem a b = .ok (some r)) :
    (|x| < |y| → Num.eq r a = .ok true ∧ (t ≤ s → r = a)) ∧ Num.checkedRem r b = .ok (some r) ∧
    (∀ p q, HasScale x 0 → Num.checkedMul a b = .ok (some p) → Num.checkedRem p b = .ok (some q) → ∃ u, Holds q 0 u) ∧
    (y = 1 → ∀ n m, Num.trunc a 0 = .ok n → Num.checkedSub a n = .ok (some m) → Num.eq r m = .ok true) := by
  obtain ⟨r', e, -, hr'⟩ := Num.checkedRem_spec ha hb hy
  rw [hr] at e; cases e
  have small : ∀ {z : ℚ}, |z| < |y| → truncTo (z / y) 0 = 0 := by
    intro z hz
    have h1 : |z / y| < 1 := by rw [abs_div, div_lt_one (abs_pos.2 hy)]; exact hz
    rw [abs_lt] at h1
    rcases le_or_gt 0 (z / y) with h | h
    · rw [truncTo_zero_pos h, Int.floor_eq_zero_iff.2 ⟨h, h1.2⟩]; simp
    · rw [truncTo_zero_neg h.le, show ⌈z / y⌉ = 0 from Int.ceil_eq_iff.2 ⟨by push_cast; linarith [h1.1], by push_cast; exact h.le⟩]; simp
  have hlt : |x - truncTo (x / y) 0 * y| < |y| := by
    obtain ⟨r2, e2, h2, h3, -⟩ := C16_rem_law ha hb hy
    rw [hr] at e2; cases e2
    rw [(hr'.inj h2).1]
    exact h3
  refine ⟨fun h => ?_, ?_, fun p q hi hp hq => ?_, ?_⟩
  · rw [small h, zero_mul, sub_zero] at hr'
    exact ⟨eq_same hr' ha, fun hts => hr'.unique (cast ha rfl (by omega))⟩
  · obtain ⟨r2, e2, -, h2⟩ := Num.checkedRem_spec hr' hb hy
    rw [small hlt, zero_mul, sub_zero] at h2
    rw [e2, h2.unique (cast hr' rfl (by omega))]
  · have hpm := C10_mul_sound ha hb hp
    obtain ⟨q', e, -, hq'⟩ := Num.checkedRem_spec hpm hb hy
    rw [hq] at e; cases e
    rw [mul_div_cancel_right₀ x hy, truncTo_eq_self hi, sub_self] at hq'
    exact ⟨_, hq'⟩
  · rintro rfl n m hn hm
    obtain ⟨n', e, hn'⟩ := C18_trunc ha 0
    rw [hn] at e; cases e
    have hm' := sub_some ha hn' hm
    rw [div_one, mul_one] at hr'
    exact eq_same hr' hm'

theorem zero_scale (q : ℤ) : HasScale (0:ℚ) q := ⟨0, by norm_num⟩

theorem trunc_round_pos {w : ℚ} {k : ℤ} (hw : 0 ≤ w) (hk : 0 ≤ k) :
    truncTo (roundHalfAway w k) 0 = truncTo w 0 ∨
      (truncTo (roundHalfAway w k) 0 = truncTo w 0 + 1 ∧ roundHalfAway w k = truncTo w 0 + 1) := by
  have fix : ∀ n : ℤ, roundHalfAway (n:ℚ) k = n := fun n => rmag_eq_self_iff (HasScale.mono (s := 0) ⟨n, by norm_num⟩ hk)
  have h1 : ((⌊w⌋:ℤ):ℚ) ≤ roundHalfAway w k := by rw [← fix ⌊w⌋]; exact roundHalfAway_mono (Int.floor_le w) k
  have h2 : roundHalfAway w k ≤ ((⌊w⌋ + 1 : ℤ):ℚ) := by
    rw [← fix (⌊w⌋ + 1)]; exact roundHalfAway_mono (by push_cast; exact (Int.lt_floor_add_one w).le) k
  have h0 : (0:ℚ) ≤ ((⌊w⌋:ℤ):ℚ) := by exact_mod_cast Int.floor_nonneg.2 hw
  rw [truncTo_zero_pos hw, truncTo_zero_pos (h0.trans h1)]
  rcases h2.lt_or_eq with h2 | h2
  · left
    rw [Int.floor_eq_iff.2 ⟨h1, by push_cast at h2; exact h2⟩]
  · right
    rw [h2, Int.floor_intCast]; push_cast; exact ⟨rfl, rfl⟩

/-- C64: truncating a quotient is not quite the truncating division: it gives the same integer, or the next one away from zero — which happens only if
the quotient was itself rounded up to that integer. -/
theorem C64_trunc_of_quotient [Build] {a b q n d : Bin} {x y : ℚ} {s t : ℤ} (ha : Holds a x s) (hb : Holds b y t) (hy : y ≠ 0)
    (hq : Num.checkedDiv a b = .ok (some q)) (hn : Num.trunc q 0 = .ok n) (hd : Num.checkedDivTrunc a b = .ok (some d)) :
    Num.eq n d = .ok true ∨
      (Num.eq q n = .ok true ∧ ∃ u v k k', Holds n u k ∧ Holds d v k' ∧ ((0 < x / y ∧ u = v + 1) ∨ (x / y < 0 ∧ u = v - 1))) := by
  obtain ⟨c, c'⟩ := C12_div_rounded ha hb hy
  obtain ⟨g, g'⟩ := Num.checkedDivTrunc_spec ha hb hy
  have hk := (Num.quotientScale_bounds x y (t := t) ha.bounds.2.1).1
  rcases lt_or_ge |roundHalfAway (x / y) (quotientScale x y s t)| limit with h | h
  swap
  · rw [c' h] at hq; cases hq
  obtain ⟨q', e, hq'⟩ := c h
  rw [hq] at e; cases e
  rcases lt_or_ge |truncTo (x / y) 0| limit with h' | h'
  swap
  · rw [g' h'] at hd; cases hd
  obtain ⟨d', e, hd'⟩ := g h'
  rw [hd] at e; cases e
  obtain ⟨n', e, hn'⟩ := C18_trunc hq' 0
  rw [hn] at e; cases e
  rw [show max (-1000) (min 1000 (0:ℤ)) = 0 by decide] at hn'
  generalize quotientScale x y s t = k at *
  rcases lt_trichotomy (x / y) 0 with hs | hs | hs
  · have := trunc_round_pos (w := -(x / y)) (k := k) (by linarith) hk
    rw [roundHalfAway_neg, truncTo_neg, truncTo_neg] at this
    rcases this with h1 | ⟨h1, h2⟩
    · exact .inl (eq_same (cast hn' (by linarith : _ = truncTo (x / y) 0) rfl) hd')
    · exact .inr ⟨eq_same hq' (cast hn' (by linarith) rfl), _, _, _, _, hn', hd', .inr ⟨hs, by linarith⟩⟩
  · refine .inl (eq_same (cast hn' ?_ rfl) hd')
    rw [hs, rmag_eq_self_iff (zero_scale k)]
  · rcases trunc_round_pos (w := x / y) (k := k) hs.le hk with h1 | ⟨h1, h2⟩
    · exact .inl (eq_same (cast hn' h1 rfl) hd')
    · exact .inr ⟨eq_same hq' (cast hn' (by linarith) rfl), _, _, _, _, hn', hd', .inl ⟨hs, h1⟩⟩

theorem lead_big {d : ℚ} {n w : ℤ} (h1 : 1 ≤ n) (h2 : n < 10000) (hlo : (n:ℚ) * 10000 ^ w ≤ d) (hhi : d < (n + 1) * 10000 ^ w) :
    leadDigit d = n ∧ leadWeight d = w := by
  have hB : (0:ℚ) < 10000 ^ w := by positivity
  have h1' : (1:ℚ) ≤ n := by exact_mod_cast h1
  have h2' : ((n:ℚ) + 1) ≤ 10000 := by exact_mod_cast h2
  have hp : 0 < d := lt_of_lt_of_le (by positivity) hlo
  have hw : leadWeight d = w := by
    unfold leadWeight
    rw [abs_of_pos hp]
    apply le_antisymm
    · have : Int.log 10000 d < w + 1 := (Int.lt_zpow_iff_log_lt (by norm_num) hp).1 (by
        rw [zpow_add_one₀ (by norm_num)]; push_cast; nlinarith)
      omega
    · exact (Int.zpow_le_iff_le_log (by norm_num) hp).1 (by push_cast; nlinarith)
  refine ⟨?_, hw⟩
  unfold leadDigit
  rw [hw, abs_of_pos hp, Int.floor_eq_iff, le_div_iff₀ hB, div_lt_iff₀ hB]
  exact ⟨hlo, hhi⟩

/-- C64: the two do differ: `(10^30 - 1) / 10^30` is rounded to 1 at its 20 decimals, while the truncating division gives 0. -/
theorem C64_trunc_of_quotient_differs [Build] {a b : Bin} (ha : Holds a (10 ^ 30 - 1) 0) (hb : Holds b (10 ^ 30) 0) :
    ∃ q n d, Num.checkedDiv a b = .ok (some q) ∧ Num.trunc q 0 = .ok n ∧ Num.checkedDivTrunc a b = .ok (some d) ∧ Num.eq n d = .ok false := by
  obtain ⟨d1, w1⟩ := lead_big (d := 10 ^ 30 - 1) (n := 99) (w := 7) (by norm_num) (by norm_num) (by norm_num) (by norm_num)
  obtain ⟨d2, w2⟩ := lead_big (d := 10 ^ 30) (n := 100) (w := 7) (by norm_num) (by norm_num) (by norm_num) (by norm_num)
  have hq : quotientScale (10 ^ 30 - 1) (10 ^ 30) 0 0 = 20 := by unfold quotientScale; rw [d1, w1, d2, w2]; norm_num
  have hr : roundHalfAway ((10 ^ 30 - 1) / 10 ^ 30) 20 = 1 := by
    unfold roundHalfAway
    rw [if_neg (by norm_num), Int.floor_eq_iff (z := 10 ^ 20) |>.2 (by norm_num)]
    norm_num
  have ht : truncTo ((10 ^ 30 - 1) / 10 ^ 30) 0 = 0 := by
    rw [truncTo_zero_pos (by norm_num), Int.floor_eq_iff (z := 0) |>.2 (by norm_num)]; norm_num
  obtain ⟨c, -⟩ := C12_div_rounded ha hb (by norm_num)
  obtain ⟨g, -⟩ := Num.checkedDivTrunc_spec ha hb (by norm_num)
  rw [hq, hr] at c
  rw [ht] at g
  obtain ⟨q, eq, hq'⟩ := c (lt_limit (by norm_num))
  obtain ⟨d, ed, hd'⟩ := g (lt_limit (by norm_num))
  obtain ⟨n, en, hn'⟩ := C18_trunc hq' 0
  rw [truncTo_eq_self ⟨1, by norm_num⟩] at hn'
  refine ⟨q, n, d, eq, en, ed, ?_⟩
  rw [eq_num hn' hd', decide_eq_false (by norm_num)]

/-- Those two numbers exist. -/
example [Build] : ∃ a b, Holds a (10 ^ 30 - 1) 0 ∧ Holds b (10 ^ 30) 0 := by
  obtain ⟨a, ha⟩ := witness (x := 10 ^ 30 - 1) (s := 0) (10 ^ 30 - 1) (by norm_num) (by norm_num) (by norm_num) (by norm_num [abs_lt])
  obtain ⟨b, hb⟩ := witness (x := 10 ^ 30) (s := 0) (10 ^ 30) (by norm_num) (by norm_num) (by norm_num) (by norm_num [abs_lt])
  exact ⟨a, b, ha, hb⟩

/-- The hypotheses are met: 5.0 and 2 with their negatives; 5.0 * 2 and 5.0 / 2 and 5.0 % 2 exist; 1 / 3 and 2 / 3 have the same scale. -/
example [Build] : ∃ a b na nb p q m r : Bin, Holds a 5 1 ∧ Holds b 2 0 ∧ Num.negate a = .ok na ∧ Num.negate b = .ok nb ∧
    HasScale (5 : ℚ) 1000 ∧ Num.checkedMul a b = .ok (some p) ∧ Num.checkedDiv a b = .ok (some q) ∧ Num.checkedMul q b = .ok (some m) ∧
    Num.checkedRem a b = .ok (some r) := by
  obtain ⟨a, ha⟩ := witness (x := 5) (s := 1) 50 (by norm_num) (by norm_num) (by norm_num) (by norm_num [abs_lt])
  obtain ⟨b, hb⟩ := witness (x := 2) (s := 0) 2 (by norm_num) (by norm_num) (by norm_num) (by norm_num [abs_lt])
  obtain ⟨na, ena, -⟩ := Num.negate_ok ha
  obtain ⟨nb, enb, -⟩ := Num.negate_ok hb
  obtain ⟨p, ep, -⟩ := C10_mul_exact ha hb (by norm_num) (lt_limit (by norm_num [abs_lt]))
  obtain ⟨d, -⟩ := C12_div_rounded ha hb two_ne_zero
  have hq0 := Num.quotientScale_bounds 5 2 (s := 1) (t := 0) (by norm_num)
  have hs : HasScale (5 / 2 : ℚ) (quotientScale 5 2 1 0) := by
    have := quotientScale_ge 5 2 1 0
    exact HasScale.mono (s := 1) ⟨25, by norm_num⟩ (by omega)
  rw [rmag_eq_self_iff hs] at d
  obtain ⟨q, eq, hq⟩ := d (lt_limit (by norm_num [abs_lt]))
  obtain ⟨m, em, -⟩ := C10_mul_exact hq hb (by omega) (lt_limit (by norm_num [abs_lt]))
  obtain ⟨r, er, -⟩ := Num.checkedRem_spec ha hb two_ne_zero
  exact ⟨a, b, na, nb, p, q, m, r, ha, hb, ena, enb, HasScale.mono (s := 0) ⟨5, by norm_num⟩ (by norm_num), ep, eq, em, er⟩

end PgNumeric.Props
