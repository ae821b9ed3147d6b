import Verif.Props.Arith
/-!
# Order, hashing and algebraic laws (C21, C22, C38, C44, C45)
-/
namespace PgNumeric.Props
open PgNumeric Spec

/-- C21: `cmp` is the comparison of the extended values (`⊤` for NaN), ignoring scales; `==`, `<`, `<=` and
`partial_cmp` agree with it. As `WithTop ℚ` is linearly ordered, this makes it a total order. -/
theorem C21_cmp_is_value_order [Build] {a b : Bin} {k l : WithTop ℚ} (ha : Denotes a k) (hb : Denotes b l) :
    Num.cmp a b = .ok (compare k l) ∧ Num.partialCmp a b = .ok (some (compare k l)) ∧
    Num.eq a b = .ok (decide (k = l)) ∧ Num.lt a b = .ok (decide (k < l)) ∧ Num.le a b = .ok (decide (k ≤ l)) := by
  refine ⟨Num.cmp_spec ha hb, ?_, Num.eq_spec ha hb, Num.lt_spec ha hb, Num.le_spec ha hb⟩
  unfold Num.partialCmp
  rw [Num.cmp_spec ha hb]; rfl

/-- C21: every valid numeric denotes exactly one extended value. -/
theorem C21_denotes_total [Build] {a : Bin} (h : Valid a) : ∃ k, Denotes a k := Num.valid_denotes h

/-- C21: reflexive, total, antisymmetric and transitive in the library's own terms. -/
theorem C21_total_order [Build] {a b c : Bin} (ha : Valid a) (hb : Valid b) (hc : Valid c) :
    Num.cmp a a = .ok .eq ∧
    (Num.le a b = .ok true ∨ Num.le b a = .ok true) ∧
    (Num.le a b = .ok true → Num.le b a = .ok true → Num.eq a b = .ok true) ∧
    (Num.le a b = .ok true → Num.le b c = .ok true → Num.le a c = .ok true) ∧
    (Num.cmp a b = .ok .lt ↔ Num.cmp b a = .ok .gt) ∧
    (IsNaN a → Num.le b a = .ok true) := by
  obtain ⟨k, ha'⟩ := Num.valid_denotes ha
  obtain ⟨l, hb'⟩ := Num.valid_denotes hb
  obtain ⟨m, hc'⟩ := Num.valid_denotes hc
  simp only [Num.cmp_spec ha' ha', Num.cmp_spec ha' hb', Num.cmp_spec hb' ha', Num.le_spec ha' hb', Num.le_spec hb' ha',
    Num.le_spec hb' hc', Num.le_spec ha' hc', Num.eq_spec ha' hb', Except.ok.injEq, decide_eq_true_eq]
  refine ⟨compare_eq_iff_eq.2 rfl, le_total k l, fun h h' => le_antisymm h h', fun h h' => le_trans h h', ?_, ?_⟩
  · rw [compare_lt_iff_lt, compare_gt_iff_gt]
  · intro hn
    rcases ha' with ⟨-, rfl⟩ | ⟨x, s, h, -⟩
    · exact le_top
    · exact absurd h ((C24_nan_accessors hn).2.2.2.2 x s)

example [Build] : ∃ a b, Denotes a (3 : ℚ) ∧ Denotes b (⊤ : WithTop ℚ) := by
  obtain ⟨a, ha⟩ := witness (x := 3) (s := 1) 30 (by norm_num) (by norm_num) (by norm_num) (by norm_num [abs_lt])
  exact ⟨a, Bin.nan, .inr ⟨_, _, ha, rfl⟩, .inl ⟨nan_isNaN, rfl⟩⟩

/-- C22: the hasher receives the same writes exactly when the numbers compare equal (so also never for different
values), and hashing never faults. -/
theorem C22_hash_iff_eq [Build] {a b : Bin} (ha : Valid a) (hb : Valid b) :
    ∃ wa wb, Num.hash a = .ok wa ∧ Num.hash b = .ok wb ∧ (wa = wb ↔ Num.cmp a b = .ok .eq) := by
  obtain ⟨k, ha⟩ := Num.valid_denotes ha
  obtain ⟨l, hb⟩ := Num.valid_denotes hb
  obtain ⟨wa, wb, e1, e2, h⟩ := Num.hash_spec ha hb
  refine ⟨wa, wb, e1, e2, ?_⟩
  rw [h, Num.cmp_spec ha hb, Except.ok.injEq, compare_eq_iff_eq]

/-- Same value, different scales: equal and same hash, different bytes. -/
example [Build] : ∃ a b, Valid a ∧ Valid b ∧ a ≠ b ∧ Num.cmp a b = .ok .eq := by
  obtain ⟨a, ha⟩ := witness (x := 3) (s := 1) 30 (by norm_num) (by norm_num) (by norm_num) (by norm_num [abs_lt])
  obtain ⟨b, hb⟩ := witness (x := 3) (s := 2) 300 (by norm_num) (by norm_num) (by norm_num) (by norm_num [abs_lt])
  refine ⟨a, b, .inr ⟨_, _, ha⟩, .inr ⟨_, _, hb⟩, ?_, ?_⟩
  · rintro rfl
    have := (ha.inj hb).2
    norm_num at this
  · rw [(C21_cmp_is_value_order (.inr ⟨_, _, ha, rfl⟩) (.inr ⟨_, _, hb, rfl⟩)).1, compare_eq_iff_eq.2 rfl]

/-! ## C38 ring laws, byte for byte -/

theorem add_some [Build] {a b r : Bin} {x y : ℚ} {s t : Int} (ha : Holds a x s) (hb : Holds b y t)
    (h : Num.checkedAdd a b = .ok (some r)) : Holds r (x + y) (max s t) := by
  rcases lt_or_ge |x + y| limit with hl | hl
  · obtain ⟨r', e, hr⟩ := (C08_add_exact ha hb).1 hl
    rw [h] at e; cases e; exact hr
  · rw [(C08_add_exact ha hb).2 hl] at h; cases h

theorem sub_some [Build] {a b r : Bin} {x y : ℚ} {s t : Int} (ha : Holds a x s) (hb : Holds b y t)
    (h : Num.checkedSub a b = .ok (some r)) : Holds r (x - y) (max s t) := by
  rcases lt_or_ge |x - y| limit with hl | hl
  · obtain ⟨r', e, hr⟩ := (C09_sub_exact ha hb).1 hl
    rw [h] at e; cases e; exact hr
  · rw [(C09_sub_exact ha hb).2 hl] at h; cases h

theorem add_back [Build] {a b : Bin} {x y z : ℚ} {s t u : Int} (ha : Holds a x s) (hb : Holds b y t)
    {r : Bin} (hr : Holds r z u) (hz : z = x + y) (hu : u = max s t) : Num.checkedAdd a b = .ok (some r) := by
  subst hz; subst hu
  obtain ⟨r', e, hr'⟩ := (C08_add_exact ha hb).1 hr.bounds.2.2.2
  rw [e, hr'.unique hr]

theorem sub_back [Build] {a b : Bin} {x y z : ℚ} {s t u : Int} (ha : Holds a x s) (hb : Holds b y t)
    {r : Bin} (hr : Holds r z u) (hz : z = x - y) (hu : u = max s t) : Num.checkedSub a b = .ok (some r) := by
  subst hz; subst hu
  obtain ⟨r', e, hr'⟩ := (C09_sub_exact ha hb).1 hr.bounds.2.2.2
  rw [e, hr'.unique hr]

theorem mul_back [Build] {a b : Bin} {x y z : ℚ} {s t u : Int} (ha : Holds a x s) (hb : Holds b y t)
    {r : Bin} (hr : Holds r z u) (hz : z = x * y) (hu : u = s + t) : Num.checkedMul a b = .ok (some r) := by
  subst hz; subst hu
  obtain ⟨r', e, hr'⟩ := C10_mul_exact ha hb hr.bounds.2.2.1 hr.bounds.2.2.2
  rw [e, hr'.unique hr]

/-- C38: addition and multiplication are commutative on all valid numerics: same bytes, same overflow. -/
theorem C38_commutative [Build] {a b : Bin} (ha : Valid a) (hb : Valid b) :
    Num.checkedAdd a b = Num.checkedAdd b a ∧ Num.checkedMul a b = Num.checkedMul b a := by
  by_cases hn : IsNaN a ∨ IsNaN b
  · have h1 := C24_nan_binary ha hb hn
    have h2 := C24_nan_binary hb ha hn.symm
    exact ⟨by rw [h1.1, h2.1], by rw [h1.2.2.1, h2.2.2.1]⟩
  · push Not at hn
    obtain ⟨x, s, ha⟩ := ha.resolve_left hn.1
    obtain ⟨y, t, hb⟩ := hb.resolve_left hn.2
    constructor
    · rcases lt_or_ge |x + y| limit with hl | hl
      · obtain ⟨r, e, hr⟩ := (C08_add_exact ha hb).1 hl
        rw [e, add_back hb ha hr (add_comm _ _) (max_comm _ _)]
      · rw [(C08_add_exact ha hb).2 hl, (C08_add_exact hb ha).2 (by rwa [add_comm])]
    · obtain ⟨h1, h2, h3, h4⟩ := Num.checkedMul_spec ha hb
      obtain ⟨g1, g2, g3, g4⟩ := Num.checkedMul_spec hb ha
      rw [mul_comm y x, add_comm t s] at g1 g2 g3 g4
      rcases le_or_gt (s + t) 16383 with hs | hs
      · rcases lt_or_ge |x * y| limit with hl | hl
        · obtain ⟨r, e, hr⟩ := h1 hs hl
          obtain ⟨r', e', hr'⟩ := g1 hs hl
          rw [e, e', hr.unique hr']
        · rw [h2 hs hl, g2 hs hl]
      · by_cases h0 : x * y = 0
        · rw [h4 hs h0, g4 hs h0]
        · rw [h3 hs h0, g3 hs h0]

/-- C38: associativity of addition: if both sides are defined they have the same bytes; indeed the right-hand
side is defined as soon as the left one and `b + c` are. -/
theorem C38_add_assoc [Build] {a b c ab bc r : Bin} (ha : Valid a) (hb : Valid b) (hc : Valid c)
    (h1 : Num.checkedAdd a b = .ok (some ab)) (h2 : Num.checkedAdd ab c = .ok (some r))
    (h3 : Num.checkedAdd b c = .ok (some bc)) : Num.checkedAdd a bc = .ok (some r) := by
  have nanv : Valid (Bin.nan) := .inl nan_isNaN
  by_cases hna : IsNaN a
  · rw [(C24_nan_binary ha hb (.inl hna)).1] at h1; cases h1
    rw [(C24_nan_binary nanv hc (.inl nan_isNaN)).1] at h2; cases h2
    have hbc : Valid bc := by
      by_cases hn : IsNaN b ∨ IsNaN c
      · rw [(C24_nan_binary hb hc hn).1] at h3; cases h3; exact nanv
      · push Not at hn
        obtain ⟨y, t, hb⟩ := hb.resolve_left hn.1
        obtain ⟨z, u, hc⟩ := hc.resolve_left hn.2
        exact .inr ⟨_, _, add_some hb hc h3⟩
    exact (C24_nan_binary ha hbc (.inl hna)).1
  · obtain ⟨x, s, ha'⟩ := ha.resolve_left hna
    by_cases hnb : IsNaN b
    · rw [(C24_nan_binary ha hb (.inr hnb)).1] at h1; cases h1
      rw [(C24_nan_binary nanv hc (.inl nan_isNaN)).1] at h2; cases h2
      rw [(C24_nan_binary hb hc (.inl hnb)).1] at h3; cases h3
      exact (C24_nan_binary ha nanv (.inr nan_isNaN)).1
    · obtain ⟨y, t, hb'⟩ := hb.resolve_left hnb
      have hab := add_some ha' hb' h1
      by_cases hnc : IsNaN c
      · rw [(C24_nan_binary (.inr ⟨_, _, hab⟩) hc (.inr hnc)).1] at h2; cases h2
        rw [(C24_nan_binary hb hc (.inr hnc)).1] at h3; cases h3
        exact (C24_nan_binary ha nanv (.inr nan_isNaN)).1
      · obtain ⟨z, u, hc'⟩ := hc.resolve_left hnc
        exact add_back ha' (add_some hb' hc' h3) (add_some hab hc' h2) (by ring) (max_assoc _ _ _)

/-- C38: associativity of multiplication, byte for byte. -/
theorem C38_mul_assoc [Build] {a b c ab bc r : Bin} {x y z : ℚ} {s t u : Int} (ha : Holds a x s) (hb : Holds b y t)
    (hc : Holds c z u) (h1 : Num.checkedMul a b = .ok (some ab)) (h2 : Num.checkedMul ab c = .ok (some r))
    (h3 : Num.checkedMul b c = .ok (some bc)) : Num.checkedMul a bc = .ok (some r) :=
  mul_back ha (C10_mul_sound hb hc h3) (C10_mul_sound (C10_mul_sound ha hb h1) hc h2) (mul_assoc _ _ _) (add_assoc _ _ _)

/-- C38: distributivity, byte for byte (the scales agree as well). -/
theorem C38_distrib [Build] {a b c bc ab ac r : Bin} {x y z : ℚ} {s t u : Int} (ha : Holds a x s) (hb : Holds b y t)
    (hc : Holds c z u) (h1 : Num.checkedAdd b c = .ok (some bc)) (h2 : Num.checkedMul a bc = .ok (some r))
    (h3 : Num.checkedMul a b = .ok (some ab)) (h4 : Num.checkedMul a c = .ok (some ac)) :
    Num.checkedAdd ab ac = .ok (some r) :=
  add_back (C10_mul_sound ha hb h3) (C10_mul_sound ha hc h4) (C10_mul_sound ha (add_some hb hc h1) h2) (by ring) (by omega)

/-- C38: `a - b` is `a + (-b)`, byte for byte and with the same overflow, for all valid operands. -/
theorem C38_sub_eq_add_neg [Build] {a b nb : Bin} (ha : Valid a) (hb : Valid b) (h : Num.negate b = .ok nb) :
    Num.checkedSub a b = Num.checkedAdd a nb := by
  have nanv : Valid (Bin.nan) := .inl nan_isNaN
  by_cases hnb : IsNaN b
  · rw [(C24_nan_unary hnb 0).2.2.2.2.2.1] at h; cases h
    rw [(C24_nan_binary ha hb (.inr hnb)).2.1, (C24_nan_binary ha nanv (.inr nan_isNaN)).1]
  · obtain ⟨y, t, hb'⟩ := hb.resolve_left hnb
    obtain ⟨r, e, hr⟩ := Num.negate_ok hb'
    rw [h] at e; cases e
    by_cases hna : IsNaN a
    · rw [(C24_nan_binary ha hb (.inl hna)).2.1, (C24_nan_binary ha (.inr ⟨_, _, hr⟩) (.inl hna)).1]
    · obtain ⟨x, s, ha'⟩ := ha.resolve_left hna
      rcases lt_or_ge |x - y| limit with hl | hl
      · obtain ⟨q, eq, hq⟩ := (C09_sub_exact ha' hb').1 hl
        rw [eq, add_back ha' hr hq (by ring) rfl]
      · rw [(C09_sub_exact ha' hb').2 hl, (C08_add_exact ha' hr).2 (by rwa [← sub_eq_add_neg])]

/-- C38: `(a + b) - b = a` up to scale: the bytes of `a` when its scale is at least that of `b`. -/
theorem C38_add_sub_cancel [Build] {a b ab : Bin} {x y : ℚ} {s t : Int} (ha : Holds a x s) (hb : Holds b y t)
    (h : Num.checkedAdd a b = .ok (some ab)) (hts : t ≤ s) : Num.checkedSub ab b = .ok (some a) :=
  sub_back (add_some ha hb h) hb ha (by ring) (by omega)

example [Build] : ∃ a b c ab bc r, Holds a (1/2) 1 ∧ Holds b (1/4) 2 ∧ Holds c (-7) 0 ∧
    Num.checkedAdd a b = .ok (some ab) ∧ Num.checkedAdd ab c = .ok (some r) ∧ Num.checkedAdd b c = .ok (some bc) := by
  obtain ⟨a, ha⟩ := witness (x := 1/2) (s := 1) 5 (by norm_num) (by norm_num) (by norm_num) (by norm_num [abs_lt])
  obtain ⟨b, hb⟩ := witness (x := 1/4) (s := 2) 25 (by norm_num) (by norm_num) (by norm_num) (by norm_num [abs_lt])
  obtain ⟨c, hc⟩ := witness (x := -7) (s := 0) (-7) (by norm_num) (by norm_num) (by norm_num) (by norm_num [abs_lt])
  obtain ⟨ab, e1, h1⟩ := (C08_add_exact ha hb).1 (lt_limit (by norm_num [abs_lt]))
  obtain ⟨bc, e2, h2⟩ := (C08_add_exact hb hc).1 (lt_limit (by norm_num [abs_lt]))
  obtain ⟨r, e3, h3⟩ := (C08_add_exact h1 hc).1 (lt_limit (by norm_num [abs_lt]))
  exact ⟨a, b, c, ab, bc, r, ha, hb, hc, e1, e3, e2⟩

/-! ## C44 monotonicity, C45 idempotence -/

theorem roundHalfAway_mono {x y : ℚ} (h : x ≤ y) (k : Int) : roundHalfAway x k ≤ roundHalfAway y k := by
  have hT := T_zpow_pos k
  have key : ∀ m n : ℚ, m ≤ n → rmag m k ≤ rmag n k := by
    intro m n h
    unfold rmag
    apply div_le_div_of_nonneg_right _ hT.le
    have : m * 10 ^ k + 1/2 ≤ n * 10 ^ k + 1/2 := by nlinarith
    exact_mod_cast Int.floor_le_floor this
  have nn : ∀ m : ℚ, 0 ≤ m → 0 ≤ rmag m k := by
    intro m hm
    unfold rmag
    exact div_nonneg (by exact_mod_cast Int.floor_nonneg.2 (by positivity)) hT.le
  have negc : ∀ m : ℚ, m < 0 → roundHalfAway m k = - rmag (-m) k := by
    intro m hm
    have : m = -(-m) := by ring
    conv_lhs => rw [this]
    rw [roundHalfAway_neg, roundHalfAway_of_nonneg (by linarith)]
  rcases le_or_gt 0 x with hx | hx
  · rw [roundHalfAway_of_nonneg hx, roundHalfAway_of_nonneg (by linarith)]; exact key _ _ h
  · rw [negc x hx]
    have := nn (-x) (by linarith)
    rcases le_or_gt 0 y with hy | hy
    · rw [roundHalfAway_of_nonneg hy]
      have := nn y hy
      linarith
    · rw [negc y hy]
      have := key (-y) (-x) (by linarith)
      linarith

theorem truncTo_mono {x y : ℚ} (h : x ≤ y) (k : Int) : truncTo x k ≤ truncTo y k := by
  have hT := T_zpow_pos k
  have key : ∀ m n : ℚ, m ≤ n → tmag m k ≤ tmag n k := by
    intro m n h
    unfold tmag
    apply div_le_div_of_nonneg_right _ hT.le
    have : m * 10 ^ k ≤ n * 10 ^ k := by nlinarith
    exact_mod_cast Int.floor_le_floor this
  have nn : ∀ m : ℚ, 0 ≤ m → 0 ≤ tmag m k := by
    intro m hm
    unfold tmag
    exact div_nonneg (by exact_mod_cast Int.floor_nonneg.2 (by positivity)) hT.le
  have negc : ∀ m : ℚ, m < 0 → truncTo m k = - tmag (-m) k := by
    intro m hm
    have : m = -(-m) := by ring
    conv_lhs => rw [this]
    rw [truncTo_neg, truncTo_of_nonneg (by linarith)]
  rcases le_or_gt 0 x with hx | hx
  · rw [truncTo_of_nonneg hx, truncTo_of_nonneg (by linarith)]; exact key _ _ h
  · rw [negc x hx]
    have := nn (-x) (by linarith)
    rcases le_or_gt 0 y with hy | hy
    · rw [truncTo_of_nonneg hy]
      have := nn y hy
      linarith
    · rw [negc y hy]
      have := key (-y) (-x) (by linarith)
      linarith

theorem le_iff [Build] {a b : Bin} {x y : ℚ} {s t : Int} (ha : Holds a x s) (hb : Holds b y t) :
    Num.le a b = .ok true ↔ x ≤ y := by
  rw [Num.le_spec (.inr ⟨x, s, ha, rfl⟩) (.inr ⟨y, t, hb, rfl⟩), Except.ok.injEq, decide_eq_true_eq, WithTop.coe_le_coe]

theorem round_some [Build] {a r : Bin} {x : ℚ} {s : Int} {n : Int} (ha : Holds a x s) (h : Num.round a n = .ok r) :
    Holds r (roundHalfAway x (max (-1000) (min 1000 n))) (max (max (-1000) (min 1000 n)) 0) := by
  rcases lt_or_ge |roundHalfAway x (max (-1000) (min 1000 n))| limit with hl | hl
  · obtain ⟨r', e, hr⟩ := (C17_round ha n).1 hl
    rw [h] at e; cases e; exact hr
  · rw [(C17_round ha n).2 hl] at h; cases h

theorem trunc_some [Build] {a r : Bin} {x : ℚ} {s : Int} {n : Int} (ha : Holds a x s) (h : Num.trunc a n = .ok r) :
    Holds r (truncTo x (max (-1000) (min 1000 n))) (max (max (-1000) (min 1000 n)) 0) := by
  obtain ⟨r', e, hr⟩ := C18_trunc ha n
  rw [h] at e; cases e; exact hr

/-- C44: addition, rounding and truncation are monotone and negation is antitone, in the library's own order. -/
theorem C44_monotone [Build] {a b c : Bin} {x y z : ℚ} {s t u : Int} (ha : Holds a x s) (hb : Holds b y t) (hc : Holds c z u)
    (hle : Num.le a b = .ok true) :
    (∀ p q, Num.checkedAdd a c = .ok (some p) → Num.checkedAdd b c = .ok (some q) → Num.le p q = .ok true) ∧
    (∀ p q, Num.checkedSub a c = .ok (some p) → Num.checkedSub b c = .ok (some q) → Num.le p q = .ok true) ∧
    (∀ n p q, Num.round a n = .ok p → Num.round b n = .ok q → Num.le p q = .ok true) ∧
    (∀ n p q, Num.trunc a n = .ok p → Num.trunc b n = .ok q → Num.le p q = .ok true) ∧
    (∀ p q, Num.negate a = .ok p → Num.negate b = .ok q → Num.le q p = .ok true) ∧
    (∀ p q, 0 ≤ z → Num.checkedMul a c = .ok (some p) → Num.checkedMul b c = .ok (some q) → Num.le p q = .ok true) := by
  rw [le_iff ha hb] at hle
  refine ⟨fun p q h1 h2 => ?_, fun p q h1 h2 => ?_, fun n p q h1 h2 => ?_, fun n p q h1 h2 => ?_, fun p q h1 h2 => ?_, fun p q hz h1 h2 => ?_⟩
  · rw [le_iff (add_some ha hc h1) (add_some hb hc h2)]; linarith
  · rw [le_iff (sub_some ha hc h1) (sub_some hb hc h2)]; linarith
  · rw [le_iff (round_some ha h1) (round_some hb h2)]; exact roundHalfAway_mono hle _
  · rw [le_iff (trunc_some ha h1) (trunc_some hb h2)]; exact truncTo_mono hle _
  · obtain ⟨p', e, hp⟩ := Num.negate_ok ha
    rw [h1] at e; cases e
    obtain ⟨q', e, hq⟩ := Num.negate_ok hb
    rw [h2] at e; cases e
    rw [le_iff hq hp]; linarith
  · rw [le_iff (C10_mul_sound ha hc h1) (C10_mul_sound hb hc h2)]; nlinarith

/-- C45: rounding and truncating twice at the same scale is the same as once, byte for byte. -/
theorem C45_idempotent [Build] {a r : Bin} (ha : Valid a) (n : Int) :
    (Num.round a n = .ok r → Num.round r n = .ok r) ∧ (Num.trunc a n = .ok r → Num.trunc r n = .ok r) := by
  by_cases hn : IsNaN a
  · have h := C24_nan_unary hn n
    have h' := C24_nan_unary (nan_isNaN) n
    constructor
    · intro e; rw [h.1] at e; cases e; exact h'.1
    · intro e; rw [h.2.1] at e; cases e; exact h'.2.1
  · obtain ⟨x, s, ha⟩ := ha.resolve_left hn
    constructor
    · intro e
      have hr := round_some ha e
      have es := rmag_eq_self_iff (roundHalfAway_hasScale x (max (-1000) (min 1000 n)))
      obtain ⟨q, eq, hq⟩ := (C17_round hr n).1 (by rw [es]; exact hr.bounds.2.2.2)
      rw [es] at hq
      rw [eq, hq.unique hr]
    · intro e
      have hr := trunc_some ha e
      have es := truncTo_eq_self (truncTo_hasScale x (max (-1000) (min 1000 n)))
      obtain ⟨q, eq, hq⟩ := C18_trunc hr n
      rw [es] at hq
      rw [eq, hq.unique hr]

/-- C45: rounding at a scale at or above the number's own scale keeps the value, at exactly the own scale it
keeps the bytes. -/
theorem C45_round_noop [Build] {a : Bin} {x : ℚ} {s : Int} (ha : Holds a x s) {n : Int} (h1 : s ≤ n) (h2 : n ≤ 1000) :
    (∃ r, Num.round a n = .ok r ∧ Holds r x n) ∧ (∃ r, Num.trunc a n = .ok r ∧ Holds r x n) ∧
    (n = s → Num.round a n = .ok a ∧ Num.trunc a n = .ok a) := by
  have hb := ha.bounds
  have hk : max (-1000) (min 1000 n) = n := by omega
  have hk0 : max n 0 = n := by omega
  have hs := hb.1.mono h1
  have e1 := rmag_eq_self_iff hs
  have e2 := truncTo_eq_self hs
  obtain ⟨r, er, hr⟩ := (C17_round ha n).1 (by rw [hk, e1]; exact hb.2.2.2)
  obtain ⟨q, eq, hq⟩ := C18_trunc ha n
  rw [hk, hk0, e1] at hr
  rw [hk, hk0, e2] at hq
  refine ⟨⟨r, er, hr⟩, ⟨q, eq, hq⟩, fun hn => ?_⟩
  subst hn
  rw [er, eq, hr.unique ha, hq.unique ha]
  exact ⟨rfl, rfl⟩

example [Build] : ∃ a, Holds a (5/2) 1 ∧ (∃ r, Num.round a 3 = .ok r ∧ Holds r (5/2) 3) := by
  obtain ⟨a, ha⟩ := witness (x := 5/2) (s := 1) 25 (by norm_num) (by norm_num) (by norm_num) (by norm_num [abs_lt])
  exact ⟨a, ha, (C45_round_noop ha (by norm_num) (by norm_num)).1⟩

end PgNumeric.Props
