import Verif.Proofs.Round
/-! Addition, subtraction and comparison against the rational specification. -/
namespace PgNumeric
open Spec Var

/-! ## Digit windows -/

/-- The low `k` positions of a digit string whose last position below index `I`. -/
def win (ds : List Int) (I : Int) : Nat → Int
  | 0 => 0
  | k + 1 => win ds I k + digitAt ds (I - 1 - k) * 10000 ^ k

theorem digitAt_range {ds : List Int} (h : Digits ds) (i : Int) : 0 ≤ digitAt ds i ∧ digitAt ds i < 10000 := by
  unfold digitAt
  split
  · rename_i hi
    have : i.toNat < ds.length := by omega
    have e : ds.getD i.toNat 0 = ds[i.toNat] := by simp [List.getD, this]
    rw [e]
    exact h.get this
  · omega

theorem digitAt_cons (d : Int) (ds : List Int) (i : Int) :
    digitAt (d :: ds) i = if i = 0 then d else digitAt ds (i - 1) := by
  unfold digitAt
  by_cases h0 : i = 0
  · subst h0; simp
  · rw [if_neg h0]
    by_cases hi : 0 ≤ i ∧ i < (d :: ds).length
    · rw [if_pos hi]
      simp only [List.length_cons] at hi
      rw [if_pos (by push_cast at hi; omega)]
      obtain ⟨m, rfl⟩ : ∃ m : Nat, i = ((m + 1 : Nat) : Int) := ⟨(i - 1).toNat, by omega⟩
      have : ((m + 1 : Nat) : Int) - 1 = (m : Int) := by omega
      rw [this]
      simp only [Int.toNat_natCast]
      simp [List.getD]
    · rw [if_neg hi, if_neg]
      simp only [List.length_cons] at hi
      push_cast at hi
      omega

theorem win_nil (I : Int) (k : Nat) : win [] I k = 0 := by
  induction k with
  | zero => rfl
  | succ k ih => simp [win, ih, digitAt]

theorem win_cons (d : Int) (ds : List Int) (I : Int) (k : Nat) :
    win (d :: ds) I k = win ds (I - 1) k + (if 1 ≤ I ∧ I ≤ k then d * 10000 ^ (I - 1).toNat else 0) := by
  induction k with
  | zero => simp [win]; omega
  | succ k ih =>
    rw [win, win, ih, digitAt_cons]
    by_cases h0 : I - 1 - k = 0
    · rw [if_pos h0, if_neg (by omega), if_pos (by push_cast; omega)]
      have e : (I - 1).toNat = k := by omega
      have e2 : digitAt ds (I - 1 - 1 - k) = 0 := by unfold digitAt; rw [if_neg (by omega)]
      rw [e, e2]; ring
    · rw [if_neg h0]
      have e1 : I - 1 - 1 - (k:Int) = I - 1 - k - 1 := by ring
      rw [e1]
      have : (1 ≤ I ∧ I ≤ (k:Int)) ↔ (1 ≤ I ∧ I ≤ ((k + 1 : Nat) : Int)) := by push_cast; omega
      simp only [this]; ring

/-- A window that covers the whole digit string. -/
theorem win_full (ds : List Int) (I : Int) (N : Nat) (h1 : ds.length ≤ I) (h2 : I ≤ N) :
    win ds I N = dval ds * 10000 ^ (I - ds.length).toNat := by
  induction ds generalizing I with
  | nil => simp [win_nil]
  | cons d ds ih =>
    simp only [List.length_cons] at h1
    push_cast at h1
    rw [win_cons, ih (I - 1) (by omega) (by omega), if_pos (by omega), dval_cons, add_mul]
    have e1 : (I - 1).toNat = ds.length + (I - ((d :: ds).length : Int)).toNat := by
      simp only [List.length_cons]; push_cast; omega
    have e2 : (I - 1 - (ds.length : Int)).toNat = (I - ((d :: ds).length : Int)).toNat := by
      simp only [List.length_cons]; push_cast; omega
    rw [e1, e2, pow_add]; ring

theorem win_nonneg {ds : List Int} (h : Digits ds) (I : Int) (k : Nat) : 0 ≤ win ds I k := by
  induction k with
  | zero => simp [win]
  | succ k ih =>
    rw [win]
    have := (digitAt_range h (I - 1 - k)).1
    positivity

theorem win_lt {ds : List Int} (h : Digits ds) (I : Int) (k : Nat) : win ds I k < 10000 ^ k := by
  induction k with
  | zero => simp [win]
  | succ k ih =>
    rw [win, pow_succ]
    have := (digitAt_range h (I - 1 - k)).2
    have : digitAt ds (I - 1 - k) * 10000 ^ k ≤ 9999 * 10000 ^ k :=
      mul_le_mul_of_nonneg_right (by omega) (by positivity)
    linarith

theorem win_split (ds : List Int) (I : Int) (a b : Nat) :
    win ds I (a + b) = win ds I a + 10000 ^ a * win ds (I - a) b := by
  induction b with
  | zero => simp [win]
  | succ b ih =>
    rw [← add_assoc, win, ih, win, pow_add]
    have : I - 1 - ((a + b : Nat) : Int) = I - a - 1 - b := by push_cast; ring
    rw [this]; ring

/-- A window containing the whole value, even if the string has more (zero) digits above it. -/
theorem win_value {ds : List Int} (hd : Digits ds) (I : Int) (N : Nat) (h1 : ds.length ≤ I)
    (hlt : dval ds * 10000 ^ (I - ds.length).toNat < 10000 ^ N) :
    win ds I N = dval ds * 10000 ^ (I - ds.length).toNat := by
  have h := win_full ds I (N + I.toNat) h1 (by push_cast; omega)
  rw [win_split] at h
  have h0 := win_nonneg hd I N
  have h2 := win_nonneg hd (I - N) I.toNat
  have hB : (0:Int) < 10000 ^ N := by positivity
  have : win ds (I - N) I.toNat = 0 := by
    by_contra hc
    have : 1 ≤ win ds (I - N) I.toNat := by omega
    nlinarith
  rw [this] at h
  linarith

/-- The rational magnitude seen through a window with last position of weight `-e`. -/
theorem mag_window (ds : List Int) (w I : Int) (h1 : ds.length ≤ I) :
    mag ds w = ((dval ds * 10000 ^ (I - ds.length).toNat : ℤ) : ℚ) * 10000 ^ (w + 1 - I) := by
  rw [mag_eq_dval]
  push_cast
  rw [mul_assoc, ← zpow_natCast, ← zpow_add₀ B_ne]
  congr 2
  omega

/-! ## add_abs -/

theorem addLoop_spec [Build] (d1 d2 : List Int) (h1 : Digits d1) (h2 : Digits d2) (I1 I2 : Int) :
    ∀ (n k : Nat) (i1 i2 carry : Int) (acc : List Int), i1 = I1 - k → i2 = I2 - k → (carry = 0 ∨ carry = 1) →
      Digits acc → acc.length = k → dval acc + carry * 10000 ^ k = win d1 I1 k + win d2 I2 k →
      ∃ ds c, addLoop d1 d2 n i1 i2 carry acc = .ok (ds, c) ∧ (c = 0 ∨ c = 1) ∧ Digits ds ∧
        ds.length = k + n ∧ dval ds + c * 10000 ^ (k + n) = win d1 I1 (k + n) + win d2 I2 (k + n) := by
  intro n
  induction n with
  | zero =>
    intro k i1 i2 carry acc _ _ hc hd hl hv
    exact ⟨acc, carry, rfl, hc, hd, hl, hv⟩
  | succ n ih =>
    intro k i1 i2 carry acc e1 e2 hc hd hl hv
    have r1 := digitAt_range h1 (i1 - 1)
    have r2 := digitAt_range h2 (i2 - 1)
    have g1 : digitAt d1 (i1 - 1) = digitAt d1 (I1 - 1 - k) := by congr 1; omega
    have g2 : digitAt d2 (i2 - 1) = digitAt d2 (I2 - 1 - k) := by congr 1; omega
    unfold addLoop
    simp only
    rw [i16_ok (by omega) (by omega)]
    simp only [bind_ok]
    rw [i16_ok (by omega) (by omega)]
    simp only [bind_ok, NBASE]
    rw [show k + (n + 1) = (k + 1) + n by ring]
    by_cases hB : carry + digitAt d1 (i1 - 1) + digitAt d2 (i2 - 1) ≥ 10000
    · rw [if_pos hB]
      refine ih (k + 1) _ _ 1 _ (by push_cast; omega) (by push_cast; omega) (.inr rfl)
        (Digits.cons.2 ⟨by omega, hd⟩) (by simp [hl]) ?_
      rw [dval_cons, win, win, hl, g1, g2, pow_succ]
      linear_combination hv
    · rw [if_neg hB]
      refine ih (k + 1) _ _ 0 _ (by push_cast; omega) (by push_cast; omega) (.inl rfl)
        (Digits.cons.2 ⟨by omega, hd⟩) (by simp [hl]) ?_
      rw [dval_cons, win, win, hl, g1, g2, pow_succ]
      linear_combination hv

theorem mag_of_dval (ds : List Int) (w : Int) (N : Nat) (h : ds.length = N) :
    mag ds w = (dval ds : ℚ) * 10000 ^ (w + 1 - N) := by rw [mag_eq_dval, h]

theorem addAbs_spec [Build] (a b : Var) (sma : Small a) (smb : Small b) (ha : Digits a.digits) (hb : Digits b.digits)
    (na : a.sign ≠ .nan) (nb : b.sign ≠ .nan) :
    ∃ u, addAbs a b = .ok u ∧ Digits u.digits ∧ u.sign = .pos ∧ Stripped u ∧
      u.dscale = max a.dscale b.dscale ∧
      mag u.digits u.weight = mag a.digits a.weight + mag b.digits b.weight := by
  obtain ⟨wa1, wa2, wa3⟩ := sma
  obtain ⟨wb1, wb2, wb3⟩ := smb
  unfold addAbs
  rw [dassert_ok na, dassert_ok nb]
  simp only [bind_ok]
  kill_fits
  simp only [bind_ok, ndigits]
  set W := max a.weight b.weight + 1 with hW
  set R := max ((a.digits.length : Int) - a.weight - 1) ((b.digits.length : Int) - b.weight - 1) with hR
  set N : Int := if R + W + 1 > 0 then R + W + 1 else 1 with hN
  obtain ⟨n, hn⟩ := Int.eq_ofNat_of_zero_le (a := N) (by omega)
  rw [hn]
  simp only [Int.toNat_natCast]
  obtain ⟨ds, c, e, hc, hd, hl, hv⟩ := addLoop_spec a.digits b.digits ha hb (R + a.weight + 1) (R + b.weight + 1)
    n 0 (R + a.weight + 1) (R + b.weight + 1) 0 [] (by simp) (by simp) (.inl rfl) Digits.nil rfl (by simp [win])
  rw [e]
  rw [zero_add] at hl hv
  simp only [bind_ok]
  have l1 : (a.digits.length : Int) ≤ R + a.weight + 1 := by omega
  have l2 : (b.digits.length : Int) ≤ R + b.weight + 1 := by omega
  have u1 : R + a.weight + 1 ≤ n := by omega
  have u2 : R + b.weight + 1 ≤ n := by omega
  have m1 := mag_window a.digits a.weight _ l1
  have m2 := mag_window b.digits b.weight _ l2
  rw [win_full _ _ _ l1 u1, win_full _ _ _ l2 u2] at hv
  have x1 : a.weight + 1 - (R + a.weight + 1) = -R := by ring
  have x2 : b.weight + 1 - (R + b.weight + 1) = -R := by ring
  rw [x1] at m1
  rw [x2] at m2
  have hX := mul_nonneg (dval_nonneg ha) (by positivity : (0:Int) ≤ 10000 ^ (R + a.weight + 1 - (a.digits.length : Int)).toNat)
  have hY := mul_nonneg (dval_nonneg hb) (by positivity : (0:Int) ≤ 10000 ^ (R + b.weight + 1 - (b.digits.length : Int)).toNat)
  generalize hXe : dval a.digits * 10000 ^ (R + a.weight + 1 - (a.digits.length : Int)).toNat = X at *
  generalize hYe : dval b.digits * 10000 ^ (R + b.weight + 1 - (b.digits.length : Int)).toNat = Y at *
  have hcz : c = 0 := by
    rcases hc with hc | hc
    · exact hc
    · exfalso
      have hs : mag a.digits a.weight + mag b.digits b.weight ≥ 10000 ^ n * 10000 ^ (-R) := by
        rw [m1, m2, ← add_mul]
        refine mul_le_mul_of_nonneg_right ?_ (B_zpow_pos _).le
        have := dval_nonneg hd
        rw [hc] at hv
        exact_mod_cast (by linarith : (10000:Int) ^ n ≤ X + Y)
      have t1 := mag_lt ha a.weight
      have t2 := mag_lt hb b.weight
      have s1 : (10000:ℚ) ^ (a.weight + 1) ≤ 10000 ^ W := B_zpow_le_iff.2 (by omega)
      have s2 : (10000:ℚ) ^ (b.weight + 1) ≤ 10000 ^ W := B_zpow_le_iff.2 (by omega)
      rw [← zpow_natCast, ← zpow_add₀ B_ne] at hs
      have s3 : (10000:ℚ) ^ (W + 1) ≤ 10000 ^ ((n:Int) + -R) := B_zpow_le_iff.2 (by omega)
      rw [zpow_add₀ B_ne, zpow_one] at s3
      have := B_zpow_pos W
      linarith
  subst hcz
  rw [dassert_ok rfl]
  simp only [bind_ok]
  rw [stripM_ok (by simp only; omega) (by simp only; omega)]
  refine ⟨_, rfl, strip_digits hd, ?_, strip_stripped _, by simp, ?_⟩
  · unfold strip; simp only; split <;> rfl
  · have hval := strip_value ⟨W, max a.dscale b.dscale, .pos, ds⟩
    have hsg : (strip ⟨W, max a.dscale b.dscale, .pos, ds⟩).sign = .pos := by
      unfold strip; simp only; split <;> rfl
    unfold value at hval
    rw [hsg] at hval
    simp only at hval
    rw [hval]
    by_cases hnn : R + W + 1 > 0
    · rw [mag_of_dval ds W n hl, m1, m2, ← add_mul]
      have : W + 1 - (n:Int) = -R := by omega
      rw [this]
      congr 1
      exact_mod_cast (by linarith : dval ds = X + Y)
    · -- both operands are empty
      have e1 : a.digits = [] := List.length_eq_zero_iff.1 (by omega)
      have e2 : b.digits = [] := List.length_eq_zero_iff.1 (by omega)
      rw [e1] at hXe
      rw [e2] at hYe
      rw [e1, e2]
      simp at hXe hYe
      have : dval ds = 0 := by linarith
      rw [mag_eq_dval, this]; simp

/-! ## sub_abs -/

theorem subLoop_spec [Build] (d1 d2 : List Int) (h1 : Digits d1) (h2 : Digits d2) (I1 I2 : Int) :
    ∀ (n k : Nat) (i1 i2 borrow : Int) (acc : List Int), i1 = I1 - k → i2 = I2 - k → (borrow = 0 ∨ borrow = -1) →
      Digits acc → acc.length = k → dval acc + borrow * 10000 ^ k = win d1 I1 k - win d2 I2 k →
      ∃ ds c, subLoop d1 d2 n i1 i2 borrow acc = .ok (ds, c) ∧ (c = 0 ∨ c = -1) ∧ Digits ds ∧
        ds.length = k + n ∧ dval ds + c * 10000 ^ (k + n) = win d1 I1 (k + n) - win d2 I2 (k + n) := by
  intro n
  induction n with
  | zero =>
    intro k i1 i2 borrow acc _ _ hc hd hl hv
    exact ⟨acc, borrow, rfl, hc, hd, hl, hv⟩
  | succ n ih =>
    intro k i1 i2 borrow acc e1 e2 hc hd hl hv
    have r1 := digitAt_range h1 (i1 - 1)
    have r2 := digitAt_range h2 (i2 - 1)
    have g1 : digitAt d1 (i1 - 1) = digitAt d1 (I1 - 1 - k) := by congr 1; omega
    have g2 : digitAt d2 (i2 - 1) = digitAt d2 (I2 - 1 - k) := by congr 1; omega
    unfold subLoop
    simp only
    rw [i16_ok (by omega) (by omega)]
    simp only [bind_ok]
    rw [i16_ok (by omega) (by omega)]
    simp only [bind_ok, NBASE]
    rw [show k + (n + 1) = (k + 1) + n by ring]
    by_cases hB : borrow + digitAt d1 (i1 - 1) - digitAt d2 (i2 - 1) < 0
    · rw [if_pos hB]
      refine ih (k + 1) _ _ (-1) _ (by push_cast; omega) (by push_cast; omega) (.inr rfl)
        (Digits.cons.2 ⟨by omega, hd⟩) (by simp [hl]) ?_
      rw [dval_cons, win, win, hl, g1, g2, pow_succ]
      linear_combination hv
    · rw [if_neg hB]
      refine ih (k + 1) _ _ 0 _ (by push_cast; omega) (by push_cast; omega) (.inl rfl)
        (Digits.cons.2 ⟨by omega, hd⟩) (by simp [hl]) ?_
      rw [dval_cons, win, win, hl, g1, g2, pow_succ]
      linear_combination hv

theorem subAbs_spec [Build] (a b : Var) (sma : Small a) (smb : Small b) (ha : Digits a.digits) (hb : Digits b.digits)
    (na : a.sign ≠ .nan) (nb : b.sign ≠ .nan) (hle : mag b.digits b.weight ≤ mag a.digits a.weight) :
    ∃ u, subAbs a b = .ok u ∧ Digits u.digits ∧ u.sign = .pos ∧ Stripped u ∧
      u.dscale = max a.dscale b.dscale ∧
      mag u.digits u.weight = mag a.digits a.weight - mag b.digits b.weight := by
  obtain ⟨wa1, wa2, wa3⟩ := sma
  obtain ⟨wb1, wb2, wb3⟩ := smb
  unfold subAbs
  rw [dassert_ok na, dassert_ok nb]
  simp only [bind_ok]
  kill_fits
  simp only [bind_ok, ndigits]
  set W := a.weight with hW
  set R := max ((a.digits.length : Int) - W - 1) ((b.digits.length : Int) - b.weight - 1) with hR
  set N : Int := if R + W + 1 ≤ 0 then 1 else R + W + 1 with hN
  obtain ⟨n, hn⟩ := Int.eq_ofNat_of_zero_le (a := N) (by omega)
  rw [hn]
  simp only [Int.toNat_natCast]
  obtain ⟨ds, c, e, hc, hd, hl, hv⟩ := subLoop_spec a.digits b.digits ha hb (R + W + 1) (R + b.weight + 1)
    n 0 (R + W + 1) (R + b.weight + 1) 0 [] (by simp) (by simp) (.inl rfl) Digits.nil rfl (by simp [win])
  rw [e]
  rw [zero_add] at hl hv
  simp only [bind_ok]
  have l1 : (a.digits.length : Int) ≤ R + W + 1 := by omega
  have l2 : (b.digits.length : Int) ≤ R + b.weight + 1 := by omega
  have u1 : R + W + 1 ≤ n := by omega
  have m1 := mag_window a.digits W _ l1
  have m2 := mag_window b.digits b.weight _ l2
  have x1 : W + 1 - (R + W + 1) = -R := by ring
  have x2 : b.weight + 1 - (R + b.weight + 1) = -R := by ring
  rw [x1] at m1
  rw [x2] at m2
  have hRp := B_zpow_pos (-R)
  have hlt : dval b.digits * 10000 ^ (R + b.weight + 1 - (b.digits.length : Int)).toNat < 10000 ^ n := by
    have t1 := mag_lt ha W
    have : mag b.digits b.weight < 10000 ^ (n:Int) * 10000 ^ (-R) := by
      rw [← zpow_add₀ B_ne]
      refine lt_of_le_of_lt hle (lt_of_lt_of_le t1 (B_zpow_le_iff.2 (by omega)))
    rw [m2] at this
    have := lt_of_mul_lt_mul_right this hRp.le
    rw [zpow_natCast] at this
    exact_mod_cast this
  rw [win_full _ _ _ l1 u1, win_value hb _ _ l2 hlt] at hv
  have hle' : dval b.digits * 10000 ^ (R + b.weight + 1 - (b.digits.length : Int)).toNat ≤
      dval a.digits * 10000 ^ (R + W + 1 - (a.digits.length : Int)).toNat := by
    rw [m1, m2] at hle
    exact_mod_cast le_of_mul_le_mul_right hle hRp
  have hY := mul_nonneg (dval_nonneg hb) (by positivity : (0:Int) ≤ 10000 ^ (R + b.weight + 1 - (b.digits.length : Int)).toNat)
  generalize hXe : dval a.digits * 10000 ^ (R + W + 1 - (a.digits.length : Int)).toNat = X at *
  generalize hYe : dval b.digits * 10000 ^ (R + b.weight + 1 - (b.digits.length : Int)).toNat = Y at *
  have hcz : c = 0 := by
    rcases hc with hc | hc
    · exact hc
    · exfalso
      have h2 := dval_lt hd
      rw [hl] at h2
      rw [hc] at hv
      linarith
  subst hcz
  rw [dassert_ok rfl]
  simp only [bind_ok]
  rw [stripM_ok (by simp only; omega) (by simp only; omega)]
  refine ⟨_, rfl, strip_digits hd, ?_, strip_stripped _, by simp, ?_⟩
  · unfold strip; simp only; split <;> rfl
  · have hval := strip_value ⟨W, max a.dscale b.dscale, .pos, ds⟩
    have hsg : (strip ⟨W, max a.dscale b.dscale, .pos, ds⟩).sign = .pos := by
      unfold strip; simp only; split <;> rfl
    unfold value at hval
    rw [hsg] at hval
    simp only at hval
    rw [hval]
    by_cases hnn : R + W + 1 > 0
    · rw [mag_of_dval ds W n hl, m1, m2, ← sub_mul]
      have : W + 1 - (n:Int) = -R := by omega
      rw [this]
      congr 1
      exact_mod_cast (by linarith : dval ds = X - Y)
    · -- the minuend is empty, so both are zero
      have e1 : a.digits = [] := List.length_eq_zero_iff.1 (by omega)
      have hb0 := mag_nonneg hb b.weight
      rw [e1] at hle hXe ⊢
      rw [mag_nil] at hle ⊢
      have hz : mag b.digits b.weight = 0 := le_antisymm hle hb0
      rw [hz]
      have := dval_nonneg hd
      simp at hXe
      have : dval ds = 0 := by linarith
      rw [mag_eq_dval, this]; simp

/-! ## cmp_abs -/

/-- Sign of a comparison. -/
def cmpSign (x y : ℚ) : Int := if x < y then -1 else if x = y then 0 else 1

theorem mag_zero_iff {ds : List Int} (h : Digits ds) (w : Int) : mag ds w = 0 ↔ ∀ d ∈ ds, d = 0 := by
  induction ds generalizing w with
  | nil => simp
  | cons d ds ih =>
    rw [Digits.cons] at h
    rw [mag_cons]
    have h0 := mag_nonneg h.2 (w - 1)
    have hp := B_zpow_pos w
    have hd : (0:ℚ) ≤ d := by exact_mod_cast h.1.1
    have hdp := mul_nonneg hd hp.le
    constructor
    · intro hh
      have e1 : (d:ℚ) * 10000 ^ w = 0 := by linarith
      have e2 : mag ds (w - 1) = 0 := by linarith
      have : (d:ℚ) = 0 := by
        rcases mul_eq_zero.1 e1 with hx | hx
        · exact hx
        · exact absurd hx hp.ne'
      intro x hx
      rcases List.mem_cons.1 hx with rfl | hx
      · exact_mod_cast this
      · exact (ih h.2 (w-1)).1 e2 x hx
    · intro hh
      rw [hh d (by simp), (ih h.2 (w-1)).2 (fun x hx => hh x (by simp [hx]))]
      simp

theorem mag_pos_iff {ds : List Int} (h : Digits ds) (w : Int) : 0 < mag ds w ↔ ds.any (· ≠ 0) = true := by
  have h0 := mag_nonneg h w
  have := mag_zero_iff h w
  rw [lt_iff_le_and_ne]
  simp only [List.any_eq_true, decide_eq_true_eq]
  constructor
  · rintro ⟨-, hne⟩
    by_contra hc
    push Not at hc
    exact hne.symm (this.2 hc)
  · rintro ⟨d, hd, hne⟩
    exact ⟨h0, fun he => hne (this.1 he.symm d hd)⟩

theorem cmpLead_spec {ds : List Int} (h : Digits ds) (w w' : Int) :
    match cmpLead ds w w' with
    | none => (10000:ℚ) ^ (w' + 1) ≤ mag ds w
    | some (ds1, w1) => Digits ds1 ∧ mag ds1 w1 = mag ds w ∧ (ds1 = [] ∨ w1 ≤ w') ∧ (w ≤ w' → w1 = w) ∧
        (w' ≤ w → w' ≤ w1) := by
  induction ds generalizing w with
  | nil => simp [cmpLead, h]
  | cons d ds ih =>
    rw [cmpLead]
    by_cases hw : w > w'
    · rw [if_pos hw]
      by_cases hd : d ≠ 0
      · rw [if_pos hd]
        simp only
        exact (B_zpow_le_iff.2 (by omega)).trans (mag_ge_of_head h hd w)
      · rw [if_neg hd]
        have := ih (Digits.cons.1 h).2 (w - 1)
        have hd0 : d = 0 := by omega
        rw [mag_cons, hd0, Int.cast_zero, zero_mul, zero_add]
        split at this
        · exact this
        · obtain ⟨g1, g2, g3, g4, g5⟩ := this
          exact ⟨g1, g2, g3, by omega, by omega⟩
    · rw [if_neg hw]
      exact ⟨h, rfl, .inr (by omega), fun _ => rfl, by omega⟩

theorem cmpDigits_spec {d1 d2 : List Int} (h1 : Digits d1) (h2 : Digits d2) (w : Int) :
    cmpDigits d1 d2 = cmpSign (mag d1 w) (mag d2 w) := by
  induction d1 generalizing d2 w with
  | nil =>
    have g := mag_pos_iff h2 w
    have g0 := mag_nonneg h2 w
    have hf : ¬ (([] : List Int).any (· ≠ 0) = true) := by simp
    unfold cmpDigits cmpRest cmpSign
    rw [if_neg hf, mag_nil]
    by_cases hp : 0 < mag d2 w
    · rw [if_pos (g.1 hp), if_pos hp]
    · have hz : 0 = mag d2 w := by linarith
      rw [if_neg (fun hx => hp (g.2 hx)), if_neg hp, if_pos hz]
  | cons x xs ih =>
    cases d2 with
    | nil =>
      have g := mag_pos_iff h1 w
      have g0 := mag_nonneg h1 w
      unfold cmpDigits cmpRest cmpSign
      by_cases hp : 0 < mag (x :: xs) w
      · have hn : ¬ (mag (x :: xs) w < 0) := by linarith
        rw [if_pos (g.1 hp), mag_nil, if_neg hn, if_neg hp.ne']
      · have : mag (x :: xs) w = 0 := by linarith
        have hx : ¬ ((x :: xs).any (· ≠ 0) = true) := fun hx => hp (g.2 hx)
        rw [if_neg hx, this]
        simp
    | cons y ys =>
      rw [Digits.cons] at h1 h2
      unfold cmpDigits
      have t1 := mag_lt h1.2 (w - 1)
      have t2 := mag_lt h2.2 (w - 1)
      have t3 := mag_nonneg h1.2 (w - 1)
      have t4 := mag_nonneg h2.2 (w - 1)
      rw [sub_add_cancel] at t1 t2
      have hw := B_zpow_pos w
      simp only
      by_cases hxy : x - y ≠ 0
      · rw [if_pos hxy]
        unfold cmpSign
        rw [mag_cons, mag_cons]
        by_cases hgt : x - y > 0
        · rw [if_pos hgt]
          have : (y : ℚ) + 1 ≤ x := by exact_mod_cast (by omega : y + 1 ≤ x)
          have hh : (y:ℚ) * 10000 ^ w + mag ys (w-1) < (x:ℚ) * 10000 ^ w + mag xs (w-1) := by nlinarith
          rw [if_neg (not_lt.2 hh.le), if_neg hh.ne']
        · rw [if_neg hgt]
          have : (x : ℚ) + 1 ≤ y := by exact_mod_cast (by omega : x + 1 ≤ y)
          have hh : (x:ℚ) * 10000 ^ w + mag xs (w-1) < (y:ℚ) * 10000 ^ w + mag ys (w-1) := by nlinarith
          rw [if_pos hh]
      · rw [if_neg hxy, ih h1.2 h2.2 (w - 1)]
        have : x = y := by omega
        subst this
        unfold cmpSign
        rw [mag_cons, mag_cons]
        simp

theorem cmpRest_of_nil {d1 d2 : List Int} (h1 : Digits d1) (h2 : Digits d2) (w1 w2 : Int)
    (h : d1 = [] ∨ d2 = []) : cmpRest d1 d2 = cmpSign (mag d1 w1) (mag d2 w2) := by
  rcases h with rfl | rfl
  · have := cmpDigits_spec Digits.nil h2 w2
    rw [mag_nil] at this ⊢
    rw [← this]; unfold cmpDigits; rfl
  · have := cmpDigits_spec h1 Digits.nil w1
    rw [mag_nil] at this ⊢
    rw [← this]; cases d1 <;> rfl

theorem cmpAbs_spec (a b : Var) (ha : Digits a.digits) (hb : Digits b.digits) :
    cmpAbs a b = cmpSign (mag a.digits a.weight) (mag b.digits b.weight) := by
  unfold cmpAbs
  have l1 := cmpLead_spec ha a.weight b.weight
  have tb := mag_lt hb b.weight
  have ta := mag_lt ha a.weight
  split at l1
  · rename_i e1
    rw [e1]
    simp only
    have := lt_of_lt_of_le tb l1
    unfold cmpSign
    rw [if_neg (not_lt.2 this.le), if_neg this.ne']
  · rename_i ds1 w1 e1
    rw [e1]
    obtain ⟨g1, g2, g3, g4, g5⟩ := l1
    simp only
    have l2 := cmpLead_spec hb b.weight w1
    split at l2
    · rename_i e2
      rw [e2]
      simp only
      have t1 := mag_lt g1 w1
      rw [g2] at t1
      have := lt_of_lt_of_le t1 l2
      unfold cmpSign
      rw [if_pos this]
    · rename_i ds2 w2 e2
      rw [e2]
      obtain ⟨k1, k2, k3, k4, k5⟩ := l2
      simp only
      split
      · rename_i hw
        subst hw
        rw [cmpDigits_spec g1 k1 w1, g2, k2]
      · rename_i hw
        rw [cmpRest_of_nil g1 k1 w1 w2, g2, k2]
        by_contra hc
        push Not at hc
        have q3 := g3.resolve_left hc.1
        have q4 := k3.resolve_left hc.2
        omega

/-- Signs are honest: a negative variable is not zero. -/
def SignOK (v : Var) : Prop := v.sign = .neg → 0 < mag v.digits v.weight

theorem Spec.Stripped.signOK {v : Var} (h : Digits v.digits) (hs : Stripped v) : SignOK v := by
  intro hneg
  refine stripped_mag_pos h hs ?_
  intro hh
  rw [(hs.2.2 hh).2] at hneg
  cases hneg

theorem cmpCommon_spec (a b : Var) (ha : Digits a.digits) (hb : Digits b.digits)
    (na : a.sign ≠ .nan) (nb : b.sign ≠ .nan)
    (za : a.digits ≠ [] → 0 < mag a.digits a.weight) (zb : b.digits ≠ [] → 0 < mag b.digits b.weight) :
    cmpCommon a b = cmpSign (value a) (value b) := by
  have lenz : ∀ v : Var, (v.digits.length : Int) = 0 ↔ v.digits = [] := by intro v; simp
  unfold cmpCommon
  simp only [ndigits, lenz]
  by_cases ea : a.digits = []
  · rw [if_pos ea]
    have va : value a = 0 := by unfold value; rw [ea]; cases a.sign <;> simp
    rw [va]
    by_cases eb : b.digits = []
    · rw [if_pos eb]
      have vb : value b = 0 := by unfold value; rw [eb]; cases b.sign <;> simp
      rw [vb]; simp [cmpSign]
    · rw [if_neg eb]
      have := zb eb
      unfold value cmpSign
      cases hs : b.sign
      · simp only [reduceCtorEq, if_false]; rw [if_pos this]
      · simp only [if_true]; rw [if_neg (by linarith), if_neg (by linarith)]
      · exact absurd hs nb
  · rw [if_neg ea]
    have pa := za ea
    by_cases eb : b.digits = []
    · rw [if_pos eb]
      have vb : value b = 0 := by unfold value; rw [eb]; cases b.sign <;> simp
      rw [vb]
      unfold value cmpSign
      cases hs : a.sign
      · simp only [if_true]; rw [if_neg (by linarith), if_neg (by linarith)]
      · simp only [reduceCtorEq, if_false]; rw [if_pos (by linarith)]
      · exact absurd hs na
    · rw [if_neg eb]
      have pb := zb eb
      unfold value
      cases hs : a.sign
      · rw [if_pos rfl]
        cases ht : b.sign
        · rw [if_neg (by simp), cmpAbs_spec a b ha hb]
        · rw [if_pos rfl]; unfold cmpSign; simp only; rw [if_neg (by linarith), if_neg (by linarith)]
        · exact absurd ht nb
      · rw [if_neg (by simp)]
        cases ht : b.sign
        · rw [if_pos rfl]; unfold cmpSign; simp only; rw [if_pos (by linarith)]
        · rw [if_neg (by simp), cmpAbs_spec b a hb ha]
          unfold cmpSign
          simp only [neg_lt_neg_iff, neg_inj]
          by_cases h1 : mag b.digits b.weight < mag a.digits a.weight
          · rw [if_pos h1, if_pos h1]
          · rw [if_neg h1, if_neg h1]
            by_cases h2 : mag b.digits b.weight = mag a.digits a.weight
            · rw [if_pos h2, if_pos h2.symm]
            · rw [if_neg h2, if_neg (fun h => h2 h.symm)]
        · exact absurd ht nb
      · exact absurd hs na

/-! ## add_common, sub_common -/

theorem Spec.Stripped.withSign {u : Var} (h : Stripped u) (s : Sign) (hne : u.digits = [] → s = .pos) :
    Stripped { u with sign := s } :=
  ⟨h.1, h.2.1, fun he => ⟨(h.2.2 he).1, hne he⟩⟩

theorem digits_nil_of_mag_zero {u : Var} (h : Digits u.digits) (hs : Stripped u)
    (hz : mag u.digits u.weight = 0) : u.digits = [] := by
  by_contra hne
  exact (stripped_mag_pos h hs hne).ne' hz

/-- What `add_common`/`sub_common` promise. -/
structure AddOK (u : Var) (s : Int) (x : ℚ) : Prop where
  digits : Digits u.digits
  not_nan : u.sign ≠ .nan
  stripped : Stripped u
  dscale : u.dscale = s
  value : value u = x

theorem zeroScaled_ok [Build] {s : Int} (h0 : 0 ≤ s) (h1 : s ≤ 16383) :
    zeroScaled s = .ok ⟨0, s, .pos, []⟩ := by
  unfold zeroScaled
  rw [dassert_ok ⟨h0, h1⟩]; rfl

theorem AddOK.zero {s : Int} : AddOK ⟨0, s, .pos, []⟩ s 0 :=
  ⟨Digits.nil, by simp, by simp [Stripped], rfl, rfl⟩

theorem AddOK.mk' {u : Var} {s : Int} {m : ℚ} (sg : Sign) (hd : Digits u.digits) (hs : Stripped u)
    (hsc : u.dscale = s) (hm : mag u.digits u.weight = m) (hsg : sg = .pos ∨ (sg = .neg ∧ 0 < m)) :
    AddOK { u with sign := sg } s (if sg = .neg then -m else m) := by
  refine ⟨hd, ?_, hs.withSign sg ?_, hsc, ?_⟩
  · rcases hsg with h | ⟨h, -⟩ <;> simp [h]
  · intro he
    rcases hsg with h | ⟨h, h2⟩
    · exact h
    · rw [he] at hm; simp at hm; linarith
  · rcases hsg with h | ⟨h, -⟩ <;> subst h <;> simp [Spec.value, hm]

theorem cmpSign_cases (x y : ℚ) : (cmpSign x y = -1 ∧ x < y) ∨ (cmpSign x y = 0 ∧ x = y) ∨ (cmpSign x y = 1 ∧ y < x) := by
  unfold cmpSign
  rcases lt_trichotomy x y with h | h | h
  · left; simp [h]
  · right; left; simp [h]
  · right; right; rw [if_neg (not_lt.2 h.le), if_neg h.ne']; exact ⟨rfl, h⟩

/-- Addition, also of variables with more digits after the point than a number may have, as long as the sum is not zero. -/
theorem addCommon_wide [Build] (a b : Var) (sma : Small a) (smb : Small b) (ha : Digits a.digits) (hb : Digits b.digits)
    (na : a.sign ≠ .nan) (nb : b.sign ≠ .nan) (za : SignOK a) (sa : 0 ≤ a.dscale) (sb : 0 ≤ b.dscale)
    (hz : value a + value b ≠ 0 ∨ (a.dscale ≤ 16383 ∧ b.dscale ≤ 16383)) :
    ∃ u, addCommon a b = .ok u ∧ AddOK u (max a.dscale b.dscale) (value a + value b) := by
  unfold addCommon
  rw [dassert_ok na, dassert_ok nb]
  simp only [bind_ok]
  have pa := mag_nonneg ha a.weight
  have pb := mag_nonneg hb b.weight
  cases hsa : a.sign
  · rw [if_pos rfl]
    cases hsb : b.sign
    · rw [if_pos rfl]
      obtain ⟨u, e, d, _, st, sc, m⟩ := addAbs_spec a b sma smb ha hb na nb
      rw [e]
      refine ⟨_, rfl, ?_⟩
      have := AddOK.mk' .pos d st sc m (.inl rfl)
      simpa [value, hsa, hsb] using this
    · rw [if_neg (by simp), cmpAbs_spec a b ha hb]
      have va : value a = mag a.digits a.weight := by simp [value, hsa]
      have vb : value b = - mag b.digits b.weight := by simp [value, hsb]
      rw [va, vb]
      rcases cmpSign_cases (mag a.digits a.weight) (mag b.digits b.weight) with ⟨hc, hl⟩ | ⟨hc, hl⟩ | ⟨hc, hl⟩
      · rw [hc]
        obtain ⟨u, e, d, _, st, sc, m⟩ := subAbs_spec b a smb sma hb ha nb na hl.le
        simp only [e]
        refine ⟨_, rfl, ?_⟩
        have := AddOK.mk' .neg d st (sc.trans (max_comm _ _)) m (.inr ⟨rfl, by linarith⟩)
        simpa [add_comm, sub_eq_add_neg] using this
      · rw [hc]
        simp only [if_true]
        obtain ⟨h1, h2⟩ := hz.resolve_left (fun h => h (by rw [va, vb, hl, add_neg_cancel]))
        rw [zeroScaled_ok (by omega) (by omega), hl, add_neg_cancel]
        exact ⟨_, rfl, AddOK.zero⟩
      · rw [hc]
        obtain ⟨u, e, d, _, st, sc, m⟩ := subAbs_spec a b sma smb ha hb na nb hl.le
        simp only [e]
        refine ⟨_, rfl, ?_⟩
        have := AddOK.mk' .pos d st sc m (.inl rfl)
        simpa [sub_eq_add_neg] using this
    · exact absurd hsb nb
  · rw [if_neg (by simp)]
    have va : value a = - mag a.digits a.weight := by simp [value, hsa]
    rw [va]
    cases hsb : b.sign
    · rw [if_pos rfl, cmpAbs_spec a b ha hb]
      have vb : value b = mag b.digits b.weight := by simp [value, hsb]
      rw [vb]
      rcases cmpSign_cases (mag a.digits a.weight) (mag b.digits b.weight) with ⟨hc, hl⟩ | ⟨hc, hl⟩ | ⟨hc, hl⟩
      · rw [hc]
        obtain ⟨u, e, d, _, st, sc, m⟩ := subAbs_spec b a smb sma hb ha nb na hl.le
        simp only [e]
        refine ⟨_, rfl, ?_⟩
        have := AddOK.mk' .pos d st (sc.trans (max_comm _ _)) m (.inl rfl)
        simpa [add_comm, sub_eq_add_neg] using this
      · rw [hc]
        simp only [if_true]
        obtain ⟨h1, h2⟩ := hz.resolve_left (fun h => h (by rw [va, vb, hl, neg_add_cancel]))
        rw [zeroScaled_ok (by omega) (by omega), hl, neg_add_cancel]
        exact ⟨_, rfl, AddOK.zero⟩
      · rw [hc]
        obtain ⟨u, e, d, _, st, sc, m⟩ := subAbs_spec a b sma smb ha hb na nb hl.le
        simp only [e]
        refine ⟨_, rfl, ?_⟩
        have := AddOK.mk' .neg d st sc m (.inr ⟨rfl, by linarith⟩)
        simpa [sub_eq_add_neg, add_comm] using this
    · rw [if_neg (by simp)]
      have vb : value b = - mag b.digits b.weight := by simp [value, hsb]
      rw [vb]
      obtain ⟨u, e, d, _, st, sc, m⟩ := addAbs_spec a b sma smb ha hb na nb
      rw [e]
      refine ⟨_, rfl, ?_⟩
      have := AddOK.mk' .neg d st sc m (.inr ⟨rfl, by have := za hsa; linarith⟩)
      simpa [add_comm] using this
    · exact absurd hsb nb
  · exact absurd hsa na

theorem addCommon_spec [Build] (a b : Var) (sma : Small a) (smb : Small b) (ha : Digits a.digits) (hb : Digits b.digits)
    (na : a.sign ≠ .nan) (nb : b.sign ≠ .nan) (za : SignOK a)
    (sa : 0 ≤ a.dscale ∧ a.dscale ≤ 16383) (sb : 0 ≤ b.dscale ∧ b.dscale ≤ 16383) :
    ∃ u, addCommon a b = .ok u ∧ AddOK u (max a.dscale b.dscale) (value a + value b) :=
  addCommon_wide a b sma smb ha hb na nb za sa.1 sb.1 (.inr ⟨sa.2, sb.2⟩)

theorem subCommon_spec [Build] (a b : Var) (sma : Small a) (smb : Small b) (ha : Digits a.digits) (hb : Digits b.digits)
    (na : a.sign ≠ .nan) (nb : b.sign ≠ .nan) (za : SignOK a)
    (sa : 0 ≤ a.dscale ∧ a.dscale ≤ 16383) (sb : 0 ≤ b.dscale ∧ b.dscale ≤ 16383) :
    ∃ u, subCommon a b = .ok u ∧ AddOK u (max a.dscale b.dscale) (value a - value b) := by
  unfold subCommon
  rw [dassert_ok na, dassert_ok nb]
  simp only [bind_ok]
  have pa := mag_nonneg ha a.weight
  have pb := mag_nonneg hb b.weight
  cases hsa : a.sign
  · rw [if_pos rfl]
    have va : value a = mag a.digits a.weight := by simp [value, hsa]
    cases hsb : b.sign
    · rw [if_neg (by simp), cmpAbs_spec a b ha hb]
      have vb : value b = mag b.digits b.weight := by simp [value, hsb]
      rw [va, vb]
      rcases cmpSign_cases (mag a.digits a.weight) (mag b.digits b.weight) with ⟨hc, hl⟩ | ⟨hc, hl⟩ | ⟨hc, hl⟩
      · rw [hc]
        obtain ⟨u, e, d, _, st, sc, m⟩ := subAbs_spec b a smb sma hb ha nb na hl.le
        simp only [e]
        refine ⟨_, rfl, ?_⟩
        have := AddOK.mk' .neg d st (sc.trans (max_comm _ _)) m (.inr ⟨rfl, by linarith⟩)
        simpa [add_comm, sub_eq_add_neg] using this
      · rw [hc]
        simp only [if_true]
        rw [zeroScaled_ok (by omega) (by omega), hl, sub_self]
        exact ⟨_, rfl, AddOK.zero⟩
      · rw [hc]
        obtain ⟨u, e, d, _, st, sc, m⟩ := subAbs_spec a b sma smb ha hb na nb hl.le
        simp only [e]
        refine ⟨_, rfl, ?_⟩
        have := AddOK.mk' .pos d st sc m (.inl rfl)
        simpa [sub_eq_add_neg] using this
    · rw [if_pos rfl]
      have vb : value b = - mag b.digits b.weight := by simp [value, hsb]
      rw [va, vb]
      obtain ⟨u, e, d, _, st, sc, m⟩ := addAbs_spec a b sma smb ha hb na nb
      rw [e]
      refine ⟨_, rfl, ?_⟩
      have := AddOK.mk' .pos d st sc m (.inl rfl)
      simpa using this
    · exact absurd hsb nb
  · rw [if_neg (by simp)]
    have va : value a = - mag a.digits a.weight := by simp [value, hsa]
    rw [va]
    cases hsb : b.sign
    · rw [if_neg (by simp)]
      have vb : value b = mag b.digits b.weight := by simp [value, hsb]
      rw [vb]
      obtain ⟨u, e, d, _, st, sc, m⟩ := addAbs_spec a b sma smb ha hb na nb
      rw [e]
      refine ⟨_, rfl, ?_⟩
      have := AddOK.mk' .neg d st sc m (.inr ⟨rfl, by have := za hsa; linarith⟩)
      simpa [add_comm, sub_eq_add_neg] using this
    · rw [if_pos rfl, cmpAbs_spec a b ha hb]
      have vb : value b = - mag b.digits b.weight := by simp [value, hsb]
      rw [vb]
      rcases cmpSign_cases (mag a.digits a.weight) (mag b.digits b.weight) with ⟨hc, hl⟩ | ⟨hc, hl⟩ | ⟨hc, hl⟩
      · rw [hc]
        obtain ⟨u, e, d, _, st, sc, m⟩ := subAbs_spec b a smb sma hb ha nb na hl.le
        simp only [e]
        refine ⟨_, rfl, ?_⟩
        have := AddOK.mk' .pos d st (sc.trans (max_comm _ _)) m (.inl rfl)
        simpa [add_comm, sub_eq_add_neg] using this
      · rw [hc]
        simp only [if_true]
        rw [zeroScaled_ok (by omega) (by omega), hl, sub_self]
        exact ⟨_, rfl, AddOK.zero⟩
      · rw [hc]
        obtain ⟨u, e, d, _, st, sc, m⟩ := subAbs_spec a b sma smb ha hb na nb hl.le
        simp only [e]
        refine ⟨_, rfl, ?_⟩
        have := AddOK.mk' .neg d st sc m (.inr ⟨rfl, by linarith⟩)
        simpa [sub_eq_add_neg, add_comm] using this
    · exact absurd hsb nb
  · exact absurd hsa na

end PgNumeric
