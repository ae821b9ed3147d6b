import Verif.Proofs.AddSub
import Verif.Proofs.UntrustedSign
import Verif.Proofs.UntrustedText
import Verif.Model.UntrustedAdd
/-! Addition and subtraction of numbers whose digits are not in 0..9999. -/
namespace PgNumeric
open Spec Untrusted

/-- Digits whose sums fit into 16 bits. -/
def Digits14 (ds : List Int) : Prop := ∀ d ∈ ds, 0 ≤ d ∧ d ≤ 16383

theorem Digits14.wide {ds : List Int} (h : Digits14 ds) : Digits15 ds := fun d hd => by have := h d hd; omega

/-- Digits that fit into 16 bits. -/
def Digits16 (ds : List Int) : Prop := ∀ d ∈ ds, -32768 ≤ d ∧ d ≤ 32767

theorem Digits16.cons {d : Int} {ds : List Int} (h : -32768 ≤ d ∧ d ≤ 32767) (h' : Digits16 ds) : Digits16 (d :: ds) := by
  intro x hx
  rcases List.mem_cons.1 hx with rfl | hx
  · exact h
  · exact h' x hx

theorem Digits14.at {ds : List Int} (h : Digits14 ds) (i : Int) : 0 ≤ Var.digitAt ds i ∧ Var.digitAt ds i ≤ 16383 := by
  rcases digitAt_mem ds i with e | e
  · omega
  · exact h _ e

/-- The low `k` positions in base 32768. -/
def win32 (ds : List Int) (I : Int) : Nat → Int
  | 0 => 0
  | k + 1 => win32 ds I k + Var.digitAt ds (I - 1 - k) * 32768 ^ k

theorem win32_nil (I : Int) (k : Nat) : win32 [] I k = 0 := by
  induction k with
  | zero => rfl
  | succ k ih => simp [win32, ih, Var.digitAt]

theorem win32_cons (d : Int) (ds : List Int) (I : Int) (k : Nat) :
    win32 (d :: ds) I k = win32 ds (I - 1) k + (if 1 ≤ I ∧ I ≤ k then d * 32768 ^ (I - 1).toNat else 0) := by
  induction k with
  | zero => simp [win32]; omega
  | succ k ih =>
    rw [win32, win32, ih, digitAt_cons]
    by_cases h0 : I - 1 - k = 0
    · rw [if_pos h0, if_neg (by omega), if_pos (by push_cast; omega)]
      have e : (I - 1).toNat = k := by omega
      have e2 : Var.digitAt ds (I - 1 - 1 - k) = 0 := by unfold Var.digitAt; rw [if_neg (by omega)]
      rw [e, e2]; ring
    · rw [if_neg h0]
      have e1 : I - 1 - 1 - (k:Int) = I - 1 - k - 1 := by ring
      rw [e1]
      have : (1 ≤ I ∧ I ≤ (k:Int)) ↔ (1 ≤ I ∧ I ≤ ((k + 1 : Nat) : Int)) := by push_cast; omega
      simp only [this]; ring

theorem win32_split (ds : List Int) (I : Int) (a b : Nat) :
    win32 ds I (a + b) = win32 ds I a + 32768 ^ a * win32 ds (I - a) b := by
  induction b with
  | zero => simp [win32]
  | succ b ih =>
    rw [← add_assoc, win32, ih, win32, pow_add]
    have : I - 1 - ((a + b : Nat) : Int) = I - a - 1 - b := by push_cast; ring
    rw [this]; ring

theorem win32_nonneg {ds : List Int} (h : Digits14 ds) (I : Int) (k : Nat) : 0 ≤ win32 ds I k := by
  induction k with
  | zero => simp [win32]
  | succ k ih =>
    rw [win32]
    have := (h.at (I - 1 - k)).1
    positivity

theorem win32_lt {ds : List Int} (h : Digits14 ds) (I : Int) (k : Nat) : win32 ds I k < 32768 ^ k := by
  induction k with
  | zero => simp [win32]
  | succ k ih =>
    rw [win32, pow_succ]
    have := (h.at (I - 1 - k)).2
    have : Var.digitAt ds (I - 1 - k) * 32768 ^ k ≤ 32767 * 32768 ^ k :=
      mul_le_mul_of_nonneg_right (by omega) (by positivity)
    linarith

/-- Where the windows in base 32768 agree, so do the windows in base 10000. -/
theorem win_of_win32 {d1 d2 : List Int} (h1 : Digits14 d1) (h2 : Digits14 d2) (I1 I2 : Int) (k : Nat)
    (hz : win32 d1 I1 k = win32 d2 I2 k) : win d1 I1 k = win d2 I2 k := by
  induction k with
  | zero => rfl
  | succ k ih =>
    rw [win32, win32] at hz
    have a0 := win32_nonneg h1 I1 k
    have a1 := win32_lt h1 I1 k
    have b0 := win32_nonneg h2 I2 k
    have b1 := win32_lt h2 I2 k
    generalize hx : Var.digitAt d1 (I1 - 1 - k) = x at *
    generalize hy : Var.digitAt d2 (I2 - 1 - k) = y at *
    have hp : (0:Int) < 32768 ^ k := by positivity
    have e : x = y := by
      rcases lt_trichotomy x y with h | h | h
      · exfalso
        have : (x + 1) * 32768 ^ k ≤ y * 32768 ^ k := mul_le_mul_of_nonneg_right (by omega) hp.le
        linarith
      · exact h
      · exfalso
        have : (y + 1) * 32768 ^ k ≤ x * 32768 ^ k := mul_le_mul_of_nonneg_right (by omega) hp.le
        linarith
    rw [win, win, hx, hy, e, ih (by rw [e] at hz; linarith)]

/-- The value in base 32768 through a window that covers the whole digit string. -/
theorem mag32_window (ds : List Int) (w I : Int) (N : Nat) (h1 : ds.length ≤ I) (h2 : I ≤ N) :
    mag32768 ds w = (win32 ds I N : ℚ) * 32768 ^ (w + 1 - I) := by
  induction ds generalizing w I with
  | nil => simp [win32_nil, mag32768]
  | cons d ds ih =>
    simp only [List.length_cons] at h1
    push_cast at h1
    rw [mag32768, win32_cons, if_pos (by omega), ih (w - 1) (I - 1) (by omega) (by omega)]
    push_cast
    rw [add_mul, mul_assoc, ← zpow_natCast, ← zpow_add₀ (by norm_num : (32768:ℚ) ≠ 0)]
    have e1 : ((I - 1).toNat : Int) + (w + 1 - I) = w := by omega
    have e2 : w - 1 + 1 - (I - 1) = w + 1 - I := by ring
    rw [e1, e2]; ring

/-! ## add_abs -/

theorem addLoop14 [Build] (d1 d2 : List Int) (h1 : Digits14 d1) (h2 : Digits14 d2) (I1 I2 : Int) :
    ∀ (n k : Nat) (i1 i2 carry : Int) (acc : List Int), i1 = I1 - k → i2 = I2 - k → (carry = 0 ∨ carry = 1) →
      Digits16 acc → acc.length = k → dval acc + carry * 10000 ^ k = win d1 I1 k + win d2 I2 k →
      ∃ ds c, Var.addLoop d1 d2 n i1 i2 carry acc = .ok (ds, c) ∧ Digits16 ds ∧
        ds.length = k + n ∧ dval ds + c * 10000 ^ (k + n) = win d1 I1 (k + n) + win d2 I2 (k + n) ∧
        (0 < n → Var.digitAt d1 (I1 - (k + n : ℕ)) = 0 → Var.digitAt d2 (I2 - (k + n : ℕ)) = 0 → c = 0) := by
  intro n
  induction n with
  | zero =>
    intro k i1 i2 carry acc _ _ hc hd hl hv
    exact ⟨acc, carry, rfl, hd, hl, hv, fun h => absurd h (by omega)⟩
  | succ n ih =>
    intro k i1 i2 carry acc e1 e2 hc hd hl hv
    have r1 := h1.at (i1 - 1)
    have r2 := h2.at (i2 - 1)
    have g1 : Var.digitAt d1 (i1 - 1) = Var.digitAt d1 (I1 - 1 - k) := by congr 1; omega
    have g2 : Var.digitAt d2 (i2 - 1) = Var.digitAt d2 (I2 - 1 - k) := by congr 1; omega
    unfold Var.addLoop
    simp only
    rw [i16_ok (by omega) (by omega)]
    simp only [bind_ok]
    rw [i16_ok (by omega) (by omega)]
    simp only [bind_ok, NBASE]
    rw [show k + (n + 1) = (k + 1) + n by ring]
    by_cases hB : carry + Var.digitAt d1 (i1 - 1) + Var.digitAt d2 (i2 - 1) ≥ 10000
    · rw [if_pos hB]
      obtain ⟨ds, c, q1, q2, q3, q4, q5⟩ := ih (k + 1) (i1 - 1) (i2 - 1) 1
        ((carry + Var.digitAt d1 (i1 - 1) + Var.digitAt d2 (i2 - 1) - 10000) :: acc) (by push_cast; omega) (by push_cast; omega) (.inr rfl)
        (hd.cons (by omega)) (by simp [hl]) (by
          rw [dval_cons, win, win, hl, g1, g2, pow_succ]
          linear_combination hv)
      refine ⟨ds, c, q1, q2, q3, q4, fun _ z1 z2 => ?_⟩
      rcases Nat.eq_zero_or_pos n with hn | hn
      · exfalso
        subst hn
        have f1 : Var.digitAt d1 (i1 - 1) = 0 := by rw [← z1]; congr 1; push_cast; omega
        have f2 : Var.digitAt d2 (i2 - 1) = 0 := by rw [← z2]; congr 1; push_cast; omega
        omega
      · exact q5 hn z1 z2
    · rw [if_neg hB]
      obtain ⟨ds, c, q1, q2, q3, q4, q5⟩ := ih (k + 1) (i1 - 1) (i2 - 1) 0
        ((carry + Var.digitAt d1 (i1 - 1) + Var.digitAt d2 (i2 - 1)) :: acc) (by push_cast; omega) (by push_cast; omega) (.inl rfl)
        (hd.cons (by omega)) (by simp [hl]) (by
          rw [dval_cons, win, win, hl, g1, g2, pow_succ]
          linear_combination hv)
      refine ⟨ds, c, q1, q2, q3, q4, fun _ z1 z2 => ?_⟩
      rcases Nat.eq_zero_or_pos n with hn | hn
      · subst hn
        unfold Var.addLoop at q1
        rw [pure_ok] at q1
        have := Except.ok.inj q1
        exact (congrArg Prod.snd this).symm
      · exact q5 hn z1 z2

theorem digitAt_zero {ds : List Int} {i : Int} (h : i < 0 ∨ ds.length ≤ i) : Var.digitAt ds i = 0 := by
  unfold Var.digitAt; rw [if_neg (by omega)]

theorem strip_of_stripped {v : Var} (h : Stripped v) : Var.strip v = v := by
  obtain ⟨h1, h2, h3⟩ := h
  by_cases he : v.digits = []
  · obtain ⟨w, s⟩ := h3 he
    obtain ⟨vw, vd, vs, vg⟩ := v
    simp only at *
    subst he w s
    rfl
  · have l := stripLead_core (tail := []) 0 he h1 v.weight
    have t := stripTrail_core 0 h2
    simp only [List.replicate_zero, List.nil_append, List.append_nil, Nat.cast_zero, sub_zero] at l t
    unfold Var.strip
    rw [l]
    simp only [t]
    rw [if_neg he]

theorem strip_digits16 {v : Var} (h : Digits16 v.digits) : Digits16 (Var.strip v).digits := by
  have hl : ∀ (ds : List Int) (w : Int), ∀ d ∈ (Var.stripLead ds w).1, d ∈ ds := by
    intro ds w d hd
    rw [stripLead_loose] at hd
    exact (List.dropWhile_suffix _).subset hd
  have ht : ∀ (ds : List Int), ∀ d ∈ Var.stripTrail ds, d ∈ ds := by
    intro ds
    induction ds with
    | nil => intro d hd; exact hd
    | cons x xs ih =>
      intro d hd
      unfold Var.stripTrail at hd
      split at hd
      · split at hd
        · simp at hd
        · simp at hd; simp [hd]
      · rename_i e
        rcases List.mem_cons.1 hd with rfl | hd
        · simp
        · exact List.mem_cons_of_mem _ (ih d hd)
  unfold Var.strip
  simp only
  split
  · intro d hd; simp at hd
  · intro d hd
    exact h d (hl _ _ d (ht _ d hd))

/-- A result of `add_abs` or `sub_abs` on its way to bytes. -/
structure Part16 (u : Var) (lo hi scale : Int) : Prop where
  digits : Digits16 u.digits
  stripped : Stripped u
  sign : u.sign = .pos
  dscale : u.dscale = scale
  weight_ge : u.digits ≠ [] → lo ≤ u.weight
  weight_le : u.digits ≠ [] → u.weight ≤ hi
  length : (u.digits.length : Int) ≤ max (hi - lo) 1

theorem part16_strip {ds : List Int} {W s lo : Int} (hd : Digits16 ds) (hl : W - ds.length ≥ lo) (hn : (ds.length : Int) ≤ max (W - lo) 1) :
    Part16 (Var.strip ⟨W, s, .pos, ds⟩) lo W s := by
  have hlen := strip_length_le ⟨W, s, .pos, ds⟩
  simp only at hlen
  have w1 := stripLead_weight_ge ds W
  have w2 := stripLead_weight_le ds W
  have hw : (Var.strip ⟨W, s, .pos, ds⟩).digits ≠ [] → (Var.strip ⟨W, s, .pos, ds⟩).weight = (Var.stripLead ds W).2 := by
    unfold Var.strip
    simp only
    split
    · intro h; exact absurd rfl h
    · intro _; rfl
  refine ⟨strip_digits16 hd, strip_stripped _, ?_, by simp, fun h => ?_, fun h => ?_, by omega⟩
  · unfold Var.strip; simp only; split <;> rfl
  · rw [hw h]; omega
  · rw [hw h]; omega

theorem strip_mag (W s : Int) (ds : List Int) : mag (Var.strip ⟨W, s, .pos, ds⟩).digits (Var.strip ⟨W, s, .pos, ds⟩).weight = mag ds W := by
  have hval := strip_value ⟨W, s, .pos, ds⟩
  have hsg : (Var.strip ⟨W, s, .pos, ds⟩).sign = .pos := by
    unfold Var.strip; simp only; split <;> rfl
  unfold value at hval
  rw [hsg] at hval
  exact hval

theorem addAbs14 [Build] (a b : Var) (sma : Small a) (smb : Small b) (ha : Digits14 a.digits) (hb : Digits14 b.digits)
    (na : a.sign ≠ .nan) (nb : b.sign ≠ .nan) :
    ∃ u, Var.addAbs a b = .ok u ∧ Part16 u (min (a.weight - a.digits.length) (b.weight - b.digits.length)) (max a.weight b.weight + 1) (max a.dscale b.dscale) ∧
      mag u.digits u.weight = mag a.digits a.weight + mag b.digits b.weight := by
  obtain ⟨wa1, wa2, wa3⟩ := sma
  obtain ⟨wb1, wb2, wb3⟩ := smb
  unfold Var.addAbs
  rw [dassert_ok na, dassert_ok nb]
  simp only [bind_ok]
  kill_fits
  simp only [bind_ok, Var.ndigits]
  set W := max a.weight b.weight + 1 with hW
  set R := max ((a.digits.length : Int) - a.weight - 1) ((b.digits.length : Int) - b.weight - 1) with hR
  have hpos : R + W + 1 > 0 := by omega
  rw [if_pos hpos]
  obtain ⟨n, hn⟩ := Int.eq_ofNat_of_zero_le (a := R + W + 1) (by omega)
  rw [hn]
  simp only [Int.toNat_natCast]
  obtain ⟨ds, c, e, hd, hl, hv, hc⟩ := addLoop14 a.digits b.digits ha hb (R + a.weight + 1) (R + b.weight + 1)
    n 0 (R + a.weight + 1) (R + b.weight + 1) 0 [] (by simp) (by simp) (.inl rfl) (fun _ h => absurd h List.not_mem_nil) rfl (by simp [win])
  rw [e]
  rw [zero_add] at hl hv hc
  simp only [bind_ok]
  have l1 : (a.digits.length : Int) ≤ R + a.weight + 1 := by omega
  have l2 : (b.digits.length : Int) ≤ R + b.weight + 1 := by omega
  have u1 : R + a.weight + 1 ≤ n := by omega
  have u2 : R + b.weight + 1 ≤ n := by omega
  have m1 := mag_window a.digits a.weight _ l1
  have m2 := mag_window b.digits b.weight _ l2
  rw [win_full _ _ _ l1 u1, win_full _ _ _ l2 u2] at hv
  have x1 : a.weight + 1 - (R + a.weight + 1) = -R := by ring
  have x2 : b.weight + 1 - (R + b.weight + 1) = -R := by ring
  rw [x1] at m1
  rw [x2] at m2
  generalize hXe : dval a.digits * 10000 ^ (R + a.weight + 1 - (a.digits.length : Int)).toNat = X at *
  generalize hYe : dval b.digits * 10000 ^ (R + b.weight + 1 - (b.digits.length : Int)).toNat = Y at *
  have hcz : c = 0 := hc (by omega) (digitAt_zero (.inl (by omega))) (digitAt_zero (.inl (by omega)))
  subst hcz
  rw [dassert_ok rfl]
  simp only [bind_ok]
  rw [stripM_ok (by simp only; omega) (by simp only; omega)]
  refine ⟨_, rfl, part16_strip hd (by omega) (by omega), ?_⟩
  rw [strip_mag, mag_of_dval ds W n hl, m1, m2, ← add_mul]
  have : W + 1 - (n:Int) = -R := by omega
  rw [this]
  congr 1
  exact_mod_cast (by linarith : dval ds = X + Y)

/-! ## sub_abs -/

theorem subLoop14 [Build] (d1 d2 : List Int) (h1 : Digits14 d1) (h2 : Digits14 d2) (I1 I2 : Int) :
    ∀ (n k : Nat) (i1 i2 borrow : Int) (acc : List Int), i1 = I1 - k → i2 = I2 - k →
      Digits16 acc → acc.length = k → dval acc + borrow * 10000 ^ k = win d1 I1 k - win d2 I2 k →
      (borrow = 0 ∧ win32 d2 I2 k ≤ win32 d1 I1 k ∨ borrow = -1 ∧ win32 d1 I1 k < win32 d2 I2 k) →
      ∃ ds c, Var.subLoop d1 d2 n i1 i2 borrow acc = .ok (ds, c) ∧ Digits16 ds ∧
        ds.length = k + n ∧ dval ds + c * 10000 ^ (k + n) = win d1 I1 (k + n) - win d2 I2 (k + n) ∧
        (c = 0 ∧ win32 d2 I2 (k + n) ≤ win32 d1 I1 (k + n) ∨ c = -1 ∧ win32 d1 I1 (k + n) < win32 d2 I2 (k + n)) := by
  intro n
  induction n with
  | zero =>
    intro k i1 i2 borrow acc _ _ hd hl hv hc
    exact ⟨acc, borrow, rfl, hd, hl, hv, hc⟩
  | succ n ih =>
    intro k i1 i2 borrow acc e1 e2 hd hl hv hc
    have r1 := h1.at (i1 - 1)
    have r2 := h2.at (i2 - 1)
    have g1 : Var.digitAt d1 (i1 - 1) = Var.digitAt d1 (I1 - 1 - k) := by congr 1; omega
    have g2 : Var.digitAt d2 (i2 - 1) = Var.digitAt d2 (I2 - 1 - k) := by congr 1; omega
    have a0 := win32_nonneg h1 I1 k
    have a1 := win32_lt h1 I1 k
    have b0 := win32_nonneg h2 I2 k
    have b1 := win32_lt h2 I2 k
    have hp : (0:Int) < 32768 ^ k := by positivity
    have hbr : borrow = 0 ∨ borrow = -1 := by rcases hc with h | h; exact .inl h.1; exact .inr h.1
    unfold Var.subLoop
    simp only
    rw [i16_ok (by omega) (by omega)]
    simp only [bind_ok]
    rw [i16_ok (by omega) (by omega)]
    simp only [bind_ok, NBASE]
    rw [show k + (n + 1) = (k + 1) + n by ring]
    by_cases hB : borrow + Var.digitAt d1 (i1 - 1) - Var.digitAt d2 (i2 - 1) < 0
    · rw [if_pos hB]
      refine ih (k + 1) _ _ (-1) _ (by push_cast; omega) (by push_cast; omega)
        (hd.cons (by omega)) (by simp [hl]) ?_ (.inr ⟨rfl, ?_⟩)
      · rw [dval_cons, win, win, hl, g1, g2, pow_succ]
        linear_combination hv
      · rw [win32, win32, ← g1, ← g2]
        rcases hc with ⟨hc, hw⟩ | ⟨hc, hw⟩
        · have : (Var.digitAt d1 (i1 - 1) + 1) * 32768 ^ k ≤ Var.digitAt d2 (i2 - 1) * 32768 ^ k := mul_le_mul_of_nonneg_right (by omega) hp.le
          linarith
        · have : Var.digitAt d1 (i1 - 1) * 32768 ^ k ≤ Var.digitAt d2 (i2 - 1) * 32768 ^ k := mul_le_mul_of_nonneg_right (by omega) hp.le
          linarith
    · rw [if_neg hB]
      refine ih (k + 1) _ _ 0 _ (by push_cast; omega) (by push_cast; omega)
        (hd.cons (by omega)) (by simp [hl]) ?_ (.inl ⟨rfl, ?_⟩)
      · rw [dval_cons, win, win, hl, g1, g2, pow_succ]
        linear_combination hv
      · rw [win32, win32, ← g1, ← g2]
        rcases hc with ⟨hc, hw⟩ | ⟨hc, hw⟩
        · have : Var.digitAt d2 (i2 - 1) * 32768 ^ k ≤ Var.digitAt d1 (i1 - 1) * 32768 ^ k := mul_le_mul_of_nonneg_right (by omega) hp.le
          linarith
        · have : (Var.digitAt d2 (i2 - 1) + 1) * 32768 ^ k ≤ Var.digitAt d1 (i1 - 1) * 32768 ^ k := mul_le_mul_of_nonneg_right (by omega) hp.le
          linarith

theorem subAbs14 [Build] (a b : Var) (sma : Small a) (smb : Small b) (ha : Digits14 a.digits) (hb : Digits14 b.digits)
    (na : a.sign ≠ .nan) (nb : b.sign ≠ .nan) (hlt : mag32768 b.digits b.weight < mag32768 a.digits a.weight) :
    ∃ u, Var.subAbs a b = .ok u ∧ Part16 u (min (a.weight - a.digits.length) (b.weight - b.digits.length)) (max a.weight b.weight + 1) (max a.dscale b.dscale) ∧
      mag u.digits u.weight = mag a.digits a.weight - mag b.digits b.weight := by
  obtain ⟨wa1, wa2, wa3⟩ := sma
  obtain ⟨wb1, wb2, wb3⟩ := smb
  have hne : 0 < a.digits.length := by
    apply List.length_pos_iff.2
    intro h
    rw [h] at hlt
    have := mag32_nonneg hb.wide b.weight
    simp [mag32768] at hlt
    linarith
  unfold Var.subAbs
  rw [dassert_ok na, dassert_ok nb]
  simp only [bind_ok]
  kill_fits
  simp only [bind_ok, Var.ndigits]
  set W := a.weight with hW
  set R := max ((a.digits.length : Int) - W - 1) ((b.digits.length : Int) - b.weight - 1) with hR
  have hpos : ¬ R + W + 1 ≤ 0 := by omega
  rw [if_neg hpos]
  obtain ⟨n, hn⟩ := Int.eq_ofNat_of_zero_le (a := R + W + 1) (by omega)
  rw [hn]
  simp only [Int.toNat_natCast]
  obtain ⟨ds, c, e, hd, hl, hv, hc⟩ := subLoop14 a.digits b.digits ha hb n (R + b.weight + 1)
    n 0 n (R + b.weight + 1) 0 [] (by simp) (by simp) (fun _ h => absurd h List.not_mem_nil) rfl (by simp [win]) (.inl ⟨rfl, by simp [win32]⟩)
  rw [e]
  rw [zero_add] at hl hv hc
  simp only [bind_ok]
  have l1 : (a.digits.length : Int) ≤ n := by omega
  have l2 : (b.digits.length : Int) ≤ R + b.weight + 1 := by omega
  have m1 := mag_window a.digits W _ l1
  have m2 := mag_window b.digits b.weight _ l2
  have x1 : W + 1 - (n : Int) = -R := by omega
  have x2 : b.weight + 1 - (R + b.weight + 1) = -R := by ring
  rw [x1] at m1
  rw [x2] at m2
  -- the comparison, in base 32768
  have p1 := mag32_window a.digits W n n l1 le_rfl
  have p2 := mag32_window b.digits b.weight (R + b.weight + 1) (n + (R + b.weight + 1).toNat) l2 (by push_cast; omega)
  rw [x1] at p1
  rw [x2] at p2
  rw [p1, p2] at hlt
  have hlt' := lt_of_mul_lt_mul_right hlt (pow32_pos (-R)).le
  have hlt2 : win32 b.digits (R + b.weight + 1) (n + (R + b.weight + 1).toNat) < win32 a.digits n n := by exact_mod_cast hlt'
  rw [win32_split] at hlt2
  have a1 := win32_lt ha n n
  have b0 := win32_nonneg hb (R + b.weight + 1) n
  have t0 := win32_nonneg hb (R + b.weight + 1 - n) (R + b.weight + 1).toNat
  have hp : (0:Int) < 32768 ^ n := by positivity
  have hz : win32 b.digits (R + b.weight + 1 - n) (R + b.weight + 1).toNat = 0 := by
    by_contra hcon
    have h1 : 1 ≤ win32 b.digits (R + b.weight + 1 - n) (R + b.weight + 1).toNat := by omega
    have : (32768:Int) ^ n * 1 ≤ 32768 ^ n * win32 b.digits (R + b.weight + 1 - n) (R + b.weight + 1).toNat := mul_le_mul_of_nonneg_left h1 hp.le
    linarith
  rw [hz] at hlt2
  have hz' : win b.digits (R + b.weight + 1 - n) (R + b.weight + 1).toNat = 0 := by
    rw [win_of_win32 hb (d2 := []) (fun _ h => absurd h List.not_mem_nil) _ 0 _ (by rw [hz, win32_nil]), win_nil]
  have hcz : c = 0 := by
    rcases hc with hc | hc
    · exact hc.1
    · exfalso; linarith [hc.2]
  have hwb := win_full b.digits (R + b.weight + 1) (n + (R + b.weight + 1).toNat) l2 (by push_cast; omega)
  rw [win_split, hz', mul_zero, add_zero] at hwb
  rw [win_full _ _ _ l1 le_rfl, hwb] at hv
  generalize hXe : dval a.digits * 10000 ^ ((n:Int) - (a.digits.length : Int)).toNat = X at *
  generalize hYe : dval b.digits * 10000 ^ (R + b.weight + 1 - (b.digits.length : Int)).toNat = Y at *
  subst hcz
  rw [dassert_ok rfl]
  simp only [bind_ok]
  rw [stripM_ok (by simp only; omega) (by simp only; omega)]
  refine ⟨_, rfl, ?_, ?_⟩
  · have q := part16_strip (W := W) (s := max a.dscale b.dscale) (lo := min (W - a.digits.length) (b.weight - b.digits.length)) hd (by omega) (by omega)
    exact ⟨q.digits, q.stripped, q.sign, q.dscale, q.weight_ge, fun h => by have := q.weight_le h; omega, by have := q.length; omega⟩
  · rw [strip_mag, mag_of_dval ds W n hl, m1, m2, ← sub_mul, x1]
    congr 1
    exact_mod_cast (by linarith : dval ds = X - Y)

/-- Numbers that compare as equal are equal in base 10000 too. -/
theorem mag_of_mag32 {d1 d2 : List Int} (h1 : Digits14 d1) (h2 : Digits14 d2) (w1 w2 : Int)
    (h : mag32768 d1 w1 = mag32768 d2 w2) : mag d1 w1 = mag d2 w2 := by
  set R := max ((d1.length : Int) - w1 - 1) ((d2.length : Int) - w2 - 1) with hR
  set N : ℕ := (R + w1 + 1).toNat + (R + w2 + 1).toNat with hN
  have l1 : (d1.length : Int) ≤ R + w1 + 1 := by omega
  have l2 : (d2.length : Int) ≤ R + w2 + 1 := by omega
  have p1 := mag32_window d1 w1 (R + w1 + 1) N l1 (by push_cast [hN]; omega)
  have p2 := mag32_window d2 w2 (R + w2 + 1) N l2 (by push_cast [hN]; omega)
  have x1 : w1 + 1 - (R + w1 + 1) = -R := by ring
  have x2 : w2 + 1 - (R + w2 + 1) = -R := by ring
  rw [x1] at p1
  rw [x2] at p2
  rw [p1, p2] at h
  have h' := mul_right_cancel₀ (pow32_pos (-R)).ne' h
  have e := win_of_win32 h1 h2 _ _ _ (by exact_mod_cast h')
  rw [win_full d1 _ N l1 (by push_cast [hN]; omega), win_full d2 _ N l2 (by push_cast [hN]; omega)] at e
  rw [mag_window d1 w1 _ l1, mag_window d2 w2 _ l2, x1, x2, e]

end PgNumeric
