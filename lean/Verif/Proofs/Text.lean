import Verif.Proofs.Parse
import Verif.Model.Text
/-!
# Text output is the exact decimal expansion
-/
namespace PgNumeric
open Spec Var

namespace Text

theorem natText_rec (n : ℕ) : natText n = if n < 10 then [48 + n] else natText (n / 10) ++ [48 + n % 10] := by
  unfold natText
  by_cases h : n < 10
  · rw [if_pos h]
    by_cases h0 : n = 0
    · simp [h0]
    · rw [if_neg h0, Nat.digits_of_lt 10 n h0 h]; simp [add_comm]
  · rw [if_neg h, if_neg (by omega), if_neg (by omega)]
    rw [Nat.digits_eq_cons_digits_div (by norm_num) (by omega)]
    simp [add_comm]

theorem dec_eq (n : ℕ) : dec n = natText n := by
  induction n using Nat.strong_induction_on with
  | _ n ih =>
    rw [dec, natText_rec]
    by_cases h : n < 10
    · rw [if_pos h, if_pos h]
    · rw [if_neg h, if_neg h, ih (n / 10) (by omega)]

theorem fixedText_length (k n : ℕ) : (fixedText k n).length = k := by simp [fixedText]

theorem fixedText_append (a b n : ℕ) : fixedText (a + b) n = fixedText a (n / 10 ^ b) ++ fixedText b n := by
  unfold fixedText
  rw [List.range_add, List.map_append, List.map_map]
  congr 1
  · apply List.map_congr_left
    intro i hi
    rw [List.mem_range] at hi
    rw [Nat.div_div_eq_div_mul, ← pow_add]
    congr 4; omega
  · apply List.map_congr_left
    intro i hi
    rw [List.mem_range] at hi
    simp only [Function.comp]
    congr 4; omega

theorem fixedText_succ (k n : ℕ) : fixedText (k + 1) n = fixedText k (n / 10) ++ [48 + n % 10] := by
  rw [fixedText_append]; simp [fixedText]

theorem fixedText_mod (k n : ℕ) : fixedText k (n % 10 ^ k) = fixedText k n := by
  induction k generalizing n with
  | zero => rfl
  | succ k ih =>
    rw [fixedText_succ, fixedText_succ]
    have h1 : n % 10 ^ (k + 1) / 10 = n / 10 % 10 ^ k := by
      rw [pow_succ, mul_comm, Nat.mod_mul_right_div_self]
    have h2 : n % 10 ^ (k + 1) % 10 = n % 10 := by
      rw [pow_succ, Nat.mod_mul_left_mod]
    rw [h1, h2, ih]

theorem fixedText_add_mul (k n a : ℕ) : fixedText k (n + 10 ^ k * a) = fixedText k n := by
  rw [← fixedText_mod, Nat.add_mul_mod_self_left, fixedText_mod]

theorem fixedText_concat (a b A B : ℕ) (hB : B < 10 ^ b) :
    fixedText (a + b) (A * 10 ^ b + B) = fixedText a A ++ fixedText b B := by
  rw [fixedText_append, Nat.add_comm (A * _), Nat.add_mul_div_right _ _ (by positivity), Nat.div_eq_of_lt hB, zero_add, mul_comm,
    fixedText_add_mul]

theorem natText_append (k a b : ℕ) (hb : b < 10 ^ k) (ha : 0 < a ∨ k = 0) :
    natText (a * 10 ^ k + b) = natText a ++ fixedText k b := by
  induction k generalizing b with
  | zero => simp at hb; simp [hb, fixedText]
  | succ k ih =>
    have ha : 0 < a := by omega
    have h1 : (a * 10 ^ (k + 1) + b) / 10 = a * 10 ^ k + b / 10 := by
      rw [pow_succ, ← mul_assoc]; omega
    have h2 : (a * 10 ^ (k + 1) + b) % 10 = b % 10 := by
      rw [pow_succ, ← mul_assoc]; omega
    have h3 : ¬ (a * 10 ^ (k + 1) + b) < 10 := by
      have : 10 ^ 1 ≤ 10 ^ (k + 1) := Nat.pow_le_pow_right (by norm_num) (by omega)
      have : 1 * 10 ^ (k + 1) ≤ a * 10 ^ (k + 1) := Nat.mul_le_mul_right _ ha
      omega
    rw [natText_rec, if_neg h3, h1, h2, ih (b / 10) (by rw [pow_succ] at hb; omega) (.inl ha), fixedText_succ, List.append_assoc]

theorem natText_length_le {n k : ℕ} (hk : 0 < k) (h : n < 10 ^ k) : (natText n).length ≤ k := by
  induction k generalizing n with
  | zero => omega
  | succ k ih =>
    rw [natText_rec]
    split
    · simp
    · rename_i h10
      have hk0 : 0 < k := by
        rcases Nat.eq_zero_or_pos k with rfl | h'
        · simp at h; omega
        · exact h'
      have := ih hk0 (n := n / 10) (by rw [pow_succ] at h; omega)
      simp; omega

theorem pad_eq (k n : ℕ) (hk : 0 < k) (h : n < 10 ^ k) : pad k n = fixedText k n := by
  unfold pad
  rw [dec_eq]
  induction k generalizing n with
  | zero => omega
  | succ k ih =>
    rw [fixedText_succ]
    rcases Nat.eq_zero_or_pos k with rfl | hk'
    · simp at h
      rw [natText_rec, if_pos h]; simp [fixedText, Nat.mod_eq_of_lt h]
    · have hlt : n / 10 < 10 ^ k := by rw [pow_succ] at h; omega
      rw [← ih (n / 10) hk' hlt]
      by_cases h10 : n < 10
      · rw [natText_rec, if_pos h10, natText_rec, if_pos (by omega)]
        have e : n / 10 = 0 := by omega
        simp only [List.length_singleton, e, Nat.mod_eq_of_lt h10]
        rw [show k + 1 - 1 = (k - 1) + 1 by omega, List.replicate_succ']
      · conv_lhs => rw [natText_rec, if_neg h10]
        simp only [List.length_append, List.length_singleton, List.append_assoc]
        rw [show k + 1 - ((natText (n / 10)).length + 1) = k - (natText (n / 10)).length by omega]

theorem divTen_eq (k n : ℕ) : divTen k n = n / 10 ^ k := by
  induction k generalizing n with
  | zero => simp [divTen]
  | succ k ih => rw [divTen, ih, Nat.div_div_eq_div_mul, pow_succ, mul_comm]

/-- A window as a natural number. -/
theorem win_top {ds : List Int} (h : Digits ds) (d : Int) (n : ℕ) :
    (win ds (d + n + 1) (n + 1)).toNat = (digitAt ds d).toNat * 10 ^ (4 * n) + (win ds (d + n + 1) n).toNat := by
  have e : win ds (d + n + 1) (n + 1) = win ds (d + n + 1) n + digitAt ds d * 10000 ^ n := by
    rw [win]; congr 2; congr 1; ring
  have h1 := win_nonneg h (d + n + 1) n
  have h2 := (digitAt_range h d).1
  rw [e]
  obtain ⟨x, hx⟩ := Int.eq_ofNat_of_zero_le h1
  obtain ⟨y, hy⟩ := Int.eq_ofNat_of_zero_le h2
  rw [hx, hy]
  have : ((x : Int) + (y : Int) * 10000 ^ n) = ((x + y * 10000 ^ n : ℕ) : Int) := by push_cast; ring
  simp only [this, Int.toNat_natCast]
  rw [pow_mul]; norm_num; ring

theorem win_toNat_lt {ds : List Int} (h : Digits ds) (I : Int) (n : ℕ) : (win ds I n).toNat < 10 ^ (4 * n) := by
  have h1 := win_nonneg h I n
  have h2 := win_lt h I n
  have : (10:ℕ) ^ (4 * n) = 10000 ^ n := by rw [pow_mul]; norm_num
  rw [this]
  have : ((10000 ^ n : ℕ) : Int) = 10000 ^ n := by push_cast; ring
  omega

theorem intLoop_tail [Build] {ds : List Int} (h : Digits ds) (n : ℕ) (d : Int) (hd : 0 < d) :
    intLoop ds n d = .ok (fixedText (4 * n) (win ds (d + n) n).toNat) := by
  induction n generalizing d with
  | zero => rfl
  | succ n ih =>
    have hr := digitAt_range h d
    unfold intLoop
    simp only
    rw [dassert_ok hr.1]
    simp only [bind, Except.bind]
    rw [ih (d + 1) (by omega)]
    simp only [pure, Except.pure]
    rw [if_pos hd, pad_eq 4 _ (by norm_num) (by norm_num; omega)]
    congr 1
    have e1 : d + ((n + 1 : ℕ) : Int) = d + n + 1 := by push_cast; ring
    have e2 : d + 1 + (n : Int) = d + n + 1 := by ring
    rw [e1, e2, win_top h, show 4 * (n + 1) = 4 + 4 * n by ring, fixedText_concat _ _ _ _ (win_toNat_lt h _ _)]

theorem fracLoop_eq {ds : List Int} (h : Digits ds) (dscale : Int) (n : ℕ) (d scale : Int) (r : ℕ)
    (hr : (r : Int) = dscale - scale) (hn : n = (r + 3) / 4) :
    fracLoop ds dscale n d scale = fixedText r ((win ds (d + n) n).toNat / 10 ^ (4 * n - r)) := by
  induction n generalizing d scale r with
  | zero =>
    have : r = 0 := by omega
    subst this; rfl
  | succ n ih =>
    have hdr := digitAt_range h d
    have e1 : d + ((n + 1 : ℕ) : Int) = d + n + 1 := by push_cast; ring
    have e2 : d + 1 + (n : Int) = d + n + 1 := by ring
    unfold fracLoop
    simp only
    by_cases h4 : scale + 4 ≤ dscale
    · rw [if_pos h4, pad_eq 4 _ (by norm_num) (by norm_num; omega), ih (d + 1) (scale + 4) (r - 4) (by omega) (by omega), e1, e2,
        win_top h]
      have hlt := win_toNat_lt h (d + n + 1) n
      obtain ⟨q, rfl⟩ : ∃ q, r = 4 + q := ⟨r - 4, by omega⟩
      have hp : 4 * (n + 1) - (4 + q) = 4 * n - q := by omega
      rw [hp, Nat.add_sub_cancel_left, show 4 * n = q + (4 * n - q) by omega, pow_add, ← mul_assoc]
      rw [show 4 * n = q + (4 * n - q) by omega, pow_add] at hlt
      rw [show q + (4 * n - q) - q = 4 * n - q by omega, Nat.add_comm (_ * _), Nat.add_mul_div_right _ _ (by positivity), Nat.add_comm (_ / _),
        fixedText_concat _ _ _ _ (by rw [Nat.div_lt_iff_lt_mul (by positivity)]; exact hlt)]
    · rw [if_neg h4]
      have hn0 : n = 0 := by omega
      subst hn0
      have hw : (dscale - scale).toNat = r := by omega
      rw [hw, divTen_eq, fracLoop, List.append_nil]
      have hwin : win ds (d + ((0 + 1 : ℕ) : Int)) (0 + 1) = digitAt ds d := by
        rw [win, win]; simp
      rw [hwin]
      have h9 : (digitAt ds d).toNat < 10 ^ 4 := by norm_num; omega
      apply pad_eq _ _ (by omega)
      rw [Nat.div_lt_iff_lt_mul (by positivity), ← pow_add, show r + (4 - r) = 4 by omega]
      exact h9

theorem hasScale_of_abs {x : ℚ} {s N : ℕ} (h : |x| * 10 ^ s = N) : HasScale x s := by
  rcases abs_cases x with ⟨e, -⟩ | ⟨e, -⟩ <;> rw [e] at h
  · exact ⟨N, by rw [zpow_natCast]; push_cast; exact h⟩
  · exact ⟨-N, by rw [zpow_natCast]; push_cast; linarith⟩

/-- The number written by `write`, in terms of windows. -/
theorem window_split_of {v : Var} (hd : Digits v.digits) {x : ℚ} (hx : value v = x) {s : ℕ} {N : ℕ}
    (hN : |x| * 10 ^ s = N) (hlen : (v.digits.length : Int) ≤ v.weight + 1 + ((s + 3) / 4 : ℕ) ∨ v.digits = []) :
    let m := (s + 3) / 4
    N / 10 ^ s = (win v.digits (v.weight + 1) (v.weight + 1).toNat).toNat ∧
    N % 10 ^ s = (win v.digits (v.weight + 1 + m) m).toNat / 10 ^ (4 * m - s) := by
  intro m
  set W := (win v.digits (v.weight + 1) (v.weight + 1).toNat).toNat with hW
  set F := (win v.digits (v.weight + 1 + m) m).toNat with hF
  have hlen : (v.digits.length : Int) ≤ v.weight + 1 + m ∨ v.digits = [] := hlen
  have hw0 := win_nonneg hd (v.weight + 1) (v.weight + 1).toNat
  have hf0 := win_nonneg hd (v.weight + 1 + m) m
  have hFlt : F < 10 ^ (4 * m) := win_toNat_lt hd _ _
  -- the magnitude
  have hmag : mag v.digits v.weight * 10000 ^ m = ((F + 10000 ^ m * W : ℕ) : ℚ) := by
    have hsum : ((F + 10000 ^ m * W : ℕ) : Int) = win v.digits (v.weight + 1 + m) (m + (v.weight + 1).toNat) := by
      rw [win_split]
      have : v.weight + 1 + (m : Int) - m = v.weight + 1 := by ring
      rw [this]
      push_cast
      rw [hF, hW, Int.toNat_of_nonneg hf0, Int.toNat_of_nonneg hw0]
    rcases hlen with hlen | hnil
    · rw [win_full _ _ _ hlen (by push_cast; omega)] at hsum
      rw [mag_window _ _ _ hlen, ← hsum]
      rw [Int.cast_natCast, mul_assoc, ← zpow_natCast, ← zpow_add₀ B_ne]
      have : v.weight + 1 - (v.weight + 1 + (m : Int)) + m = 0 := by ring
      rw [this]; simp
    · rw [hnil, win_nil] at hsum
      have : F + 10000 ^ m * W = 0 := by exact_mod_cast hsum
      rw [this, hnil]; simp [mag]
  have hmx : |x| = mag v.digits v.weight := by rw [← hx, abs_value _ hd]
  have hm4 : s ≤ 4 * m := by omega
  obtain ⟨k, hk⟩ : ∃ k, 4 * m = s + k := ⟨4 * m - s, by omega⟩
  have hkk : 4 * m - s = k := by omega
  have key : N * 10 ^ k = F + 10 ^ s * 10 ^ k * W := by
    have e : (10000:ℕ) ^ m = 10 ^ s * 10 ^ k := by
      rw [← pow_add, ← hk, pow_mul]; norm_num
    have : ((N * 10 ^ k : ℕ) : ℚ) = ((F + 10000 ^ m * W : ℕ) : ℚ) := by
      rw [← hmag, ← hmx]
      push_cast
      rw [← hN]
      have : (10000:ℚ) ^ m = 10 ^ s * 10 ^ k := by exact_mod_cast e
      rw [this]; ring
    have := (Nat.cast_inj (R := ℚ)).1 this
    rw [this, e]
  have hFd : F = (N - 10 ^ s * W) * 10 ^ k := by
    rw [Nat.sub_mul]
    have : 10 ^ s * W * 10 ^ k = 10 ^ s * 10 ^ k * W := by ring
    omega
  have hle : 10 ^ s * W ≤ N := by
    have : 10 ^ s * W * 10 ^ k ≤ N * 10 ^ k := by
      have : 10 ^ s * W * 10 ^ k = 10 ^ s * 10 ^ k * W := by ring
      omega
    exact Nat.le_of_mul_le_mul_right this (by positivity)
  have hlt : N - 10 ^ s * W < 10 ^ s := by
    rw [hFd, hk, pow_add] at hFlt
    exact Nat.lt_of_mul_lt_mul_right hFlt
  have hNe : N = (N - 10 ^ s * W) + 10 ^ s * W := by omega
  rw [hkk]
  constructor
  · rw [hNe, Nat.add_mul_div_left _ _ (by positivity), Nat.div_eq_of_lt hlt, zero_add]
  · conv_lhs => rw [hNe]
    rw [Nat.add_mul_mod_self_left, Nat.mod_eq_of_lt hlt, hFd, Nat.mul_div_cancel _ (by positivity)]

theorem window_split {v : Var} {t : Int} {y : ℚ} (hv : AddOK v t y) {x : ℚ} (hx : value v = x) {s : ℕ} {N : ℕ}
    (hN : |x| * 10 ^ s = N) :
    let m := (s + 3) / 4
    N / 10 ^ s = (win v.digits (v.weight + 1) (v.weight + 1).toNat).toNat ∧
    N % 10 ^ s = (win v.digits (v.weight + 1 + m) m).toNat / 10 ^ (4 * m - s) := by
  refine window_split_of hv.digits hx hN ?_
  by_cases hne : v.digits = []
  · exact .inr hne
  · left
    have := stripped_len hv.digits hv.stripped hne (s := s) (by rw [hx]; exact hasScale_of_abs hN)
    simp only [ndigits] at this
    omega

theorem write_spec' [Build] {v : Var} {t : Int} {y : ℚ} (hv : AddOK v t y) {x : ℚ} (hx : value v = x) {s : ℕ} (hs : v.dscale = s) {N : ℕ}
    (hN : |x| * 10 ^ s = N) (hsm : Small v) (hsb : s ≤ 1000000000) : write v = .ok (decimalText (decide (x < 0)) N s) := by
  obtain ⟨hI, hF⟩ := window_split hv hx hN
  have hsign : (v.sign = .neg) ↔ x < 0 := by
    rw [← hx]
    have hm := mag_nonneg hv.digits v.weight
    unfold value
    constructor
    · intro hneg
      rw [hneg]
      simp only
      have hne : v.digits ≠ [] := fun h => by
        have := (hv.stripped.2.2 h).2; rw [hneg] at this; cases this
      have := stripped_mag_ge hv.digits hv.stripped hne
      have := B_zpow_pos v.weight
      linarith
    · intro h
      have hn := hv.not_nan
      match hsg : v.sign with
      | .neg => rfl
      | .pos => rw [hsg] at h; simp only at h; linarith
      | .nan => exact absurd hsg hn
  unfold write
  rw [if_neg hv.not_nan]
  have hlo := hsm.lo
  have hhi := hsm.hi
  rw [fits_ok (by fits_tac)]
  have hint : intText v = .ok (natText (N / 10 ^ s)) := by
    unfold intText
    by_cases hw : v.weight < 0
    · rw [if_pos hw, hI]
      have : (v.weight + 1).toNat = 0 := by omega
      rw [this]; rfl
    · rw [if_neg hw, hI]
      obtain ⟨n, hn⟩ := Int.eq_ofNat_of_zero_le (a := v.weight) (by omega)
      rw [hn]
      have : ((n : Int) + 1).toNat = n + 1 := by omega
      rw [this]
      have hr := digitAt_range hv.digits 0
      unfold intLoop
      simp only
      rw [dassert_ok hr.1]
      simp only [bind, Except.bind]
      rw [intLoop_tail hv.digits _ _ (by norm_num)]
      simp only [pure, Except.pure]
      rw [if_neg (by norm_num), dec_eq]
      congr 1
      have e1 : (0:Int) + 1 + (n : Int) = 0 + n + 1 := by ring
      have e2 : (n:Int) + 1 = 0 + n + 1 := by ring
      rw [e1, e2, win_top hv.digits, natText_append _ _ _ (win_toNat_lt hv.digits _ _)]
      by_cases hne : v.digits = []
      · right
        have := (hv.stripped.2.2 hne).1; omega
      · left
        obtain ⟨d, ds, hdd⟩ := List.exists_cons_of_ne_nil hne
        have h1 := hv.stripped.1
        rw [hdd] at h1 hr ⊢
        rw [digitAt_cons, if_pos rfl] at hr ⊢
        simp at h1
        omega
  simp only [bind, Except.bind]
  rw [hint]
  simp only [pure, Except.pure]
  congr 1
  unfold decimalText
  congr 1
  · congr 1
    by_cases h : x < 0
    · rw [if_pos (hsign.2 h), if_pos (by simpa using h)]; rfl
    · rw [if_neg (fun c => h (hsign.1 c)), if_neg (by simpa using h)]
  · by_cases h0 : s = 0
    · rw [if_neg (by omega), if_pos h0]
    · rw [if_pos (by omega), if_neg h0]
      have hn : ((v.dscale + 3) / 4).toNat = (s + 3) / 4 := by omega
      rw [hn, fracLoop_eq hv.digits _ _ _ _ s (by omega) rfl, ← hF, fixedText_mod]
      rfl

theorem write_spec [Build] {v : Var} (hv : Canonical v) {x : ℚ} (hx : value v = x) {s : ℕ} (hs : v.dscale = s) {N : ℕ}
    (hN : |x| * 10 ^ s = N) : write v = .ok (decimalText (decide (x < 0)) N s) :=
  write_spec' ⟨hv.digits, hv.not_nan, hv.stripped, rfl, rfl⟩ hx hs hN hv.small (by have := hv.dscale_le; omega)

/-! ## Reading the text back -/

theorem numVal_single (c : ℕ) : numVal [c] = c - 48 := by simp [numVal]

theorem natText_dec (n : ℕ) : DecDigits (natText n) ∧ natText n ≠ [] ∧ numVal (natText n) = n := by
  induction n using Nat.strong_induction_on with
  | _ n ih =>
    rw [natText_rec]
    split
    · refine ⟨?_, by simp, by rw [numVal_single]; omega⟩
      intro c hc; simp at hc; omega
    · obtain ⟨h1, -, h3⟩ := ih (n / 10) (by omega)
      refine ⟨?_, by simp, ?_⟩
      · intro c hc
        rcases List.mem_append.1 hc with h | h
        · exact h1 c h
        · simp at h; omega
      · rw [Parse.numVal_append, h3, numVal_single]; simp; omega

theorem fixedText_dec (k n : ℕ) : DecDigits (fixedText k n) ∧ numVal (fixedText k n) = n % 10 ^ k := by
  induction k generalizing n with
  | zero => exact ⟨by intro c hc; simp [fixedText] at hc, by simp [fixedText, numVal, Nat.mod_one]⟩
  | succ k ih =>
    rw [fixedText_succ]
    obtain ⟨h1, h3⟩ := ih (n / 10)
    constructor
    · intro c hc
      rcases List.mem_append.1 hc with h | h
      · exact h1 c h
      · simp at h; omega
    · rw [Parse.numVal_append, h3, numVal_single, pow_succ, mul_comm (10 ^ k) 10, Nat.mod_mul]
      simp; omega

theorem decimalText_numeral (neg : Bool) (N s : ℕ) :
    Numeral (decimalText neg N s) neg (natText (N / 10 ^ s)) (fixedText s N) 0 := by
  refine ⟨if neg then [45] else [], if s = 0 then [] else [46], [], ?_, (natText_dec _).1, (fixedText_dec _ _).1, ?_, ?_, .inl ⟨rfl, rfl⟩, ?_⟩
  · cases neg
    · exact SignOf.none
    · exact SignOf.minus
  · simp [(natText_dec (N / 10 ^ s)).2.1]
  · by_cases h : s = 0
    · right; subst h; exact ⟨rfl, rfl⟩
    · left; rw [if_neg h]
  · unfold decimalText
    by_cases h : s = 0
    · subst h; simp [fixedText]
    · simp [h]

theorem decimalText_value (neg : Bool) (N s : ℕ) :
    numeralValue neg (natText (N / 10 ^ s)) (fixedText s N) 0 = (if neg then -1 else 1) * ((N : ℚ) / 10 ^ s) := by
  unfold numeralValue
  rw [Parse.numVal_append, (natText_dec _).2.2, (fixedText_dec _ _).2, fixedText_length, Nat.div_add_mod', zero_sub, zpow_neg, zpow_natCast]
  cases neg <;> simp [div_eq_mul_inv]

theorem natText_len_limit {n : ℕ} (h : (n : ℚ) < limit) : (natText n).length ≤ 131072 := by
  have key : ∀ k : ℕ, 0 < k → (n : ℚ) < 10 ^ k → (natText n).length ≤ k := by
    intro k hk hlt
    exact natText_length_le hk (by exact_mod_cast hlt)
  exact key 131072 (by norm_num) h

/-- Reading back the exact decimal expansion of a storable number. -/
theorem fromStr_decimalText [Build] {x : ℚ} {s N : ℕ} (hN : |x| * 10 ^ s = N) (hs : s ≤ 16383) (hl : |x| < limit) :
    ∃ r, Parse.fromStr (decimalText (decide (x < 0)) N s) = .ok (.ok r) ∧ Holds r x s := by
  have hn := decimalText_numeral (decide (x < 0)) N s
  have hlt : ((N / 10 ^ s : ℕ) : ℚ) < limit := by
    refine lt_of_le_of_lt ?_ hl
    have : |x| = (N : ℚ) / 10 ^ s := by rw [← hN]; field_simp
    rw [this]
    rw [le_div_iff₀ (by positivity)]
    exact_mod_cast Nat.div_mul_le_self N (10 ^ s)
  have hlen := natText_len_limit hlt
  have hbody : (decimalText (decide (x < 0)) N s).length ≤ 131072 + 16385 := by
    unfold decimalText
    simp only [List.length_append]
    split <;> split <;> simp [fixedText_length] <;> omega
  obtain ⟨r, e, hr⟩ := (Parse.fromStr_numeral (w₁ := []) (w₂ := []) (by simp [White]) (by simp [White]) hn (by omega)).1
    ⟨by simp, by rw [fixedText_length]; omega, by omega⟩
  rw [List.nil_append, List.append_nil] at e
  refine ⟨r, e, ?_⟩
  rw [decimalText_value, fixedText_length] at hr
  have e1 : (if (decide (x < 0)) = true then -1 else 1) * ((N : ℚ) / 10 ^ s) = x := by
    rw [← hN]
    by_cases h : x < 0
    · simp only [h, decide_true, if_true, abs_of_neg h]; field_simp
    · simp only [h, decide_false, Bool.false_eq_true, if_false, abs_of_nonneg (not_lt.1 h)]; field_simp
  rw [e1] at hr
  have e2 : max (0:ℤ) ((s : ℤ) - 0) = s := by omega
  rw [e2] at hr
  exact hr

/-! ## normalize -/

theorem fixedText_zeros (s N : ℕ) : ∃ k ≤ s, N % 10 ^ k = 0 ∧ (k = s ∨ N / 10 ^ k % 10 ≠ 0) ∧
    fixedText s N = fixedText (s - k) (N / 10 ^ k) ++ List.replicate k 48 := by
  induction s generalizing N with
  | zero => exact ⟨0, le_refl _, by simp [Nat.mod_one], .inl rfl, by simp⟩
  | succ s ih =>
    by_cases h : N % 10 = 0
    · obtain ⟨k, hk, h1, h2, h3⟩ := ih (N / 10)
      refine ⟨k + 1, by omega, ?_, ?_, ?_⟩
      · rw [pow_succ, mul_comm, Nat.mod_mul, h1, h]
      · rw [pow_succ, mul_comm, ← Nat.div_div_eq_div_mul]
        rcases h2 with h2 | h2
        · left; omega
        · right; exact h2
      · rw [fixedText_succ, h3, pow_succ, mul_comm, ← Nat.div_div_eq_div_mul, List.replicate_succ', h]
        rw [show s + 1 - (k + 1) = s - k by omega, List.append_assoc]
    · exact ⟨0, by omega, by simp [Nat.mod_one], .inr (by simpa using h), by simp⟩

theorem no_point {s : Str} (h : DecDigits s) : 46 ∉ s := by
  intro hc; have := h 46 hc; omega

/-- What `normalize` does to a text with `s` fraction digits: it removes the trailing zeros, and a trailing point. -/
theorem normalize_text [Build] {v : Var} (hn : v.sign ≠ .nan) {pre : Str} (hp : 46 ∉ pre) {s N : ℕ}
    (hw : write v = .ok (pre ++ (if s = 0 then [] else 46 :: fixedText s N))) :
    ∃ k ≤ s, N % 10 ^ k = 0 ∧ (k = s ∨ N / 10 ^ k % 10 ≠ 0) ∧
      normalize v = .ok (pre ++ (if s - k = 0 then [] else 46 :: fixedText (s - k) (N / 10 ^ k))) := by
  unfold normalize
  rw [if_neg hn, hw]
  simp only [bind, Except.bind]
  rcases Nat.eq_zero_or_pos s with rfl | hpos
  · refine ⟨0, le_refl _, by simp [Nat.mod_one], .inl rfl, ?_⟩
    rw [if_neg (by simpa using hp)]; simp [pure, Except.pure]
  · obtain ⟨k, hk, h1, h2, h3⟩ := fixedText_zeros s N
    refine ⟨k, hk, h1, h2, ?_⟩
    rw [if_neg (c := s = 0) (by omega)]
    generalize ht : pre ++ 46 :: fixedText s N = text
    have htext : text = pre ++ 46 :: fixedText (s - k) (N / 10 ^ k) ++ List.replicate k 48 := by
      rw [← ht, h3]; simp
    have hmem : 46 ∈ text := by rw [htext]; simp
    have htw : (text.reverse.takeWhile (· == 48)).length = k := by
      rw [htext, List.reverse_append, List.reverse_replicate]
      have : ∀ (k : ℕ) (l : Str), (∀ c ∈ l.head?, c ≠ 48) → ((List.replicate k 48 ++ l).takeWhile (· == 48)).length = k := by
        intro k l hl
        induction k with
        | zero =>
          cases l with
          | nil => rfl
          | cons c l => simp [hl c rfl]
        | succ k ih =>
          rw [List.replicate_succ, List.cons_append, List.takeWhile_cons, if_pos (by rfl), List.length_cons, ih]
      apply this
      rcases h2 with h2 | h2
      · subst h2
        simp [fixedText]
      · rcases Nat.eq_zero_or_pos (s - k) with h0 | h0
        · rw [h0]; simp [fixedText]
        · obtain ⟨j, hj⟩ : ∃ j, s - k = j + 1 := ⟨s - k - 1, by omega⟩
          rw [hj, fixedText_succ]
          simp; omega
    have hlen : text.length - k = pre.length + 1 + (s - k) := by
      rw [htext]; simp [fixedText_length]; omega
    have hpre' : text.take (pre.length + 1 + (s - k)) = pre ++ 46 :: fixedText (s - k) (N / 10 ^ k) := by
      rw [htext, List.take_append_of_le_length (by simp [fixedText_length]; omega), List.take_of_length_le (by simp [fixedText_length]; omega)]
    rw [if_pos hmem, htw, hlen]
    have hget : text[pre.length + 1 + (s - k) - 1]? = (pre ++ 46 :: fixedText (s - k) (N / 10 ^ k)).getLast? := by
      rw [← hpre', List.getLast?_eq_getElem?, List.length_take, List.getElem?_take]
      have : min (pre.length + 1 + (s - k)) text.length = pre.length + 1 + (s - k) := by omega
      rw [this, if_pos (by omega)]
    rw [hget]
    rcases Nat.eq_zero_or_pos (s - k) with h0 | h0
    · rw [h0] at hpre' ⊢
      simp only [fixedText, List.range_zero, List.map_nil, List.getLast?_append, List.getLast?_singleton, Option.some_or]
      simp only [pure, Except.pure, if_true]
      congr 1
      rw [htext, List.append_assoc, List.take_append_of_le_length (by simp)]
      simp
    · obtain ⟨j, hj⟩ : ∃ j, s - k = j + 1 := ⟨s - k - 1, by omega⟩
      have : (pre ++ 46 :: fixedText (s - k) (N / 10 ^ k)).getLast? = some (48 + N / 10 ^ k % 10) := by
        rw [hj, fixedText_succ, ← List.cons_append, ← List.append_assoc, List.getLast?_concat]
      rw [this]
      simp only [pure, Except.pure]
      rw [if_neg (by omega), hpre', if_neg (by omega)]

/-- The text after the zeros are removed, as an exact expansion with fewer digits. -/
theorem normalize_parts {x : ℚ} {s N k : ℕ} (hN : |x| * 10 ^ s = N) (hk : k ≤ s) (h1 : N % 10 ^ k = 0) (h2 : k = s ∨ N / 10 ^ k % 10 ≠ 0) :
    |x| * 10 ^ (s - k) = ((N / 10 ^ k : ℕ) : ℚ) ∧ (s - k = 0 ∨ ¬ 10 ∣ N / 10 ^ k) ∧ N / 10 ^ s = N / 10 ^ k / 10 ^ (s - k) := by
  have hdvd : N = N / 10 ^ k * 10 ^ k := by rw [← Nat.div_add_mod' N (10 ^ k), h1]; simp
  refine ⟨?_, ?_, ?_⟩
  · have e : (10:ℚ) ^ s = 10 ^ (s - k) * 10 ^ k := by rw [← pow_add]; congr 1; omega
    have e2 : (N : ℚ) = ((N / 10 ^ k : ℕ) : ℚ) * 10 ^ k := by exact_mod_cast hdvd
    rw [e, e2, ← mul_assoc] at hN
    exact mul_right_cancel₀ (by positivity) hN
  · rcases h2 with h2 | h2
    · left; omega
    · right; rwa [Nat.dvd_iff_mod_eq_zero]
  · rw [Nat.div_div_eq_div_mul, ← pow_add, show k + (s - k) = s by omega]

theorem normalize_spec [Build] {v : Var} (hv : Canonical v) {x : ℚ} (hx : value v = x) {s : ℕ} (hs : v.dscale = s) {N : ℕ}
    (hN : |x| * 10 ^ s = N) : ∃ s' N' : ℕ, s' ≤ s ∧ |x| * 10 ^ s' = N' ∧ (s' = 0 ∨ ¬ 10 ∣ N') ∧
      normalize v = .ok (decimalText (decide (x < 0)) N' s') := by
  have hw := write_spec hv hx hs hN
  generalize hb : decide (x < 0) = neg at hw ⊢
  have hp : 46 ∉ (if neg then [45] else []) ++ natText (N / 10 ^ s) := by
    intro hc
    rcases List.mem_append.1 hc with h | h
    · cases neg <;> simp at h
    · exact no_point (natText_dec _).1 h
  obtain ⟨k, hk, h1, h2, h3⟩ := normalize_text hv.not_nan hp hw
  obtain ⟨e1, e2, e3⟩ := normalize_parts hN hk h1 h2
  refine ⟨s - k, N / 10 ^ k, by omega, e1, e2, ?_⟩
  rw [h3, e3]
  rfl

end Text
end PgNumeric
