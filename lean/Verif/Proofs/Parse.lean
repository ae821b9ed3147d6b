import Verif.Proofs.ParseScan
/-!
# The value computed by the parser
-/
namespace PgNumeric
open Spec Var

namespace Parse

/-- Decimal digit values. -/
def Nines (l : List Nat) : Prop := ∀ d ∈ l, d ≤ 9
/-- The number written by a list of decimal digit values. -/
def nval (l : List Nat) : ℕ := numVal (l.map (· + 48))

theorem nval_append (a b : List Nat) : nval (a ++ b) = nval a * 10 ^ b.length + nval b := by
  unfold nval; rw [List.map_append, numVal_append, List.length_map]

theorem nval_nil : nval [] = 0 := rfl
theorem nval_single (d : Nat) : nval [d] = d := by simp [nval, numVal]

theorem Nines.dec {l : List Nat} (h : Nines l) : DecDigits (l.map (· + 48)) := by
  intro c hc
  rw [List.mem_map] at hc
  obtain ⟨d, hd, rfl⟩ := hc
  have := h d hd; omega

theorem nval_lt {l : List Nat} (h : Nines l) : nval l < 10 ^ l.length := by
  have := numVal_lt h.dec
  rwa [List.length_map] at this

theorem nval_replicate (k : Nat) : nval (List.replicate k 0) = 0 := by
  induction k with
  | zero => rfl
  | succ k ih => rw [List.replicate_succ', nval_append, ih, nval_single]; simp

theorem nines_sub {s : Str} (h : DecDigits s) : Nines (s.map (· - 48)) := by
  intro d hd
  rw [List.mem_map] at hd
  obtain ⟨c, hc, rfl⟩ := hd
  have := h c hc; omega

theorem nval_sub {s : Str} (h : DecDigits s) : nval (s.map (· - 48)) = numVal s := by
  unfold nval
  rw [List.map_map]
  congr 1
  conv_rhs => rw [← List.map_id s]
  apply List.map_congr_left
  intro c hc
  have := h c hc
  simp; omega

theorem readLoop_spec [Build] (l : List Nat) (d : ℕ) (h : Nines l) (hb : d * 10 ^ l.length + nval l ≤ 9999) :
    readLoop l d = .ok ((d * 10 ^ l.length + nval l : ℕ) : Int) := by
  induction l generalizing d with
  | nil => simp [readLoop, nval_nil]
  | cons i l ih =>
    have hi := h i (by simp)
    have e : d * 10 ^ (i :: l).length + nval (i :: l) = (d * 10 + i) * 10 ^ l.length + nval l := by
      rw [show i :: l = [i] ++ l from rfl, nval_append, nval_single]
      simp only [List.singleton_append, List.length_cons, pow_succ]; ring
    rw [e] at hb ⊢
    have hle : d * 10 + i ≤ 9999 := by
      have : d * 10 + i ≤ (d * 10 + i) * 10 ^ l.length := Nat.le_mul_of_pos_right _ (by positivity)
      omega
    unfold readLoop
    rw [i16_ok (by omega) (by omega)]
    simp only [bind, Except.bind]
    rw [i16_ok (by omega) (by omega)]
    simp only []
    rw [← ih (d * 10 + i) (fun x hx => h x (by simp [hx])) hb]
    push_cast; rfl

theorem readNumericDigit_spec [Build] (l : List Nat) (h : Nines l) (hl : l.length ≤ 4) :
    readNumericDigit l = .ok (nval l : Int) ∧ nval l < 10000 := by
  have h1 := nval_lt h
  have h2 : (10:ℕ) ^ l.length ≤ 10 ^ 4 := Nat.pow_le_pow_right (by norm_num) hl
  have h3 : nval l < 10000 := by omega
  refine ⟨?_, h3⟩
  unfold readNumericDigit
  rw [dassert_ok hl]
  have := readLoop_spec l 0 h (by omega)
  simpa using this

theorem readChunks_spec [Build] : ∀ (n : Nat) (l : List Nat), Nines l → 4 * n ≤ l.length →
    ∃ ds, readChunks n l = .ok ds ∧ Digits ds ∧ ds.length = n ∧ dval ds = nval (l.take (4 * n)) := by
  intro n
  induction n with
  | zero => intro l _ _; exact ⟨[], rfl, Digits.nil, rfl, rfl⟩
  | succ n ih =>
    intro l h hl
    obtain ⟨ds, e, hd, hlen, hv⟩ := ih (l.drop 4) (fun d hd => h d (List.mem_of_mem_drop hd)) (by rw [List.length_drop]; omega)
    obtain ⟨e1, h1⟩ := readNumericDigit_spec (l.take 4) (fun d hd => h d (List.mem_of_mem_take hd)) (by rw [List.length_take]; omega)
    refine ⟨(nval (l.take 4) : Int) :: ds, ?_, ?_, ?_, ?_⟩
    · unfold readChunks
      rw [if_neg (by omega), e1]
      simp only [bind, Except.bind]
      rw [e]; rfl
    · rw [Digits.cons]; exact ⟨⟨by omega, by omega⟩, hd⟩
    · simp [hlen]
    · rw [dval_cons, hv, hlen]
      have : l.take (4 * (n + 1)) = l.take 4 ++ (l.drop 4).take (4 * n) := by
        rw [show 4 * (n + 1) = 4 + 4 * n by ring, List.take_add]
      rw [this, nval_append]
      have hlen2 : ((l.drop 4).take (4 * n)).length = 4 * n := by
        rw [List.length_take, List.length_drop]; omega
      rw [hlen2]
      push_cast
      rw [pow_mul]; norm_num

theorem asI32_ok {n : Nat} (h : n < 536870912) : asI32 n = n := by
  unfold asI32 Int.bmod
  simp only
  split <;> omega

theorem align_spec [Build] (a b : Nat) (exp : Int) (ha : a < 536870912) (hb : b < 536870912) (he : |exp| < LIM) :
    ∃ w off nd : Int, align a b exp = .ok (w, max 0 (b - exp), off, nd) ∧ w = (a + exp - 1) / 4 ∧
      off = 4 * (w + 1) - (a + exp) ∧ 0 ≤ off ∧ off < 4 ∧ nd = (a + b + off + 3) / 4 := by
  rw [abs_lt] at he
  simp only [LIM, exponentLimit] at he
  have hw : (if (a + exp - 1 : Int) ≥ 0 then ((a + exp - 1 : Int) + 1 + 4 - 1) / 4 - 1 else -((-(a + exp - 1 : Int) - 1) / 4 + 1)) = (a + exp - 1) / 4 := by
    split <;> omega
  refine ⟨(a + exp - 1) / 4, _, _, ?_, rfl, rfl, by omega, by omega, rfl⟩
  unfold align
  rw [asI32_ok ha, asI32_ok hb, i32_ok (by omega) (by omega)]
  simp only [bind, Except.bind]
  rw [i32_ok (by omega) (by omega)]
  simp only []
  rw [i32_ok (by omega) (by omega)]
  simp only []
  rw [fits_ok (by fits_tac)]
  simp only []
  rw [i32_ok (by omega) (by omega)]
  simp only [hw]
  rw [i32_ok (by omega) (by omega)]
  simp only []
  rw [fits_ok (by fits_tac)]
  simp only [pure, Except.pure]
  congr 1
  simp only [Prod.mk.injEq]
  refine ⟨trivial, ?_, by omega, by omega⟩
  split <;> omega

/-- What the parser stores for the parts of a numeral. -/
theorem digits_spec [Build] {int frac : Str} (hi : DecDigits int) (hf : DecDigits frac) (exp w off nd : Int)
    (hw : off = 4 * (w + 1) - (int.length + exp)) (h0 : 0 ≤ off) (h4 : off < 4) (hnd : nd = (int.length + frac.length + off + 3) / 4) :
    ∃ ds, readChunks nd.toNat (([0, 0, 0, 0] ++ int.map (· - 48) ++ frac.map (· - 48) ++ [0, 0, 0, 0]).drop (4 - off).toNat) = .ok ds ∧
      Digits ds ∧ ds.length = nd.toNat ∧ mag ds w = (numVal (int ++ frac) : ℚ) * 10 ^ (exp - frac.length) := by
  set n := int.length + frac.length with hn
  set body := int.map (· - 48) ++ frac.map (· - 48) with hbody
  have hblen : body.length = n := by simp [hbody, hn]
  have hbv : nval body = numVal (int ++ frac) := by
    have : body = (int ++ frac).map (· - 48) := by rw [hbody, List.map_append]
    rw [this]
    exact nval_sub (fun c hc => by rcases List.mem_append.1 hc with h | h; exacts [hi c h, hf c h])
  have hbn : Nines body := by
    intro d hd
    rcases List.mem_append.1 hd with h | h
    exacts [nines_sub hi d h, nines_sub hf d h]
  have hdrop : ([0, 0, 0, 0] ++ int.map (· - 48) ++ frac.map (· - 48) ++ [0, 0, 0, 0]).drop (4 - off).toNat
      = List.replicate off.toNat 0 ++ (body ++ List.replicate 4 0) := by
    have e : [0, 0, 0, 0] ++ int.map (· - 48) ++ frac.map (· - 48) ++ [0, 0, 0, 0] = [0, 0, 0, 0] ++ (body ++ List.replicate 4 0) := by
      simp [hbody, List.replicate]
    rw [e, List.drop_append_of_le_length (by simp; omega)]
    congr 1
    have : off = 0 ∨ off = 1 ∨ off = 2 ∨ off = 3 := by omega
    rcases this with rfl | rfl | rfl | rfl <;> rfl
  rw [hdrop]
  obtain ⟨k, hk⟩ : ∃ k : ℕ, 4 * nd.toNat = off.toNat + (n + k) ∧ k ≤ 4 := ⟨(4 * nd - off - n).toNat, by omega⟩
  obtain ⟨ds, e, hd, hlen, hv⟩ := readChunks_spec nd.toNat (List.replicate off.toNat 0 ++ (body ++ List.replicate 4 0))
    (by
      intro d hd
      rcases List.mem_append.1 hd with h | h
      · simp at h; omega
      rcases List.mem_append.1 h with h | h
      · exact hbn d h
      · simp at h; omega)
    (by simp [hblen]; omega)
  refine ⟨ds, e, hd, hlen, ?_⟩
  have htake : (List.replicate off.toNat 0 ++ (body ++ List.replicate 4 0)).take (4 * nd.toNat) =
      List.replicate off.toNat 0 ++ (body ++ List.replicate k 0) := by
    rw [hk.1, List.take_append, List.take_of_length_le (by simp), List.length_replicate, Nat.add_sub_cancel_left,
      List.take_append, List.take_of_length_le (by omega), hblen, Nat.add_sub_cancel_left, List.take_replicate, min_eq_left hk.2]
  rw [htake, nval_append, nval_replicate, nval_append, nval_replicate, hbv, List.length_replicate] at hv
  rw [mag_eq_dval, hv, hlen, B_eq_T]
  have hnd0 : (nd.toNat : Int) = nd := by omega
  rw [hnd0]
  push_cast
  rw [zero_mul, zero_add, add_zero, mul_assoc, ← zpow_natCast, ← zpow_add₀ (by norm_num)]
  congr 2
  omega

/-- The parser's result on a numeral, with its position information. -/
theorem parseStr_ok [Build] {s rest int frac : Str} {neg : Bool} {exp : ℤ}
    (hi : DecDigits int) (hf : DecDigits frac) (hlen : (int ++ frac).length < 536870912) (he : |exp| < LIM)
    (h : parseDecimal s = .ok (⟨neg, int, frac, exp⟩, rest)) :
    ∃ v, parseStr s = .ok (.ok (v, rest)) ∧ Digits v.digits ∧ v.sign ≠ .nan ∧ v.weight = (int.length + exp - 1) / 4 ∧
      v.dscale = max 0 (frac.length - exp) ∧ value v = numeralValue neg int frac exp ∧
      (v.digits.length : Int) ≤ 1000000000 := by
  rw [List.length_append] at hlen
  obtain ⟨w, off, nd, e, hw, hoff, h0, h4, hnd⟩ := align_spec int.length frac.length exp (by omega) (by omega) he
  obtain ⟨ds, e2, hd, hdl, hm⟩ := digits_spec hi hf exp w off nd hoff h0 h4 hnd
  refine ⟨⟨w, max 0 (frac.length - exp), if neg then .neg else .pos, ds⟩, ?_, hd, ?_, hw, rfl, ?_, by rw [show (Var.digits _) = ds from rfl, hdl]; omega⟩
  · unfold parseStr
    rw [h]
    simp only []
    rw [e]
    simp only [bind, Except.bind]
    rw [dassert_ok (by omega)]
    simp only []
    rw [e2]; rfl
  · cases neg <;> simp
  · unfold numeralValue value
    cases neg
    · simp [hm]
    · simp [hm]

theorem eatWhitespaces_append {ws s : Str} (h : White ws) (hs : ∀ c ∈ s.head?, isWs c = false) : eatWhitespaces (ws ++ s) = s := by
  unfold eatWhitespaces
  have : (ws ++ s).takeWhile isWs = ws := by
    induction ws with
    | nil =>
      cases s with
      | nil => rfl
      | cons c r => simp [hs c rfl]
    | cons d ws ih =>
      have hd : isWs d = true := (isWs_iff d).2 (h d (by simp))
      rw [List.cons_append, List.takeWhile_cons, if_pos hd, ih (fun c hc => h c (by simp [hc]))]
  rw [this]; simp

theorem eatWhitespaces_spec (s : Str) : ∃ ws, White ws ∧ s = ws ++ eatWhitespaces s ∧ ∀ c ∈ (eatWhitespaces s).head?, isWs c = false := by
  refine ⟨s.takeWhile isWs, fun c hc => (isWs_iff c).1 (List.mem_takeWhile_imp hc), ?_, ?_⟩
  · unfold eatWhitespaces
    have e := List.prefix_iff_eq_take.1 (List.takeWhile_prefix isWs (l := s))
    conv_rhs => lhs; rw [e]
    exact (List.take_append_drop _ _).symm
  · unfold eatWhitespaces
    induction s with
    | nil => intro c hc; simp at hc
    | cons d s ih =>
      by_cases hd : isWs d = true
      · rw [List.takeWhile_cons, if_pos hd]; simpa using ih
      · rw [List.takeWhile_cons, if_neg hd]
        intro c hc
        simp at hc; subst hc
        simpa using hd

theorem any_white {s : Str} : s.any (fun c => !isWs c) = false ↔ White s := by
  rw [List.any_eq_false]
  constructor
  · intro h c hc; have := h c hc; simp at this; exact (isWs_iff c).1 this
  · intro h c hc; simp [(isWs_iff c).2 (h c hc)]

theorem lower_eq {c : Nat} {k : Nat} (hk : 97 ≤ k ∧ k ≤ 122) : lower c = k ↔ c = k - 32 ∨ c = k := by
  unfold lower; split <;> omega

theorem extractNan_spec (s : Str) :
    (∃ t rest, IsNaNText t ∧ s = t ++ rest ∧ extractNan s = (true, rest)) ∨
    (extractNan s = (false, s) ∧ ∀ t rest, IsNaNText t → s ≠ t ++ rest) := by
  unfold extractNan
  match s with
  | [] => right; exact ⟨rfl, by rintro t rest ⟨a, b, c, rfl, -⟩ h; simp at h⟩
  | [x] => right; exact ⟨rfl, by rintro t rest ⟨a, b, c, rfl, -⟩ h; simp at h⟩
  | [x, y] => right; exact ⟨rfl, by rintro t rest ⟨a, b, c, rfl, -⟩ h; simp at h⟩
  | x :: y :: z :: r =>
    rw [if_neg (by simp)]
    by_cases h : ((x :: y :: z :: r).take 3).map lower = [110, 97, 110]
    · left
      rw [if_pos h]
      simp only [List.take_succ_cons, List.take_zero, List.map_cons, List.map_nil, List.cons.injEq, and_true] at h
      rw [lower_eq (by omega), lower_eq (by omega), lower_eq (by omega)] at h
      exact ⟨[x, y, z], r, ⟨x, y, z, rfl, by omega, by omega, by omega⟩, rfl, rfl⟩
    · right
      rw [if_neg h]
      refine ⟨rfl, ?_⟩
      rintro t rest ⟨a, b, c, rfl, h1, h2, h3⟩ e
      simp only [List.cons_append, List.nil_append, List.cons.injEq] at e
      obtain ⟨rfl, rfl, rfl, -⟩ := e
      apply h
      simp only [List.take_succ_cons, List.take_zero, List.map_cons, List.map_nil, List.cons.injEq, and_true]
      rw [lower_eq (by omega), lower_eq (by omega), lower_eq (by omega)]
      omega

theorem numeralValue_hasScale (neg : Bool) (int frac : Str) (exp : ℤ) :
    HasScale (numeralValue neg int frac exp) (max 0 (frac.length - exp)) := by
  refine HasScale.mono ⟨(if neg then -1 else 1) * (numVal (int ++ frac) : ℤ), ?_⟩ (le_max_right _ _)
  unfold numeralValue
  rw [mul_assoc, ← zpow_add₀ (by norm_num)]
  have : exp - (frac.length : ℤ) + (frac.length - exp) = 0 := by ring
  rw [this]
  cases neg <;> simp

/-- The range of literals the parser stores. -/
def InRange (int frac : Str) (exp : ℤ) : Prop := |exp| < LIM ∧ frac.length - exp ≤ 16383 ∧ int.length + exp ≤ 131072

theorem finish_numeral [Build] {v : Var} {neg : Bool} {int frac : Str} {exp : ℤ} (hd : Digits v.digits) (hn : v.sign ≠ .nan)
    (hw : v.weight = (int.length + exp - 1) / 4) (hs : v.dscale = max 0 (frac.length - exp))
    (hv : value v = numeralValue neg int frac exp) (hl : (v.digits.length : Int) ≤ 1000000000) :
    (((frac.length : ℤ) - exp ≤ 16383 ∧ (int.length : ℤ) + exp ≤ 131072) →
      ∃ r, Num.finish v = .ok (some r) ∧ Holds r (numeralValue neg int frac exp) (max 0 (frac.length - exp))) ∧
    (¬ ((frac.length : ℤ) - exp ≤ 16383 ∧ (int.length : ℤ) + exp ≤ 131072) → Num.finish v = .ok none) := by
  constructor
  · rintro ⟨h1, h2⟩
    refine (Num.finish_loose hd hn hs hv (le_max_left _ _) (by omega) (numeralValue_hasScale _ _ _ _) (.inl (by omega)) (by omega) hl).1 ?_
    rw [← hv, abs_value _ hd, limit_eq]
    exact lt_of_lt_of_le (mag_lt hd _) (B_zpow_le_iff.2 (by omega))
  · intro h
    have : makeResult v = .ok none := by
      unfold makeResult
      rw [dassert_ok hn]
      simp only [bind, Except.bind]
      rw [dassert_ok (by omega)]
      simp only [NUMERIC_WEIGHT_MAX, NUMERIC_WEIGHT_MIN, NUMERIC_DSCALE_MAX]
      rw [if_pos (by omega)]; rfl
    unfold Num.finish
    rw [this]; rfl

/-- The first byte of a numeral. -/
theorem numeral_head {body int frac : Str} {neg : Bool} {exp : ℤ} (h : Numeral body neg int frac exp) :
    ∃ c r, body = c :: r ∧ (c = 43 ∨ c = 45 ∨ c = 46 ∨ (48 ≤ c ∧ c ≤ 57)) := by
  obtain ⟨sgn, point, e, hs, hi, hf, hne, hp, he, rfl⟩ := h
  cases hs with
  | plus => exact ⟨43, _, rfl, by omega⟩
  | minus => exact ⟨45, _, rfl, by omega⟩
  | none =>
    cases int with
    | cons d l => exact ⟨d, _, rfl, by have := hi d (by simp); omega⟩
    | nil =>
      rcases hp with rfl | ⟨rfl, rfl⟩
      · exact ⟨46, _, rfl, by omega⟩
      · simp at hne

theorem numeral_parts_len {body int frac : Str} {neg : Bool} {exp : ℤ} (h : Numeral body neg int frac exp) :
    (int ++ frac).length ≤ body.length := by
  obtain ⟨sgn, point, e, hs, hi, hf, hne, hp, he, rfl⟩ := h
  simp; omega

theorem fromStr_start [Build] {w body rest int frac : Str} {neg : Bool} {exp : ℤ} (hw : White w) (h : Numeral body neg int frac exp) :
    eatWhitespaces (w ++ body ++ rest) = body ++ rest ∧ body ++ rest ≠ [] ∧ extractNan (body ++ rest) = (false, body ++ rest) := by
  obtain ⟨c, r, rfl, hc⟩ := numeral_head h
  refine ⟨?_, by simp, ?_⟩
  · rw [List.append_assoc]
    apply eatWhitespaces_append hw
    intro x hx
    simp at hx; subst hx
    rw [Bool.eq_false_iff, Ne, isWs_iff]; omega
  · rcases extractNan_spec ((c :: r) ++ rest) with ⟨t, rst, ⟨a, b, d, rfl, h1, h2, h3⟩, e, -⟩ | h
    · simp at e; omega
    · exact h.1

/-- A numeral with white space around it. -/
theorem fromStr_numeral [Build] {w₁ w₂ body int frac : Str} {neg : Bool} {exp : ℤ} (h1 : White w₁) (h2 : White w₂)
    (h : Numeral body neg int frac exp) (hlen : body.length < 536870912) :
    (InRange int frac exp → ∃ r, fromStr (w₁ ++ body ++ w₂) = .ok (.ok r) ∧
      Holds r (numeralValue neg int frac exp) (max 0 (frac.length - exp))) ∧
    (¬ InRange int frac exp → fromStr (w₁ ++ body ++ w₂) = .ok (.error .overflow)) := by
  obtain ⟨e1, e2, e3⟩ := fromStr_start (rest := w₂) h1 h
  have hp := parseDecimal_ok h (White.stop h2)
  have hany := any_white.2 h2
  have hil := numeral_parts_len h
  by_cases hl : LIM ≤ |exp|
  · rw [if_pos hl] at hp
    constructor
    · intro hr; exact absurd hl (not_le.2 hr.1)
    · intro _
      unfold fromStr
      simp only [e1, e2, if_false, e3, Bool.false_eq_true]
      unfold parseStr
      rw [hp]
      rfl
  · rw [if_neg hl] at hp
    have hd : DecDigits int ∧ DecDigits frac := by
      obtain ⟨sgn, point, e, hs, hi, hf, -⟩ := h
      exact ⟨hi, hf⟩
    obtain ⟨v, ev, hd, hn, hw, hs, hv, hvl⟩ := parseStr_ok hd.1 hd.2 (by omega) (not_le.1 hl) hp
    obtain ⟨f1, f2⟩ := finish_numeral (neg := neg) (int := int) (frac := frac) (exp := exp) hd hn hw hs hv hvl
    constructor
    · intro hr
      obtain ⟨r, hr1, hr2⟩ := f1 hr.2
      refine ⟨r, ?_, hr2⟩
      unfold fromStr
      simp only [e1, e2, if_false, e3, Bool.false_eq_true, ev, bind, Except.bind, hany, hr1]
      rfl
    · intro hr
      have := f2 (fun hc => hr ⟨not_le.1 hl, hc⟩)
      unfold fromStr
      simp only [e1, e2, if_false, e3, Bool.false_eq_true, ev, bind, Except.bind, hany, this]
      rfl

theorem fromStr_huge [Build] {s : Str} (h : HugeExponent s) : fromStr s = .ok (.error .overflow) := by
  obtain ⟨w, body, rest, neg, int, frac, exp, hw, hn, hl, rfl⟩ := h
  obtain ⟨e1, e2, e3⟩ := fromStr_start (rest := rest) hw hn
  have hp := parseDecimal_huge (rest := rest) hn hl
  unfold fromStr
  simp only [e1, e2, if_false, e3, Bool.false_eq_true]
  unfold parseStr
  rw [hp]
  rfl

theorem fromStr_empty [Build] {s : Str} (h : White s) : fromStr s = .ok (.error .empty) := by
  have : eatWhitespaces s = [] := by
    have := eatWhitespaces_append (s := []) h (by simp)
    simpa using this
  unfold fromStr
  simp only [this, if_true]
  rfl

theorem nan_head {t : Str} (h : IsNaNText t) (w : Str) : ∀ c ∈ (t ++ w).head?, isWs c = false := by
  obtain ⟨a, b, c, rfl, h1, h2, h3⟩ := h
  intro x hx
  simp at hx; subst hx
  rw [Bool.eq_false_iff, Ne, isWs_iff]; omega

theorem fromStr_nan [Build] {s : Str} (h : NaNLiteral s) : fromStr s = .ok (.ok Bin.nan) := by
  obtain ⟨w₁, t, w₂, h1, h2, ht, rfl⟩ := h
  have e1 : eatWhitespaces (w₁ ++ t ++ w₂) = t ++ w₂ := by
    rw [List.append_assoc]; exact eatWhitespaces_append h1 (nan_head ht w₂)
  have e3 : extractNan (t ++ w₂) = (true, w₂) := by
    rcases extractNan_spec (t ++ w₂) with ⟨t', rst, ht', e, e'⟩ | h
    · obtain ⟨a, b, c, rfl, -⟩ := ht
      obtain ⟨a', b', c', rfl, -⟩ := ht'
      simp at e
      rw [e', e.2.2.2]
    · exact absurd rfl (h.2 t w₂ ht)
  have e2 : t ++ w₂ ≠ [] := by
    obtain ⟨a, b, c, rfl, -⟩ := ht
    simp
  have hany := any_white.2 h2
  unfold fromStr
  simp only [e1, e2, if_false, e3, if_true, hany, Bool.false_eq_true]
  rw [Num.nan_ok]; rfl

/-- Every string that is none of the above is rejected as invalid. -/
theorem fromStr_other [Build] {s : Str} (hlen : s.length < 536870912) (h1 : ¬ White s) (h2 : ¬ NaNLiteral s)
    (h3 : ∀ neg int frac exp, ¬ Literal s neg int frac exp) (h4 : ¬ HugeExponent s) : fromStr s = .ok (.error .invalid) := by
  obtain ⟨w, hw, hs, hh⟩ := eatWhitespaces_spec s
  have hne : eatWhitespaces s ≠ [] := by
    intro h
    rw [h, List.append_nil] at hs
    exact h1 (hs ▸ hw)
  unfold fromStr
  simp only [hne, if_false]
  generalize eatWhitespaces s = t at *
  rcases extractNan_spec t with ⟨x, rest, hx, ht, e⟩ | ⟨e, -⟩
  · simp only [e, if_true]
    have : rest.any (fun c => !isWs c) = true := by
      rw [← Bool.not_eq_false, any_white]
      intro hr
      exact h2 ⟨w, x, rest, hw, hr, hx, by rw [hs, ht, List.append_assoc]⟩
    simp only [this, if_true]; rfl
  · simp only [e, Bool.false_eq_true, if_false]
    rcases parseDecimal_spec t with hp | ⟨body, rest, neg, int, frac, exp, ht, hn, hp⟩
    · unfold parseStr
      rw [hp]; rfl
    · by_cases hl : LIM ≤ |exp|
      · exact absurd ⟨w, body, rest, neg, int, frac, exp, hw, hn, hl, by rw [hs, ht, List.append_assoc]⟩ h4
      · rw [if_neg hl] at hp
        have hil := numeral_parts_len hn
        have hd : DecDigits int ∧ DecDigits frac := by
          obtain ⟨sgn, point, e, hs, hi, hf, -⟩ := hn
          exact ⟨hi, hf⟩
        have hbl : body.length ≤ s.length := by rw [hs, ht]; simp; omega
        obtain ⟨v, ev, -⟩ := parseStr_ok hd.1 hd.2 (by omega) (not_le.1 hl) hp
        have : rest.any (fun c => !isWs c) = true := by
          rw [← Bool.not_eq_false, any_white]
          intro hr
          exact h3 neg int frac exp ⟨w, body, rest, hw, hr, hn, by rw [hs, ht, List.append_assoc]⟩
        simp only [ev, bind, Except.bind, this, if_true]; rfl

end Parse
end PgNumeric
