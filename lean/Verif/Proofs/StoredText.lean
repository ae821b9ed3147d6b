import Verif.Proofs.StoredArith
import Verif.Proofs.Text
import Verif.Proofs.Convert
/-!
# Text of variables read from any stored form
-/
namespace PgNumeric
open Spec Var

theorem Loose.readable {v : Var} (h : Loose v) : Convert.Readable v := ⟨h.digits, h.not_nan, h.small⟩

namespace Text

theorem digitAt_take {ds : List Int} {e : Nat} (h : ZeroFrom ds e) (i : Int) : digitAt (ds.take e) i = digitAt ds i := by
  unfold digitAt
  by_cases hi : 0 ≤ i ∧ i < ds.length
  · rw [if_pos hi]
    by_cases he : i < e
    · rw [if_pos ⟨hi.1, by rw [List.length_take]; push_cast; omega⟩]
      have h1 : i.toNat < ds.length := by omega
      rw [List.getD_eq_getElem?_getD, List.getD_eq_getElem?_getD, List.getElem?_take, if_pos (by omega)]
    · rw [if_neg (by rw [List.length_take]; push_cast; omega)]
      have h1 : i.toNat < ds.length := by omega
      rw [List.getD_eq_getElem?_getD, List.getElem?_eq_getElem h1]
      symm
      refine h.mono (k := i.toNat) (by omega) _ ?_
      exact List.mem_drop_iff_getElem.2 ⟨0, by simpa using h1, by simp⟩
  · rw [if_neg hi, if_neg (by rw [List.length_take]; push_cast; omega)]

theorem intLoop_congr [Build] {ds ds' : List Int} (h : ∀ i, digitAt ds i = digitAt ds' i) (n : ℕ) (d : Int) :
    intLoop ds n d = intLoop ds' n d := by
  induction n generalizing d with
  | zero => rfl
  | succ n ih => unfold intLoop; rw [h, ih]

theorem fracLoop_congr {ds ds' : List Int} (h : ∀ i, digitAt ds i = digitAt ds' i) (dscale : Int) (n : ℕ) (d scale : Int) :
    fracLoop ds dscale n d scale = fracLoop ds' dscale n d scale := by
  induction n generalizing d scale with
  | zero => rfl
  | succ n ih => unfold fracLoop; rw [h, ih]

theorem write_take [Build] {v : Var} {e : Nat} (h : ZeroFrom v.digits e) : write { v with digits := v.digits.take e } = write v := by
  unfold write intText
  dsimp only
  rw [fracLoop_congr (digitAt_take h), intLoop_congr (digitAt_take h)]

/-- The zeros written in front of a number. -/
def extra (v : Var) (n : ℕ) : ℕ := if v.digits.headD 0 = 0 ∧ 0 < v.weight then 1 + (4 * v.weight.toNat - (natText n).length) else 0

/-- The text of a variable whose digits reach no deeper than its scale. -/
theorem write_deep [Build] {v : Var} (hd : Digits v.digits) (hn : v.sign ≠ .nan) (hsm : Small v) {x : ℚ} (hx : value v = x) {s : ℕ}
    (hs : v.dscale = s) {N : ℕ} (hN : |x| * 10 ^ s = N) (hsb : s ≤ 1000000000)
    (hlen : (v.digits.length : Int) ≤ v.weight + 1 + ((s + 3) / 4 : ℕ) ∨ v.digits = [])
    (hsign : (v.sign = .neg) ↔ x < 0) :
    write v = .ok ((if x < 0 then [45] else []) ++ (List.replicate (extra v (N / 10 ^ s)) 48 ++ natText (N / 10 ^ s)) ++
      (if s = 0 then [] else 46 :: fixedText s N)) := by
  obtain ⟨hI, hF⟩ := window_split_of hd hx hN hlen
  unfold write
  rw [if_neg hn]
  have hlo := hsm.lo
  have hhi := hsm.hi
  rw [fits_ok (by fits_tac)]
  have hint : intText v = .ok (List.replicate (extra v (N / 10 ^ s)) 48 ++ natText (N / 10 ^ s)) := by
    unfold intText extra
    by_cases hw : v.weight < 0
    · rw [if_pos hw, if_neg (by omega), hI]
      have : (v.weight + 1).toNat = 0 := by omega
      rw [this]; rfl
    · rw [if_neg hw, hI]
      obtain ⟨n, hn⟩ := Int.eq_ofNat_of_zero_le (a := v.weight) (by omega)
      rw [hn]
      have : ((n : Int) + 1).toNat = n + 1 := by omega
      rw [this]
      have hr := digitAt_range hd 0
      unfold intLoop
      simp only
      rw [dassert_ok hr.1]
      simp only [bind, Except.bind]
      rw [intLoop_tail hd _ _ (by norm_num)]
      simp only [pure, Except.pure]
      rw [if_neg (by norm_num), dec_eq]
      congr 1
      have e1 : (0:Int) + 1 + (n : Int) = 0 + n + 1 := by ring
      have e2 : (n:Int) + 1 = 0 + n + 1 := by ring
      rw [e1, e2, win_top hd]
      by_cases hz : v.digits.headD 0 = 0 ∧ 0 < (n : Int)
      · rw [if_pos hz]
        have hd0 : digitAt v.digits 0 = 0 := by
          cases hdd : v.digits with
          | nil => simp [digitAt]
          | cons d l =>
            have := hz.1
            rw [hdd] at this
            rw [digitAt_cons, if_pos rfl]
            simpa using this
        rw [hd0]
        have hlt := win_toNat_lt hd (0 + n + 1) n
        simp only [Int.toNat_zero, zero_mul, zero_add, Int.toNat_natCast] at hlt ⊢
        rw [← pad_eq _ _ (by omega) hlt, pad, dec_eq]
        rw [Nat.add_comm 1, List.replicate_succ]
        rfl
      · rw [if_neg hz]
        rw [natText_append _ _ _ (win_toNat_lt hd _ _)]
        · rfl
        by_cases hn0 : n = 0
        · right; omega
        · left
          cases hdd : v.digits with
          | nil => rw [hdd] at hz; exact absurd ⟨rfl, by omega⟩ hz
          | cons d l =>
            rw [hdd] at hz hr
            rw [digitAt_cons, if_pos rfl] at hr ⊢
            simp only [List.headD_cons, not_and] at hz
            by_contra hc
            have : d = 0 := by omega
            exact absurd (by omega) (hz this)
  simp only [bind, Except.bind]
  rw [hint]
  simp only [pure, Except.pure]
  congr 1
  congr 1
  · congr 1
    by_cases h : x < 0
    · rw [if_pos (hsign.2 h), if_pos h]; rfl
    · rw [if_neg (fun c => h (hsign.1 c)), if_neg h]
  · by_cases h0 : s = 0
    · rw [if_neg (by omega), if_pos h0]
    · rw [if_pos (by omega), if_neg h0]
      have hn : ((v.dscale + 3) / 4).toNat = (s + 3) / 4 := by omega
      rw [hn, fracLoop_eq hd _ _ _ _ s (by omega) rfl, ← hF, fixedText_mod]
      rfl

theorem loose_sign {v : Var} (h : Loose v) : (v.sign = .neg) ↔ value v < 0 := by
  have hm := mag_nonneg h.digits v.weight
  constructor
  · intro hneg
    have := h.signOK hneg
    unfold value; rw [hneg]; simp only; linarith
  · intro hlt
    have hn := h.not_nan
    unfold value at hlt
    match hsg : v.sign with
    | .neg => rfl
    | .pos => rw [hsg] at hlt; simp only at hlt; linarith
    | .nan => exact absurd hsg hn

/-- The text of a stored number: the exact expansion, with zeros in front if its first group is zero. -/
theorem write_loose [Build] {v : Var} (h : Loose v) {s : ℕ} (hs : v.dscale = s) {N : ℕ} (hN : |value v| * 10 ^ s = N) :
    write v = .ok ((if value v < 0 then [45] else []) ++ (List.replicate (extra v (N / 10 ^ s)) 48 ++ natText (N / 10 ^ s)) ++
      (if s = 0 then [] else 46 :: fixedText s N)) := by
  have hsb := h.dscale_le
  by_cases hne : v.digits = []
  · exact write_deep h.digits h.not_nan h.small rfl hs hN (by omega) (.inr hne) (loose_sign h)
  · obtain ⟨e, z, e1, e2, e3⟩ := h.depth hne
    have hval : value { v with digits := v.digits.take e } = value v := by
      unfold value; dsimp only; rw [z.mag_take _ _ (.inl le_rfl)]
    have hlt : (v.digits.take e).length = e := by rw [List.length_take]; omega
    have hsm := h.small
    have := write_deep (v := { v with digits := v.digits.take e }) (fun d hd => h.digits d (List.mem_of_mem_take hd)) h.not_nan
      ⟨hsm.lo, hsm.hi, by have := hsm.len; dsimp only; omega⟩ hval hs hN (by omega) (.inl (by dsimp only; rw [hlt]; push_cast; omega)) (loose_sign h)
    rw [write_take z] at this
    rw [this]
    have hx : extra { v with digits := v.digits.take e } (N / 10 ^ s) = extra v (N / 10 ^ s) := by
      unfold extra
      dsimp only
      have : (v.digits.take e).headD 0 = v.digits.headD 0 := by
        rw [List.headD_eq_head?_getD, List.head?_take, if_neg (by omega), List.headD_eq_head?_getD]
      rw [this]
    rw [hx]

/-- The digits before the point, with the zeros in front, are at most 131072. -/
theorem extra_len {v : Var} (h : Loose v) {s : ℕ} {N : ℕ} (hN : |value v| * 10 ^ s = N) :
    extra v (N / 10 ^ s) + (natText (N / 10 ^ s)).length ≤ 131072 := by
  have hq : ((N / 10 ^ s : ℕ) : ℚ) ≤ |value v| := by
    have : |value v| = (N : ℚ) / 10 ^ s := by rw [← hN]; field_simp
    rw [this, le_div_iff₀ (by positivity)]
    exact_mod_cast Nat.div_mul_le_self N (10 ^ s)
  have hhi := h.hi
  unfold extra
  split
  · rename_i hz
    have hlt : |value v| < 10000 ^ v.weight := by
      rw [abs_value v h.digits]
      cases hd : v.digits with
      | nil => simp only [mag]; exact B_zpow_pos _
      | cons d l =>
        have h0 := hz.1
        rw [hd, List.headD_cons] at h0
        have := mag_lt (Digits.cons.1 (hd ▸ h.digits)).2 (v.weight - 1)
        rw [sub_add_cancel] at this
        rw [mag, h0]; simpa using this
    obtain ⟨w, hw⟩ := Int.eq_ofNat_of_zero_le hz.2.le
    have hlt' : N / 10 ^ s < 10 ^ (4 * w) := by
      have e : (10000:ℚ) ^ v.weight = 10 ^ (4 * w) := by rw [hw, zpow_natCast, pow_mul]; norm_num
      rw [e] at hlt
      exact_mod_cast lt_of_le_of_lt hq hlt
    have := natText_length_le (k := 4 * w) (by omega) hlt'
    have e2 : v.weight.toNat = w := by omega
    rw [e2]
    omega
  · rw [zero_add]
    exact natText_len_limit (lt_of_le_of_lt hq h.abs_lt)

end Text
end PgNumeric
