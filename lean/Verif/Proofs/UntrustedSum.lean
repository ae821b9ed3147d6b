import Verif.Proofs.UntrustedAdd
/-! Addition and subtraction of numbers whose digits are not in 0..9999: signs and the way back to bytes. -/
namespace PgNumeric
open Spec Untrusted

/-- A result on its way to bytes, with its sign and its value. -/
def Near (r : Var) (lo hi scale : Int) : Prop := ∃ u sg, r = { u with sign := sg } ∧ sg ≠ .nan ∧ Part16 u lo hi scale

theorem near_of {u : Var} {lo hi scale : Int} (h : Part16 u lo hi scale) {sg : Sign} (hs : sg ≠ .nan) : Near { u with sign := sg } lo hi scale :=
  ⟨u, sg, rfl, hs, h⟩

theorem near_zero (lo hi scale : Int) : Near ⟨0, scale, .pos, []⟩ lo hi scale :=
  ⟨⟨0, scale, .pos, []⟩, .pos, rfl, by simp, fun _ h => absurd h List.not_mem_nil, by simp [Stripped], rfl, rfl, fun h => absurd rfl h, fun h => absurd rfl h, by simp⟩

/-- The sign in front of a magnitude. -/
def signed (s : Sign) (q : ℚ) : ℚ := match s with
  | .neg => -q
  | _ => q

theorem value_signed (v : Var) : value v = signed v.sign (mag v.digits v.weight) := by
  unfold value signed; cases v.sign <;> rfl

theorem finish16 [Build] {r : Var} {lo hi scale : Int} (h : Near r lo hi scale) (h0 : 0 ≤ scale) (h1 : scale ≤ 16383) (hl : hi - lo ≤ 500000000) (hlo : -1000000000 ≤ lo) :
    ∃ o, Num.finish r = .ok o ∧ (o = none → ¬ (-32767 ≤ lo ∧ hi ≤ 32767)) ∧
      ∀ b, o = some b → ∃ v, b = Bin.encode v ∧ Storable16 v ∧ v.dscale = scale ∧ value v = value r := by
  obtain ⟨u, sg, rfl, hs, p⟩ := h
  have hlen := p.length
  have hds := p.dscale
  unfold Num.finish Var.makeResult
  rw [dassert_ok (by simpa using hs), bind_ok, dassert_ok (by simp only; omega), bind_ok]
  by_cases hout : u.weight > NUMERIC_WEIGHT_MAX ∨ u.weight < NUMERIC_WEIGHT_MIN ∨ u.dscale > NUMERIC_DSCALE_MAX
  · rw [if_pos hout]
    refine ⟨none, rfl, fun _ hh => ?_, fun b hb => by simp at hb⟩
    by_cases he : u.digits = []
    · have := (p.stripped.2.2 he).1
      simp only [NUMERIC_WEIGHT_MAX, NUMERIC_WEIGHT_MIN, NUMERIC_DSCALE_MAX] at hout
      omega
    · have := p.weight_ge he
      have := p.weight_le he
      simp only [NUMERIC_WEIGHT_MAX, NUMERIC_WEIGHT_MIN, NUMERIC_DSCALE_MAX] at hout
      omega
  · rw [if_neg hout]
    simp only [NUMERIC_WEIGHT_MAX, NUMERIC_WEIGHT_MIN, NUMERIC_DSCALE_MAX] at hout
    rw [stripM_ok (by simp only; omega) (by simp only; omega), bind_ok]
    have hsn := strip_sign (v := { u with sign := sg }) hs
    refine ⟨some (Bin.encode (Var.strip { u with sign := sg })), ?_, by simp, ?_⟩
    · rw [pure_ok, bind_ok]
      simp only
      unfold Bin.intoBuf
      rw [if_neg (fun hh => hsn hh.1)]
      rfl
    · intro b hb
      refine ⟨_, (Option.some.inj hb).symm, ?_, by simp [hds], strip_value _⟩
      by_cases he : u.digits = []
      · have e : Var.strip { u with sign := sg } = ⟨0, u.dscale, .pos, []⟩ := by
          unfold Var.strip; simp only [he]; rfl
        rw [e]
        exact ⟨by simp, by simp, by simp, by simp, by simp only; omega, by simp only; omega, by simp, by simp⟩
      · have e : Var.strip { u with sign := sg } = { u with sign := sg } :=
          strip_of_stripped ⟨p.stripped.1, p.stripped.2.1, fun hh => absurd hh he⟩
        rw [e]
        exact ⟨hs, p.digits, by simp only; omega, by simp only; omega, by simp only; omega, by simp only; omega, by simp only; omega, fun _ => by simp only; omega⟩

/-- The bounds of a result. -/
abbrev lo16 (a b : Var) : Int := min (a.weight - a.digits.length) (b.weight - b.digits.length)
abbrev hi16 (a b : Var) : Int := max a.weight b.weight + 1

theorem difference14 [Build] {a b : Var} (sma : Small a) (smb : Small b) (ha : Digits14 a.digits) (hb : Digits14 b.digits)
    (na : a.sign ≠ .nan) (nb : b.sign ≠ .nan) (s0 : 0 ≤ max a.dscale b.dscale) (s1 : max a.dscale b.dscale ≤ 16383) {first second : Sign}
    (hf : first ≠ .nan) (hs : second ≠ .nan) :
    ∃ r, difference a b first second = .ok r ∧ Near r (lo16 a b) (hi16 a b) (max a.dscale b.dscale) ∧
      ((second = .neg ↔ first ≠ .neg) → value r = signed first (mag a.digits a.weight - mag b.digits b.weight)) := by
  unfold difference
  rw [cmpAbs_ok ha.wide hb.wide, bind_ok, abs32 a b ha.wide hb.wide]
  unfold cmpSign
  rcases lt_trichotomy (mag32768 a.digits a.weight) (mag32768 b.digits b.weight) with h | h | h
  · rw [if_pos h]
    obtain ⟨u, e, p, v⟩ := subAbs14 b a smb sma hb ha nb na h
    refine ⟨{ u with sign := second }, ?_, ?_, ?_⟩
    · rw [if_neg (by decide), if_neg (by decide), if_pos rfl, e]; rfl
    · rw [show lo16 a b = lo16 b a by rw [lo16, lo16, min_comm], show hi16 a b = hi16 b a by rw [hi16, hi16, max_comm], max_comm a.dscale]
      exact near_of p hs
    · intro hx
      rw [value_signed, v]
      unfold signed
      revert hx hf hs
      cases first <;> cases second <;> simp
  · rw [if_neg (not_lt.2 h.ge), if_pos h, if_pos rfl]
    unfold Var.zeroScaled
    rw [dassert_ok (by simp only [NUMERIC_DSCALE_MAX]; omega)]
    refine ⟨_, rfl, near_zero _ _ _, fun _ => ?_⟩
    rw [mag_of_mag32 ha hb _ _ h, sub_self, value_signed]
    unfold signed
    cases first <;> simp
  · rw [if_neg (not_lt.2 h.le), if_neg h.ne']
    obtain ⟨u, e, p, v⟩ := subAbs14 a b sma smb ha hb na nb h
    refine ⟨{ u with sign := first }, ?_, near_of p hf, fun _ => ?_⟩
    · rw [if_neg (by decide), if_pos rfl, e]; rfl
    · rw [value_signed, v]

theorem addCommon14 [Build] {a b : Var} (sma : Small a) (smb : Small b) (ha : Digits14 a.digits) (hb : Digits14 b.digits)
    (na : a.sign ≠ .nan) (nb : b.sign ≠ .nan) (s0 : 0 ≤ max a.dscale b.dscale) (s1 : max a.dscale b.dscale ≤ 16383) :
    ∃ r, Untrusted.addCommon a b = .ok r ∧ Near r (lo16 a b) (hi16 a b) (max a.dscale b.dscale) ∧ value r = value a + value b := by
  obtain ⟨u, eu, pu, vu⟩ := addAbs14 a b sma smb ha hb na nb
  obtain ⟨r1, e1, q1, v1⟩ := difference14 sma smb ha hb na nb s0 s1 (first := .pos) (second := .neg) (by simp) (by simp)
  obtain ⟨r2, e2, q2, v2⟩ := difference14 sma smb ha hb na nb s0 s1 (first := .neg) (second := .pos) (by simp) (by simp)
  unfold Untrusted.addCommon
  rw [dassert_ok na, bind_ok, dassert_ok nb, bind_ok, eu, e1, e2, value_signed a, value_signed b]
  cases ha' : a.sign with
  | nan => exact absurd ha' na
  | pos =>
    cases hb' : b.sign with
    | nan => exact absurd hb' nb
    | pos =>
      refine ⟨{ u with sign := .pos }, rfl, near_of pu (by simp), ?_⟩
      rw [value_signed, vu]; rfl
    | neg =>
      refine ⟨r1, rfl, q1, ?_⟩
      rw [v1 (by simp)]; simp only [signed]; ring
  | neg =>
    cases hb' : b.sign with
    | nan => exact absurd hb' nb
    | pos =>
      refine ⟨r2, rfl, q2, ?_⟩
      rw [v2 (by simp)]; simp only [signed]; ring
    | neg =>
      refine ⟨{ u with sign := .neg }, rfl, near_of pu (by simp), ?_⟩
      rw [value_signed, vu]; simp only [signed]; ring

theorem subCommon14 [Build] {a b : Var} (sma : Small a) (smb : Small b) (ha : Digits14 a.digits) (hb : Digits14 b.digits)
    (na : a.sign ≠ .nan) (nb : b.sign ≠ .nan) (s0 : 0 ≤ max a.dscale b.dscale) (s1 : max a.dscale b.dscale ≤ 16383) :
    ∃ r, Untrusted.subCommon a b = .ok r ∧ Near r (lo16 a b) (hi16 a b) (max a.dscale b.dscale) ∧ value r = value a - value b := by
  obtain ⟨u, eu, pu, vu⟩ := addAbs14 a b sma smb ha hb na nb
  obtain ⟨r1, e1, q1, v1⟩ := difference14 sma smb ha hb na nb s0 s1 (first := .pos) (second := .neg) (by simp) (by simp)
  obtain ⟨r2, e2, q2, v2⟩ := difference14 sma smb ha hb na nb s0 s1 (first := .neg) (second := .pos) (by simp) (by simp)
  unfold Untrusted.subCommon
  rw [dassert_ok na, bind_ok, dassert_ok nb, bind_ok, eu, e1, e2, value_signed a, value_signed b]
  cases ha' : a.sign with
  | nan => exact absurd ha' na
  | pos =>
    cases hb' : b.sign with
    | nan => exact absurd hb' nb
    | neg =>
      refine ⟨{ u with sign := .pos }, rfl, near_of pu (by simp), ?_⟩
      rw [value_signed, vu]; simp only [signed]; ring
    | pos =>
      refine ⟨r1, rfl, q1, ?_⟩
      rw [v1 (by simp)]; simp only [signed]
  | neg =>
    cases hb' : b.sign with
    | nan => exact absurd hb' nb
    | neg =>
      refine ⟨r2, rfl, q2, ?_⟩
      rw [v2 (by simp)]; simp only [signed]; ring
    | pos =>
      refine ⟨{ u with sign := .neg }, rfl, near_of pu (by simp), ?_⟩
      rw [value_signed, vu]; simp only [signed]; ring

/-! ## Any digits, in a release build -/

theorem i16_release (e : Bool) (x : Int) : ∃ y, @i16 (rel e) x = .ok y ∧ -32768 ≤ y ∧ y ≤ 32767 := by
  unfold i16
  split
  · rename_i h; exact ⟨x, rfl, h.1, h.2⟩
  · have l := Int.le_bmod (x := x) (m := 65536) (by norm_num)
    have u := Int.bmod_lt (x := x) (m := 65536) (by norm_num)
    refine ⟨Int.bmod x 65536, rfl, ?_, ?_⟩ <;> omega

theorem dassert_release (e : Bool) (c : Prop) [Decidable c] : @dassert (rel e) c _ = .ok () := by
  unfold dassert
  simp [rel, pure_ok]

theorem addLoop_release (e : Bool) (d1 d2 : List Int) : ∀ (n : ℕ) (i1 i2 carry : Int) (acc : List Int), Digits16 acc →
    ∃ ds c, @Var.addLoop (rel e) d1 d2 n i1 i2 carry acc = .ok (ds, c) ∧ Digits16 ds ∧ ds.length = acc.length + n
  | 0, i1, i2, carry, acc, h => ⟨acc, carry, rfl, h, rfl⟩
  | n + 1, i1, i2, carry, acc, h => by
    obtain ⟨y, ey, -, -⟩ := i16_release e (carry + Var.digitAt d1 (i1 - 1))
    obtain ⟨z, ez, l, u⟩ := i16_release e (y + Var.digitAt d2 (i2 - 1))
    unfold Var.addLoop
    simp only
    rw [ey, bind_ok, ez, bind_ok]
    simp only [NBASE]
    split
    · obtain ⟨ds, c, q1, q2, q3⟩ := addLoop_release e d1 d2 n (i1 - 1) (i2 - 1) 1 ((z - 10000) :: acc) (h.cons (by omega))
      exact ⟨ds, c, q1, q2, by rw [q3]; simp; omega⟩
    · obtain ⟨ds, c, q1, q2, q3⟩ := addLoop_release e d1 d2 n (i1 - 1) (i2 - 1) 0 (z :: acc) (h.cons (by omega))
      exact ⟨ds, c, q1, q2, by rw [q3]; simp; omega⟩

theorem subLoop_release (e : Bool) (d1 d2 : List Int) : ∀ (n : ℕ) (i1 i2 borrow : Int) (acc : List Int), Digits16 acc →
    ∃ ds c, @Var.subLoop (rel e) d1 d2 n i1 i2 borrow acc = .ok (ds, c) ∧ Digits16 ds ∧ ds.length = acc.length + n
  | 0, i1, i2, borrow, acc, h => ⟨acc, borrow, rfl, h, rfl⟩
  | n + 1, i1, i2, borrow, acc, h => by
    obtain ⟨y, ey, -, -⟩ := i16_release e (borrow + Var.digitAt d1 (i1 - 1))
    obtain ⟨z, ez, l, u⟩ := i16_release e (y - Var.digitAt d2 (i2 - 1))
    unfold Var.subLoop
    simp only
    rw [ey, bind_ok, ez, bind_ok]
    simp only [NBASE]
    split
    · obtain ⟨ds, c, q1, q2, q3⟩ := subLoop_release e d1 d2 n (i1 - 1) (i2 - 1) (-1) ((z + 10000) :: acc) (h.cons (by omega))
      exact ⟨ds, c, q1, q2, by rw [q3]; simp; omega⟩
    · obtain ⟨ds, c, q1, q2, q3⟩ := subLoop_release e d1 d2 n (i1 - 1) (i2 - 1) 0 (z :: acc) (h.cons (by omega))
      exact ⟨ds, c, q1, q2, by rw [q3]; simp; omega⟩

theorem addAbs_release (e : Bool) (a b : Var) (sma : Small a) (smb : Small b) :
    ∃ u, @Var.addAbs (rel e) a b = .ok u ∧ Part16 u (lo16 a b - 1) (hi16 a b) (max a.dscale b.dscale) := by
  obtain ⟨wa1, wa2, wa3⟩ := sma
  obtain ⟨wb1, wb2, wb3⟩ := smb
  unfold Var.addAbs
  simp only [dassert_release, bind_ok]
  kill_fits
  simp only [bind_ok, Var.ndigits]
  set W := max a.weight b.weight + 1 with hW
  set R := max ((a.digits.length : Int) - a.weight - 1) ((b.digits.length : Int) - b.weight - 1) with hR
  rw [if_pos (by omega)]
  obtain ⟨n, hn⟩ := Int.eq_ofNat_of_zero_le (a := R + W + 1) (by omega)
  rw [hn]
  simp only [Int.toNat_natCast]
  obtain ⟨ds, c, el, hd, hl⟩ := addLoop_release e a.digits b.digits n (R + a.weight + 1) (R + b.weight + 1) 0 [] (fun _ h => absurd h List.not_mem_nil)
  rw [el]
  simp only [List.length_nil, zero_add] at hl
  simp only [bind_ok]
  rw [stripM_ok (by simp only; omega) (by simp only; omega)]
  exact ⟨_, rfl, part16_strip hd (by unfold lo16; omega) (by unfold lo16; omega)⟩

theorem subAbs_release (e : Bool) (a b : Var) (sma : Small a) (smb : Small b) :
    ∃ u, @Var.subAbs (rel e) a b = .ok u ∧ Part16 u (lo16 a b - 1) (hi16 a b) (max a.dscale b.dscale) := by
  obtain ⟨wa1, wa2, wa3⟩ := sma
  obtain ⟨wb1, wb2, wb3⟩ := smb
  unfold Var.subAbs
  simp only [dassert_release, bind_ok]
  kill_fits
  simp only [bind_ok, Var.ndigits]
  set W := a.weight with hW
  set R := max ((a.digits.length : Int) - W - 1) ((b.digits.length : Int) - b.weight - 1) with hR
  set N : Int := if R + W + 1 ≤ 0 then 1 else R + W + 1 with hN
  obtain ⟨n, hn⟩ := Int.eq_ofNat_of_zero_le (a := N) (by omega)
  rw [hn]
  simp only [Int.toNat_natCast]
  obtain ⟨ds, c, el, hd, hl⟩ := subLoop_release e a.digits b.digits n (R + W + 1) (R + b.weight + 1) 0 [] (fun _ h => absurd h List.not_mem_nil)
  rw [el]
  simp only [List.length_nil, zero_add] at hl
  simp only [bind_ok]
  rw [stripM_ok (by simp only; omega) (by simp only; omega)]
  have q := part16_strip (W := W) (s := max a.dscale b.dscale) (lo := lo16 a b - 1) hd (by unfold lo16; omega) (by unfold lo16; omega)
  exact ⟨_, rfl, q.digits, q.stripped, q.sign, q.dscale, q.weight_ge, fun h => by have := q.weight_le h; unfold hi16; omega, by have := q.length; unfold hi16; unfold lo16 at *; omega⟩

theorem cmpRest_sign (d1 d2 : List Int) : Var.cmpRest d1 d2 = 0 ∨ Var.cmpRest d1 d2 = 1 ∨ Var.cmpRest d1 d2 = -1 := by
  unfold Var.cmpRest
  split
  · simp
  · split <;> simp

theorem cmpDigits_sign [Build] : ∀ (d1 d2 : List Int) (c : Int), cmpDigits d1 d2 = .ok c → c = 0 ∨ c = 1 ∨ c = -1
  | [], ys, c, h => by
    unfold cmpDigits at h
    obtain rfl : Var.cmpRest [] ys = c := by simpa [pure_ok] using h
    exact cmpRest_sign _ _
  | x :: xs, [], c, h => by
    unfold cmpDigits at h
    obtain rfl : Var.cmpRest (x :: xs) [] = c := by simpa [pure_ok] using h
    exact cmpRest_sign _ _
  | x :: xs, y :: ys, c, h => by
    unfold cmpDigits at h
    cases hs : sub16 x y with
    | error f => rw [hs] at h; cases h
    | ok s =>
      rw [hs, bind_ok] at h
      split at h
      · obtain rfl : (if s > 0 then (1 : Int) else -1) = c := by simpa [pure_ok] using h
        split <;> simp
      · exact cmpDigits_sign xs ys c h

theorem cmpAbs_sign [Build] (a b : Var) (c : Int) (h : cmpAbs a b = .ok c) : c = 0 ∨ c = 1 ∨ c = -1 := by
  unfold cmpAbs at h
  split at h
  · obtain rfl : (1 : Int) = c := by simpa [pure_ok] using h
    simp
  · split at h
    · obtain rfl : (-1 : Int) = c := by simpa [pure_ok] using h
      simp
    · split at h
      · exact cmpDigits_sign _ _ c h
      · rw [pure_ok] at h
        rw [← Except.ok.inj h]
        exact cmpRest_sign _ _

theorem difference_release (e : Bool) {a b : Var} (sma : Small a) (smb : Small b) {first second : Sign}
    (hf : first ≠ .nan) (hs : second ≠ .nan) :
    ∃ r, @difference (rel e) a b first second = .ok r ∧ Near r (lo16 a b - 1) (hi16 a b) (max a.dscale b.dscale) := by
  obtain ⟨c, hc⟩ := cmpAbs_release e a b
  unfold difference
  rw [hc, bind_ok]
  rcases @cmpAbs_sign (rel e) a b c hc with rfl | rfl | rfl
  · rw [if_pos rfl]
    unfold Var.zeroScaled
    rw [dassert_release]
    exact ⟨_, rfl, near_zero _ _ _⟩
  · obtain ⟨u, eu, p⟩ := subAbs_release e a b sma smb
    rw [if_neg (by decide), if_pos rfl, eu]
    exact ⟨_, rfl, near_of p hf⟩
  · obtain ⟨u, eu, p⟩ := subAbs_release e b a smb sma
    rw [if_neg (by decide), if_neg (by decide), if_pos rfl, eu]
    refine ⟨_, rfl, ?_⟩
    rw [show lo16 a b = lo16 b a by rw [lo16, lo16, min_comm], show hi16 a b = hi16 b a by rw [hi16, hi16, max_comm], max_comm a.dscale]
    exact near_of p hs

theorem addCommon_release (e : Bool) {a b : Var} (sma : Small a) (smb : Small b) :
    ∃ r, @Untrusted.addCommon (rel e) a b = .ok r ∧ Near r (lo16 a b - 1) (hi16 a b) (max a.dscale b.dscale) := by
  obtain ⟨u, eu, pu⟩ := addAbs_release e a b sma smb
  obtain ⟨r1, e1, q1⟩ := difference_release e sma smb (first := .pos) (second := .neg) (by simp) (by simp)
  obtain ⟨r2, e2, q2⟩ := difference_release e sma smb (first := .neg) (second := .pos) (by simp) (by simp)
  unfold Untrusted.addCommon
  simp only [dassert_release, bind_ok, eu, e1, e2]
  split
  · split
    · exact ⟨_, rfl, near_of pu (by simp)⟩
    · exact ⟨_, rfl, q1⟩
  · split
    · exact ⟨_, rfl, q2⟩
    · exact ⟨_, rfl, near_of pu (by simp)⟩

theorem subCommon_release (e : Bool) {a b : Var} (sma : Small a) (smb : Small b) :
    ∃ r, @Untrusted.subCommon (rel e) a b = .ok r ∧ Near r (lo16 a b - 1) (hi16 a b) (max a.dscale b.dscale) := by
  obtain ⟨u, eu, pu⟩ := addAbs_release e a b sma smb
  obtain ⟨r1, e1, q1⟩ := difference_release e sma smb (first := .pos) (second := .neg) (by simp) (by simp)
  obtain ⟨r2, e2, q2⟩ := difference_release e sma smb (first := .neg) (second := .pos) (by simp) (by simp)
  unfold Untrusted.subCommon
  simp only [dassert_release, bind_ok, eu, e1, e2]
  split
  · split
    · exact ⟨_, rfl, near_of pu (by simp)⟩
    · exact ⟨_, rfl, q1⟩
  · split
    · exact ⟨_, rfl, q2⟩
    · exact ⟨_, rfl, near_of pu (by simp)⟩

/-! ## Any digits, in a debug build: the exact result, or a panic -/

theorem i16_debug (e : Bool) {x y : Int} (h : @i16 (dbg e) x = .ok y) : y = x ∧ -32768 ≤ y ∧ y ≤ 32767 := by
  unfold i16 at h
  split at h
  · rename_i hr
    rw [pure_ok] at h
    have := Except.ok.inj h
    omega
  · cases h

theorem dassert_debug (e : Bool) {c : Prop} [Decidable c] {α : Type} {k : M α} {r : α} (h : (do @dassert (dbg e) c _; k) = .ok r) : c ∧ k = .ok r := by
  by_cases hc : c
  · rw [@dassert_ok (dbg e) c _ hc] at h; exact ⟨hc, h⟩
  · have : @dassert (dbg e) c _ = .error .assert := by unfold dassert; simp [hc]
    rw [this] at h; cases h

theorem bind_elim {α β : Type} {x : M α} {f : α → M β} {r : β} (h : (x >>= f) = .ok r) : ∃ y, x = .ok y ∧ f y = .ok r := by
  cases hx : x with
  | error g => rw [hx] at h; cases h
  | ok y => rw [hx] at h; exact ⟨y, rfl, h⟩

theorem addLoop_debug (e : Bool) (d1 d2 : List Int) (I1 I2 : Int) :
    ∀ (n k : Nat) (i1 i2 carry : Int) (acc : List Int), i1 = I1 - k → i2 = I2 - k → Digits16 acc → acc.length = k →
      dval acc + carry * 10000 ^ k = win d1 I1 k + win d2 I2 k →
      ∀ ds c, @Var.addLoop (dbg e) d1 d2 n i1 i2 carry acc = .ok (ds, c) → Digits16 ds ∧ ds.length = k + n ∧
        dval ds + c * 10000 ^ (k + n) = win d1 I1 (k + n) + win d2 I2 (k + n) := by
  intro n
  induction n with
  | zero =>
    intro k i1 i2 carry acc _ _ hd hl hv ds c h
    unfold Var.addLoop at h
    rw [pure_ok] at h
    have := Except.ok.inj h
    obtain ⟨rfl, rfl⟩ := Prod.mk.inj this
    exact ⟨hd, hl, hv⟩
  | succ n ih =>
    intro k i1 i2 carry acc e1 e2 hd hl hv ds c h
    have g1 : Var.digitAt d1 (i1 - 1) = Var.digitAt d1 (I1 - 1 - k) := by congr 1; omega
    have g2 : Var.digitAt d2 (i2 - 1) = Var.digitAt d2 (I2 - 1 - k) := by congr 1; omega
    unfold Var.addLoop at h
    simp only at h
    obtain ⟨y, hy, h⟩ := bind_elim h
    obtain ⟨z, hz, h⟩ := bind_elim h
    obtain ⟨rfl, -, -⟩ := i16_debug e hy
    obtain ⟨rfl, l, u⟩ := i16_debug e hz
    simp only [NBASE] at h
    rw [show k + (n + 1) = (k + 1) + n by ring]
    split at h
    · refine ih (k + 1) (i1 - 1) (i2 - 1) 1 _ (by push_cast; omega) (by push_cast; omega) (hd.cons (by omega)) (by simp [hl]) ?_ ds c h
      rw [dval_cons, win, win, hl, g1, g2, pow_succ]
      linear_combination hv
    · refine ih (k + 1) (i1 - 1) (i2 - 1) 0 _ (by push_cast; omega) (by push_cast; omega) (hd.cons (by omega)) (by simp [hl]) ?_ ds c h
      rw [dval_cons, win, win, hl, g1, g2, pow_succ]
      linear_combination hv

theorem subLoop_debug (e : Bool) (d1 d2 : List Int) (I1 I2 : Int) :
    ∀ (n k : Nat) (i1 i2 borrow : Int) (acc : List Int), i1 = I1 - k → i2 = I2 - k → Digits16 acc → acc.length = k →
      dval acc + borrow * 10000 ^ k = win d1 I1 k - win d2 I2 k →
      ∀ ds c, @Var.subLoop (dbg e) d1 d2 n i1 i2 borrow acc = .ok (ds, c) → Digits16 ds ∧ ds.length = k + n ∧
        dval ds + c * 10000 ^ (k + n) = win d1 I1 (k + n) - win d2 I2 (k + n) := by
  intro n
  induction n with
  | zero =>
    intro k i1 i2 carry acc _ _ hd hl hv ds c h
    unfold Var.subLoop at h
    rw [pure_ok] at h
    have := Except.ok.inj h
    obtain ⟨rfl, rfl⟩ := Prod.mk.inj this
    exact ⟨hd, hl, hv⟩
  | succ n ih =>
    intro k i1 i2 carry acc e1 e2 hd hl hv ds c h
    have g1 : Var.digitAt d1 (i1 - 1) = Var.digitAt d1 (I1 - 1 - k) := by congr 1; omega
    have g2 : Var.digitAt d2 (i2 - 1) = Var.digitAt d2 (I2 - 1 - k) := by congr 1; omega
    unfold Var.subLoop at h
    simp only at h
    obtain ⟨y, hy, h⟩ := bind_elim h
    obtain ⟨z, hz, h⟩ := bind_elim h
    obtain ⟨rfl, -, -⟩ := i16_debug e hy
    obtain ⟨rfl, l, u⟩ := i16_debug e hz
    simp only [NBASE] at h
    rw [show k + (n + 1) = (k + 1) + n by ring]
    split at h
    · refine ih (k + 1) (i1 - 1) (i2 - 1) (-1) _ (by push_cast; omega) (by push_cast; omega) (hd.cons (by omega)) (by simp [hl]) ?_ ds c h
      rw [dval_cons, win, win, hl, g1, g2, pow_succ]
      linear_combination hv
    · refine ih (k + 1) (i1 - 1) (i2 - 1) 0 _ (by push_cast; omega) (by push_cast; omega) (hd.cons (by omega)) (by simp [hl]) ?_ ds c h
      rw [dval_cons, win, win, hl, g1, g2, pow_succ]
      linear_combination hv

theorem addAbs_debug (e : Bool) (a b u : Var) (sma : Small a) (smb : Small b) (h : @Var.addAbs (dbg e) a b = .ok u) :
    Part16 u (lo16 a b - 1) (hi16 a b) (max a.dscale b.dscale) ∧ mag u.digits u.weight = mag a.digits a.weight + mag b.digits b.weight := by
  obtain ⟨wa1, wa2, wa3⟩ := sma
  obtain ⟨wb1, wb2, wb3⟩ := smb
  unfold Var.addAbs at h
  obtain ⟨-, h⟩ := dassert_debug e h
  obtain ⟨-, h⟩ := dassert_debug e h
  obtain ⟨-, -, h⟩ := bind_elim h
  simp only [Var.ndigits] at h
  set W := max a.weight b.weight + 1 with hW
  set R := max ((a.digits.length : Int) - a.weight - 1) ((b.digits.length : Int) - b.weight - 1) with hR
  rw [if_pos (by omega)] at h
  obtain ⟨n, hn⟩ := Int.eq_ofNat_of_zero_le (a := R + W + 1) (by omega)
  rw [hn] at h
  simp only [Int.toNat_natCast] at h
  obtain ⟨⟨ds, c⟩, el, h⟩ := bind_elim h
  obtain ⟨hd, hl, hv⟩ := addLoop_debug e a.digits b.digits (R + a.weight + 1) (R + b.weight + 1)
    n 0 (R + a.weight + 1) (R + b.weight + 1) 0 [] (by simp) (by simp) (fun _ h => absurd h List.not_mem_nil) rfl (by simp [win]) ds c el
  rw [zero_add] at hl hv
  obtain ⟨rfl, h⟩ := dassert_debug e h
  simp only at h
  rw [stripM_ok (by simp only; omega) (by simp only; omega)] at h
  obtain rfl := Except.ok.inj h
  have l1 : (a.digits.length : Int) ≤ R + a.weight + 1 := by omega
  have l2 : (b.digits.length : Int) ≤ R + b.weight + 1 := by omega
  have m1 := mag_window a.digits a.weight _ l1
  have m2 := mag_window b.digits b.weight _ l2
  rw [win_full _ _ _ l1 (by omega), win_full _ _ _ l2 (by omega)] at hv
  have x1 : a.weight + 1 - (R + a.weight + 1) = -R := by ring
  have x2 : b.weight + 1 - (R + b.weight + 1) = -R := by ring
  rw [x1] at m1
  rw [x2] at m2
  generalize hXe : dval a.digits * 10000 ^ (R + a.weight + 1 - (a.digits.length : Int)).toNat = X at *
  generalize hYe : dval b.digits * 10000 ^ (R + b.weight + 1 - (b.digits.length : Int)).toNat = Y at *
  refine ⟨part16_strip hd (by unfold lo16; omega) (by unfold lo16; omega), ?_⟩
  rw [strip_mag, mag_of_dval ds W n hl, m1, m2, ← add_mul]
  have : W + 1 - (n:Int) = -R := by omega
  rw [this]
  congr 1
  exact_mod_cast (by linarith : dval ds = X + Y)

/-- No digit of `b` lies above the first digit of `a`, but for zeros. -/
def Below (b a : Var) : Prop := ∀ i : Int, b.weight - i > a.weight → Var.digitAt b.digits i = 0

theorem win_zero {ds : List Int} {I : Int} : ∀ {k : ℕ}, (∀ j : ℕ, j < k → Var.digitAt ds (I - 1 - j) = 0) → win ds I k = 0
  | 0, _ => rfl
  | k + 1, h => by
    rw [win, win_zero (fun j hj => h j (by omega)), h k (by omega)]; simp

theorem subAbs_debug (e : Bool) (a b u : Var) (sma : Small a) (smb : Small b) (hb : Below b a) (ha : a.digits ≠ []) (h : @Var.subAbs (dbg e) a b = .ok u) :
    Part16 u (lo16 a b - 1) (hi16 a b) (max a.dscale b.dscale) ∧ mag u.digits u.weight = mag a.digits a.weight - mag b.digits b.weight := by
  obtain ⟨wa1, wa2, wa3⟩ := sma
  obtain ⟨wb1, wb2, wb3⟩ := smb
  have hne : 0 < a.digits.length := List.length_pos_iff.2 ha
  unfold Var.subAbs at h
  obtain ⟨-, h⟩ := dassert_debug e h
  obtain ⟨-, h⟩ := dassert_debug e h
  obtain ⟨-, -, h⟩ := bind_elim h
  simp only [Var.ndigits] at h
  set W := a.weight with hW
  set R := max ((a.digits.length : Int) - W - 1) ((b.digits.length : Int) - b.weight - 1) with hR
  rw [if_neg (by omega)] at h
  obtain ⟨n, hn⟩ := Int.eq_ofNat_of_zero_le (a := R + W + 1) (by omega)
  rw [hn] at h
  simp only [Int.toNat_natCast] at h
  obtain ⟨⟨ds, c⟩, el, h⟩ := bind_elim h
  obtain ⟨hd, hl, hv⟩ := subLoop_debug e a.digits b.digits n (R + b.weight + 1)
    n 0 n (R + b.weight + 1) 0 [] (by simp) (by simp) (fun _ h => absurd h List.not_mem_nil) rfl (by simp [win]) ds c el
  rw [zero_add] at hl hv
  obtain ⟨rfl, h⟩ := dassert_debug e h
  simp only at h
  rw [stripM_ok (by simp only; omega) (by simp only; omega)] at h
  obtain rfl := Except.ok.inj h
  have l1 : (a.digits.length : Int) ≤ n := by omega
  have l2 : (b.digits.length : Int) ≤ R + b.weight + 1 := by omega
  have m1 := mag_window a.digits W _ l1
  have m2 := mag_window b.digits b.weight _ l2
  have x1 : W + 1 - (n : Int) = -R := by omega
  have x2 : b.weight + 1 - (R + b.weight + 1) = -R := by ring
  rw [x1] at m1
  rw [x2] at m2
  have hz' : win b.digits (R + b.weight + 1 - n) (R + b.weight + 1).toNat = 0 :=
    win_zero fun j _ => hb _ (by omega)
  have hwb := win_full b.digits (R + b.weight + 1) (n + (R + b.weight + 1).toNat) l2 (by push_cast; omega)
  rw [win_split, hz', mul_zero, add_zero] at hwb
  rw [win_full _ _ _ l1 le_rfl, hwb] at hv
  generalize hXe : dval a.digits * 10000 ^ ((n:Int) - (a.digits.length : Int)).toNat = X at *
  generalize hYe : dval b.digits * 10000 ^ (R + b.weight + 1 - (b.digits.length : Int)).toNat = Y at *
  constructor
  · have q := part16_strip (W := W) (s := max a.dscale b.dscale) (lo := lo16 a b - 1) hd (by unfold lo16; omega) (by unfold lo16; omega)
    exact ⟨q.digits, q.stripped, q.sign, q.dscale, q.weight_ge, fun h => by have := q.weight_le h; unfold hi16; omega, by have := q.length; unfold hi16; unfold lo16 at *; omega⟩
  · rw [strip_mag, mag_of_dval ds W n hl, m1, m2, ← sub_mul, x1]
    congr 1
    exact_mod_cast (by linarith : dval ds = X - Y)

theorem cmpLead_none : ∀ {ds : List Int} {w w' : Int}, Var.cmpLead ds w w' = none → w > w' ∧ ds ≠ []
  | [], _, _, h => by simp [Var.cmpLead] at h
  | d :: ds, w, w', h => by
    rw [Var.cmpLead] at h
    split at h
    · rename_i hw; exact ⟨hw, by simp⟩
    · cases h

theorem cmpLead_some : ∀ {ds : List Int} {w w' : Int} {ds1 : List Int} {w1 : Int}, Var.cmpLead ds w w' = some (ds1, w1) →
    w1 ≤ w ∧ (∀ i : Int, w - i > w' → Var.digitAt ds i = 0) ∧ mag ds w = mag ds1 w1
  | [], w, w', ds1, w1, h => by
    simp only [Var.cmpLead, Option.some.injEq, Prod.mk.injEq] at h
    obtain ⟨rfl, rfl⟩ := h
    exact ⟨le_rfl, fun i _ => by simp [Var.digitAt], rfl⟩
  | d :: ds, w, w', ds1, w1, h => by
    rw [Var.cmpLead] at h
    split at h
    · split at h
      · cases h
      · rename_i hw hd
        have hd : d = 0 := by simpa using hd
        obtain ⟨h1, h2, h3⟩ := cmpLead_some h
        refine ⟨by omega, fun i hi => ?_, by rw [mag_cons, h3, hd]; simp⟩
        rw [digitAt_cons]
        split
        · exact hd
        · exact h2 _ (by omega)
    · rename_i hw
      simp only [Option.some.injEq, Prod.mk.injEq] at h
      obtain ⟨rfl, rfl⟩ := h
      exact ⟨le_rfl, fun i hi => digitAt_zero (.inl (by omega)), rfl⟩

theorem mag_all_zero {ds : List Int} (h : ∀ d ∈ ds, d = 0) (w : Int) : mag ds w = 0 := by
  rw [← stripTrail_mag, trail_zero h]; rfl

theorem cmpDigits_nonempty [Build] : ∀ (d1 d2 : List Int) (c : Int), cmpDigits d1 d2 = .ok c → (c = 1 → d1 ≠ []) ∧ (c = -1 → d2 ≠ [])
  | [], ys, c, h => by
    unfold cmpDigits at h
    obtain rfl : Var.cmpRest [] ys = c := by simpa [pure_ok] using h
    unfold Var.cmpRest
    cases ys <;> simp
    split <;> simp
  | x :: xs, [], c, h => by
    unfold cmpDigits at h
    obtain rfl : Var.cmpRest (x :: xs) [] = c := by simpa [pure_ok] using h
    unfold Var.cmpRest
    simp
    split <;> simp
  | x :: xs, y :: ys, c, h => by simp

theorem cmpRest_nonempty (d1 d2 : List Int) : (Var.cmpRest d1 d2 = 1 → d1 ≠ []) ∧ (Var.cmpRest d1 d2 = -1 → d2 ≠ []) := by
  unfold Var.cmpRest
  constructor
  · intro h hd
    subst hd
    simp at h
    split at h <;> simp at h
  · intro h hd
    subst hd
    simp at h
    split at h <;> simp at h

theorem nonempty_of {ds : List Int} {w w' : Int} {ds1 : List Int} {w1 : Int} (h : Var.cmpLead ds w w' = some (ds1, w1)) (h1 : ds1 ≠ []) : ds ≠ [] := by
  rintro rfl
  simp only [Var.cmpLead, Option.some.injEq, Prod.mk.injEq] at h
  exact h1 h.1.symm

/-- What the comparison of the magnitudes, with any digits, ensures. -/
theorem cmpAbs_ensures [Build] {a b : Var} (ha : Digits16 a.digits) (hb : Digits16 b.digits) {c : Int} (h : cmpAbs a b = .ok c) :
    (c = 0 → mag a.digits a.weight = mag b.digits b.weight) ∧ (c = 1 → Below b a ∧ a.digits ≠ []) ∧ (c = -1 → Below a b ∧ b.digits ≠ []) := by
  unfold cmpAbs at h
  cases e1 : Var.cmpLead a.digits a.weight b.weight with
  | none =>
    rw [e1] at h
    obtain rfl : (1 : Int) = c := by simpa [pure_ok] using h
    obtain ⟨hw, hne⟩ := cmpLead_none e1
    exact ⟨by simp, fun _ => ⟨fun i hi => digitAt_zero (.inl (by omega)), hne⟩, by simp⟩
  | some p =>
    obtain ⟨ds1, w1⟩ := p
    rw [e1] at h
    simp only at h
    obtain ⟨f1, f2, f3⟩ := cmpLead_some e1
    cases e2 : Var.cmpLead b.digits b.weight w1 with
    | none =>
      rw [e2] at h
      obtain rfl : (-1 : Int) = c := by simpa [pure_ok] using h
      exact ⟨by simp, by simp, fun _ => ⟨f2, (cmpLead_none e2).2⟩⟩
    | some q =>
      obtain ⟨ds2, w2⟩ := q
      rw [e2] at h
      simp only at h
      obtain ⟨g1, g2, g3⟩ := cmpLead_some e2
      have hbel : Below b a := fun i hi => g2 i (by omega)
      by_cases hw : w1 = w2
      · rw [if_pos hw] at h
        obtain ⟨n1, n2⟩ := cmpDigits_nonempty _ _ _ h
        refine ⟨?_, fun hc => ⟨hbel, nonempty_of e1 (n1 hc)⟩, fun hc => ⟨f2, nonempty_of e2 (n2 hc)⟩⟩
        rintro rfl
        have ht := digits_zero (fun d hd => ha d (cmpLead_sub e1 d hd)) (fun d hd => hb d (cmpLead_sub e2 d hd)) h
        rw [f3, g3, ← stripTrail_mag ds1, ← stripTrail_mag ds2, ht, hw]
      · rw [if_neg hw, pure_ok] at h
        have h := Except.ok.inj h
        obtain ⟨n1, n2⟩ := cmpRest_nonempty ds1 ds2
        rw [h] at n1 n2
        refine ⟨?_, fun hc => ⟨hbel, nonempty_of e1 (n1 hc)⟩, fun hc => ⟨f2, nonempty_of e2 (n2 hc)⟩⟩
        rintro rfl
        have := rest_zero (d1 := ds1) (d2 := ds2) h
        rw [f3, g3, mag_all_zero this.1, mag_all_zero this.2]

theorem difference_debug (e : Bool) {a b r : Var} (sma : Small a) (smb : Small b) (ha : Digits16 a.digits) (hb : Digits16 b.digits) {first second : Sign}
    (hf : first ≠ .nan) (hs : second ≠ .nan) (hx : second = .neg ↔ first ≠ .neg) (h : @difference (dbg e) a b first second = .ok r) :
    Near r (lo16 a b - 1) (hi16 a b) (max a.dscale b.dscale) ∧ value r = signed first (mag a.digits a.weight - mag b.digits b.weight) := by
  unfold difference at h
  obtain ⟨c, hc, h⟩ := bind_elim h
  obtain ⟨k0, k1, k2⟩ := @cmpAbs_ensures (dbg e) a b ha hb c hc
  rcases @cmpAbs_sign (dbg e) a b c hc with rfl | rfl | rfl
  · rw [if_pos rfl] at h
    unfold Var.zeroScaled at h
    obtain ⟨-, h⟩ := dassert_debug e h
    obtain rfl := Except.ok.inj h
    refine ⟨near_zero _ _ _, ?_⟩
    rw [k0 rfl, sub_self, value_signed]
    unfold signed
    cases first <;> simp
  · rw [if_neg (by decide), if_pos rfl] at h
    obtain ⟨u, hu, h⟩ := bind_elim h
    obtain rfl := Except.ok.inj h
    obtain ⟨p, v⟩ := subAbs_debug e a b u sma smb (k1 rfl).1 (k1 rfl).2 hu
    exact ⟨near_of p hf, by rw [value_signed, v]⟩
  · rw [if_neg (by decide), if_neg (by decide), if_pos rfl] at h
    obtain ⟨u, hu, h⟩ := bind_elim h
    obtain rfl := Except.ok.inj h
    obtain ⟨p, v⟩ := subAbs_debug e b a u smb sma (k2 rfl).1 (k2 rfl).2 hu
    constructor
    · rw [show lo16 a b = lo16 b a by rw [lo16, lo16, min_comm], show hi16 a b = hi16 b a by rw [hi16, hi16, max_comm], max_comm a.dscale]
      exact near_of p hs
    · rw [value_signed, v]
      unfold signed
      revert hx hf hs
      cases first <;> cases second <;> simp

theorem addCommon_debug (e : Bool) {a b r : Var} (sma : Small a) (smb : Small b) (ha : Digits16 a.digits) (hb : Digits16 b.digits)
    (h : @Untrusted.addCommon (dbg e) a b = .ok r) :
    Near r (lo16 a b - 1) (hi16 a b) (max a.dscale b.dscale) ∧ value r = value a + value b := by
  unfold Untrusted.addCommon at h
  obtain ⟨na, h⟩ := dassert_debug e h
  obtain ⟨nb, h⟩ := dassert_debug e h
  rw [value_signed a, value_signed b]
  cases ha' : a.sign with
  | nan => exact absurd ha' na
  | pos =>
    cases hb' : b.sign with
    | nan => exact absurd hb' nb
    | pos =>
      rw [if_pos ha', if_pos hb'] at h
      obtain ⟨u, hu, h⟩ := bind_elim h
      obtain rfl := Except.ok.inj h
      obtain ⟨p, v⟩ := addAbs_debug e a b u sma smb hu
      exact ⟨near_of p (by simp), by rw [value_signed, v]; rfl⟩
    | neg =>
      rw [if_pos ha', if_neg (by rw [hb']; simp)] at h
      obtain ⟨p, v⟩ := difference_debug e sma smb ha hb (by simp) (by simp) (by simp) h
      exact ⟨p, by rw [v]; simp only [signed]; ring⟩
  | neg =>
    cases hb' : b.sign with
    | nan => exact absurd hb' nb
    | pos =>
      rw [if_neg (by rw [ha']; simp), if_pos hb'] at h
      obtain ⟨p, v⟩ := difference_debug e sma smb ha hb (by simp) (by simp) (by simp) h
      exact ⟨p, by rw [v]; simp only [signed]; ring⟩
    | neg =>
      rw [if_neg (by rw [ha']; simp), if_neg (by rw [hb']; simp)] at h
      obtain ⟨u, hu, h⟩ := bind_elim h
      obtain rfl := Except.ok.inj h
      obtain ⟨p, v⟩ := addAbs_debug e a b u sma smb hu
      exact ⟨near_of p (by simp), by rw [value_signed, v]; simp only [signed]; ring⟩

theorem subCommon_debug (e : Bool) {a b r : Var} (sma : Small a) (smb : Small b) (ha : Digits16 a.digits) (hb : Digits16 b.digits)
    (h : @Untrusted.subCommon (dbg e) a b = .ok r) :
    Near r (lo16 a b - 1) (hi16 a b) (max a.dscale b.dscale) ∧ value r = value a - value b := by
  unfold Untrusted.subCommon at h
  obtain ⟨na, h⟩ := dassert_debug e h
  obtain ⟨nb, h⟩ := dassert_debug e h
  rw [value_signed a, value_signed b]
  cases ha' : a.sign with
  | nan => exact absurd ha' na
  | pos =>
    cases hb' : b.sign with
    | nan => exact absurd hb' nb
    | neg =>
      rw [if_pos ha', if_pos hb'] at h
      obtain ⟨u, hu, h⟩ := bind_elim h
      obtain rfl := Except.ok.inj h
      obtain ⟨p, v⟩ := addAbs_debug e a b u sma smb hu
      exact ⟨near_of p (by simp), by rw [value_signed, v]; simp only [signed]; ring⟩
    | pos =>
      rw [if_pos ha', if_neg (by rw [hb']; simp)] at h
      obtain ⟨p, v⟩ := difference_debug e sma smb ha hb (by simp) (by simp) (by simp) h
      exact ⟨p, by rw [v]; simp only [signed]⟩
  | neg =>
    cases hb' : b.sign with
    | nan => exact absurd hb' nb
    | neg =>
      rw [if_neg (by rw [ha']; simp), if_pos hb'] at h
      obtain ⟨p, v⟩ := difference_debug e sma smb ha hb (by simp) (by simp) (by simp) h
      exact ⟨p, by rw [v]; simp only [signed]; ring⟩
    | pos =>
      rw [if_neg (by rw [ha']; simp), if_neg (by rw [hb']; simp)] at h
      obtain ⟨u, hu, h⟩ := bind_elim h
      obtain rfl := Except.ok.inj h
      obtain ⟨p, v⟩ := addAbs_debug e a b u sma smb hu
      exact ⟨near_of p (by simp), by rw [value_signed, v]; simp only [signed]; ring⟩

end PgNumeric
