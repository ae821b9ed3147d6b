import Verif.Proofs.Data
import Verif.Proofs.Typmod
/-!
# The in-place operations on owned buffers refine the pure ones
-/
namespace PgNumeric
open Spec Var

theorem encode_weight [Build] {v : Var} (h : Bin.Storable v) :
    ∃ w, (Bin.encode v).weight = .ok w ∧ w.toInt = v.weight := by
  unfold Bin.weight
  rw [Bin.headerIsShort_flag, Bin.encode_flag h]
  by_cases hs : v.dscale ≤ 63 ∧ v.weight ≤ 63 ∧ -64 ≤ v.weight
  · rw [if_pos hs, Bin.encode_short h hs]
    refine ⟨_, by simp only [beq_self_eq_true, Bool.true_or, if_true]; rfl, ?_⟩
    exact (Bin.short_facts h hs).2.2.2
  · rw [if_neg hs, Bin.encode_long h hs]
    have := Bin.signWord_short_ne h.not_nan
    refine ⟨BitVec.ofInt 16 v.weight, ?_, Bin.toInt_ofInt16 h.weight_ge h.weight_le⟩
    simp [this.1, this.2]

theorem signOf_signWord (s : Sign) : Buf.signOf (Bin.signWord s) = s := by cases s <;> decide

theorem Spec.Owned.asBinary [Build] {b : Buf} {a : Bin} (h : Owned b a) : Num.asBinary a = .ok () := dassert_ok h.len

theorem Spec.Owned.intoVar [Build] {b : Buf} {v : Var} (hv : Bin.Storable v) (h : Owned b (Bin.encode v)) :
    ∃ o, b.intoVar = .ok o ∧ Rep o v := by
  have hn := h.asNumeric
  have hb := h.asBinary
  have hlen := h.len
  have hsz := Spec.Owned.headerSize_encode hv
  obtain ⟨w, ew, hw⟩ := encode_weight hv
  have es := Bin.encode_sign hv
  have ed := Bin.encode_dscale hv
  obtain ⟨⟨pre, post, e, ho, hroom⟩, -⟩ := h
  have hmap := Bin.map_toInt hv.digits
  have key : ∃ pre' post', b.cells = pre' ++ (v.digits.map some ++ post') ∧
      pre'.length = (b.hoff + (Bin.encode v).headerSize) / 2 ∧
      (Bin.encode v).len = (Bin.encode v).headerSize + 2 * v.digits.length := by
    by_cases hs : v.dscale ≤ 63 ∧ v.weight ≤ 63 ∧ -64 ≤ v.weight
    · rw [if_pos hs] at hsz
      have e1 := Bin.encode_short hv hs
      refine ⟨pre ++ (Data.wordCells (Bin.encode v).vlLen ++ [(Bin.encode v).header.toInt]).map some, post, ?_, ?_, ?_⟩
      · rw [e]
        have : (Bin.encode v).rest.map BitVec.toInt = v.digits := by rw [e1]; exact hmap
        rw [this]; simp
      · simp [Data.wordCells]; omega
      · rw [hlen, hsz, Bin.size, e1]; simp
    · rw [if_neg hs] at hsz
      have e1 := Bin.encode_long hv hs
      refine ⟨pre ++ (Data.wordCells (Bin.encode v).vlLen ++ [(Bin.encode v).header.toInt, v.weight]).map some, post, ?_, ?_, ?_⟩
      · rw [e]
        have : (Bin.encode v).rest.map BitVec.toInt = v.weight :: v.digits := by
          rw [e1]; simp only [List.map_cons, hmap, Bin.toInt_ofInt16 hv.weight_ge hv.weight_le]
        rw [this]; simp
      · simp [Data.wordCells]; omega
      · rw [hlen, hsz, Bin.size, e1]; simp; omega
  obtain ⟨pre', post', e', hp, hl⟩ := key
  refine ⟨⟨v.digits.length, v.weight, v.dscale, v.sign, ⟨b.cells, pre'.length⟩⟩, ?_, rfl, rfl, rfl, rfl,
    ⟨pre', post', e', rfl⟩, by simp only; omega⟩
  have hdiv : ((Bin.encode v).headerSize + 2 * v.digits.length - (Bin.encode v).headerSize) / 2 = v.digits.length := by omega
  unfold Buf.intoVar
  simp only [hn, bind_ok, hb, ← hp, hl, hdiv]
  rw [dassert_ok (by rw [e']; simp)]
  simp only [bind_ok]
  rw [if_neg (by omega)]
  simp only [ew, bind_ok]
  rw [dassert_ok (by rw [e']; simp)]
  simp only [bind_ok, pure_ok, hw, es, ed, signOf_signWord]

theorem OVar.finishNoOverflow_rep [Build] {o : OVar} {u : Var} (hr : Rep o u) (hn : u.sign ≠ .nan)
    (hst : Var.stripM u = .ok (Var.strip u)) (hc : Canonical (Var.strip u)) :
    ∃ b, o.finishNoOverflow = .ok b ∧ Owned b (Bin.encode (Var.strip u)) := by
  obtain ⟨o', e', hr'⟩ := OVar.strip_rep hr hst
  obtain ⟨b, eb, hb⟩ := OVar.intoBuf_rep hc.storable hr'
  refine ⟨b, ?_, hb⟩
  unfold OVar.finishNoOverflow
  rw [dassert_ok (by rw [hr.sign]; exact hn)]
  simp only [bind_ok, e', eb]

theorem OVar.finish_rep [Build] {o : OVar} {u : Var} (hr : Rep o u) (hn : u.sign ≠ .nan) (h0 : u.dscale ≥ 0) {r : Option Var}
    (hm : makeResult u = .ok r) (hc : r ≠ none → Canonical (Var.strip u)) :
    (r = none ∧ o.finish = .ok none) ∨
    (r = some (Var.strip u) ∧ ∃ b, o.finish = .ok (some b) ∧ Owned b (Bin.encode (Var.strip u))) := by
  unfold makeResult at hm
  rw [dassert_ok hn, bind_ok] at hm
  rw [dassert_ok h0, bind_ok] at hm
  unfold OVar.finish
  rw [dassert_ok (by rw [hr.sign]; exact hn), bind_ok, dassert_ok (by rw [hr.dscale]; exact h0), bind_ok, hr.weight,
    hr.dscale]
  by_cases hc' : u.weight > NUMERIC_WEIGHT_MAX ∨ u.weight < NUMERIC_WEIGHT_MIN ∨ u.dscale > NUMERIC_DSCALE_MAX
  · rw [if_pos hc'] at hm ⊢
    left
    cases hm
    exact ⟨rfl, rfl⟩
  · rw [if_neg hc'] at hm ⊢
    right
    have hst : Var.stripM u = .ok (Var.strip u) := by
      unfold Var.stripM at hm ⊢
      rcases hf : fits [(stripLead u.digits u.weight).2] with e | _
      · rw [hf] at hm; cases hm
      · rfl
    rw [hst, bind_ok] at hm
    cases hm
    obtain ⟨b, eb, hb⟩ := OVar.finishNoOverflow_rep hr hn hst (hc (by simp))
    exact ⟨rfl, b, by simp only [eb, bind_ok, pure_ok], hb⟩

theorem OVar.round_rep [Build] {o : OVar} {v v' : Var} {s : Int} (hd : Digits v.digits) (hn : v.sign ≠ .nan) (hsm : Small v) (hr : Rep o v)
    (h : Var.round v s = .ok v') : ∃ o', o.round s = .ok o' ∧ Rep o' v' := by
  obtain ⟨u, eu, -⟩ := roundCommon_spec v (clampScale s) hd hn
    ⟨by have := hsm.lo; omega, by have := hsm.hi; omega⟩ (by have := clampScale_bounds s; omega)
  obtain ⟨o', e', hr'⟩ := OVar.roundCommon_rep hd hr eu
  unfold Var.round at h
  rw [dassert_ok hn] at h
  simp only [bind_ok, eu, pure_ok] at h
  unfold OVar.round
  rw [dassert_ok (by rw [hr.sign]; exact hn)]
  simp only [bind_ok, e', pure_ok]
  refine ⟨_, rfl, ?_⟩
  cases h
  split
  · exact ⟨hr'.ndigits, hr'.weight, rfl, hr'.sign, hr'.live, hr'.room⟩
  · exact hr'

theorem OVar.trunc_rep [Build] {o : OVar} {v v' : Var} {s : Int} (hd : Digits v.digits) (hn : v.sign ≠ .nan) (hsm : Small v) (hr : Rep o v)
    (h : Var.trunc v s = .ok v') : ∃ o', o.trunc s = .ok o' ∧ Rep o' v' := by
  obtain ⟨u, eu, -⟩ := truncCommon_spec v (clampScale s) hd hn
    ⟨by have := hsm.lo; omega, by have := hsm.hi; omega⟩ (by have := clampScale_bounds s; omega)
  obtain ⟨o', e', hr'⟩ := OVar.truncCommon_rep hr eu
  unfold Var.trunc at h
  rw [dassert_ok hn] at h
  simp only [bind_ok, eu, pure_ok] at h
  unfold OVar.trunc
  rw [dassert_ok (by rw [hr.sign]; exact hn)]
  simp only [bind_ok, e', pure_ok]
  refine ⟨_, rfl, ?_⟩
  cases h
  split
  · exact ⟨hr'.ndigits, hr'.weight, rfl, hr'.sign, hr'.live, hr'.room⟩
  · exact hr'

namespace Buf

/-- The opening of every in-place operation on a number. -/
theorem open_holds [Build] {b : Buf} {a : Bin} {x : ℚ} {s : Int} (ho : Owned b a) (ha : Holds a x s) :
    ∃ v o, Canonical v ∧ value v = x ∧ v.dscale = s ∧ a = Bin.encode v ∧ b.asNumeric = .ok a ∧ Num.asBinary a = .ok () ∧
      a.isNan = false ∧ b.intoVar = .ok o ∧ Rep o v := by
  obtain ⟨v, hv, rfl, hx, hs⟩ := ha
  obtain ⟨o, eo, hr⟩ := ho.intoVar hv.storable
  exact ⟨v, o, hv, hx, hs, rfl, ho.asNumeric, ho.asBinary, Bin.encode_not_nan hv.storable, eo, hr⟩

theorem negateMut_spec [Build] {b : Buf} {a : Bin} {x : ℚ} {s : Int} (ho : Owned b a) (ha : Holds a x s) :
    ∃ b' a', b.negateMut = .ok b' ∧ Owned b' a' ∧ Holds a' (-x) s := by
  obtain ⟨v, o, hv, hx, hs, rfl, e1, e2, e3, eo, hr⟩ := open_holds ho ha
  obtain ⟨hc, hcv, hcd⟩ := negate_canonical hv
  have hneg : ∃ o', o.negate = .ok o' ∧ Rep o' (Var.negate v) := by
    unfold OVar.negate
    rw [dassert_ok (by rw [hr.sign]; exact hv.not_nan)]
    simp only [bind_ok, pure_ok]
    refine ⟨_, rfl, ?_⟩
    unfold Var.negate
    rw [hr.sign, hr.ndigits]
    simp only [ndigits]
    by_cases hp : 0 < v.digits.length
    · rw [if_pos hp, if_pos (by omega)]
      cases hsg : v.sign with
      | pos => exact ⟨rfl, hr.weight, hr.dscale, rfl, hr.live, hr.room⟩
      | neg => exact ⟨rfl, hr.weight, hr.dscale, rfl, hr.live, hr.room⟩
      | nan => exact absurd hsg hv.not_nan
    · rw [if_neg hp, if_neg (by omega)]; exact hr
  obtain ⟨o', eo', hr'⟩ := hneg
  obtain ⟨b', eb, hb⟩ := OVar.intoBuf_rep hc.storable hr'
  refine ⟨b', _, ?_, hb, _, hc, rfl, by rw [hcv, hx], by rw [hcd, hs]⟩
  unfold Buf.negateMut
  simp only [e1, bind_ok, e2, e3, eo, eo', eb]
  rfl

theorem absMut_spec [Build] {b : Buf} {a : Bin} {x : ℚ} {s : Int} (ho : Owned b a) (ha : Holds a x s) :
    ∃ b' a', b.absMut = .ok b' ∧ Owned b' a' ∧ Holds a' |x| s := by
  have hneg := (Num.isNegative_spec ha).1
  obtain ⟨v, o, hv, hx, hs, rfl, e1, e2, e3, eo, hr⟩ := open_holds ho ha
  unfold Num.isNegative at hneg
  rw [e2] at hneg
  simp only [bind_ok, pure_ok, Except.ok.injEq] at hneg
  obtain ⟨hc, hcv, hcd⟩ := abs_canonical hv
  unfold Buf.absMut
  simp only [e1, bind_ok, e2, e3, hneg]
  by_cases h0 : x < 0
  · have habs : ∃ o', o.abs = .ok o' ∧ Rep o' (Var.abs v) := by
      unfold OVar.abs
      rw [dassert_ok (by rw [hr.sign]; exact hv.not_nan)]
      simp only [bind_ok, pure_ok]
      refine ⟨_, rfl, ?_⟩
      unfold Var.abs
      rw [hr.sign]
      split
      · exact ⟨hr.ndigits, hr.weight, hr.dscale, rfl, hr.live, hr.room⟩
      · exact hr
    obtain ⟨o', eo', hr'⟩ := habs
    obtain ⟨b', eb, hb⟩ := OVar.intoBuf_rep hc.storable hr'
    refine ⟨b', _, ?_, hb, _, hc, rfl, by rw [hcv, hx], by rw [hcd, hs]⟩
    simp only [decide_eq_true h0, eo, bind_ok, eo', eb]
    rfl
  · refine ⟨b, _, ?_, ho, ?_⟩
    · simp [h0, pure_ok]
    · rw [abs_of_nonneg (not_lt.1 h0)]; exact ha

theorem roundMut_spec [Build] {b : Buf} {a : Bin} {x : ℚ} {s : Int} (ho : Owned b a) (ha : Holds a x s) (n : Int) :
    let k := max (-1000) (min 1000 n)
    (|roundHalfAway x k| < limit →
      ∃ b' a', b.roundMut n = .ok (some b') ∧ Owned b' a' ∧ Holds a' (roundHalfAway x k) (max k 0)) ∧
    (limit ≤ |roundHalfAway x k| → b.roundMut n = .ok none) := by
  intro k
  obtain ⟨v, o, hv, rfl, hs, rfl, e1, e2, e3, eo, hr⟩ := open_holds ho ha
  obtain ⟨w, ew, wd, wn, ws, wv, ww, ww2, wl⟩ := round_spec hv n
  rw [Num.clampScale_eq] at ws wv
  have hm := makeResult_loose wd wn ws wv (by omega) (by omega) (hasScale_round _ _) ww ww2 wl
  obtain ⟨o', eo', hr'⟩ := OVar.round_rep hv.digits hv.not_nan hv.small hr ew
  unfold Buf.roundMut
  simp only [e1, bind_ok, e2, e3, eo, eo']
  constructor
  · intro hl
    obtain ⟨em, hc⟩ := hm.1 hl
    rcases OVar.finish_rep hr' wn (by omega) em (fun _ => hc) with ⟨h, _⟩ | ⟨_, b', eb, hb⟩
    · cases h
    · exact ⟨b', _, eb, hb, _, hc, rfl, by rw [strip_value, wv], by rw [strip_dscale, ws]⟩
  · intro hl
    rcases OVar.finish_rep hr' wn (by omega) (hm.2 hl) (fun h => absurd rfl h) with ⟨_, h⟩ | ⟨h, _⟩
    · exact h
    · cases h

theorem truncMut_spec [Build] {b : Buf} {a : Bin} {x : ℚ} {s : Int} (ho : Owned b a) (ha : Holds a x s) (n : Int) :
    let k := max (-1000) (min 1000 n)
    ∃ b' a', b.truncMut n = .ok b' ∧ Owned b' a' ∧ Holds a' (truncTo x k) (max k 0) := by
  intro k
  obtain ⟨v, o, hv, rfl, hs, rfl, e1, e2, e3, eo, hr⟩ := open_holds ho ha
  obtain ⟨w, ew, wd, wn, ws, wv, wst⟩ := trunc_spec hv n
  rw [Num.clampScale_eq] at ws wv
  have hok : AddOK (Var.strip w) (max k 0) (truncTo (value v) k) :=
    ⟨strip_digits wd, strip_sign wn, strip_stripped _, by rw [strip_dscale, ws], by rw [strip_value, wv]⟩
  have hc := hok.canonical (by omega) (by omega) (hasScale_trunc _ _) (lt_of_le_of_lt (abs_truncTo_le _ _) hv.abs_lt)
  obtain ⟨o', eo', hr'⟩ := OVar.trunc_rep hv.digits hv.not_nan hv.small hr ew
  obtain ⟨b', eb, hb⟩ := OVar.finishNoOverflow_rep hr' wn wst hc
  refine ⟨b', _, ?_, hb, _, hc, rfl, by rw [strip_value, wv], by rw [strip_dscale, ws]⟩
  unfold Buf.truncMut
  simp only [e1, bind_ok, e2, e3, eo, eo', eb]
  rfl

theorem applyTypmod_spec [Build] {b : Buf} {a : Bin} {x : ℚ} {s : Int} (ho : Owned b a) (ha : Holds a x s)
    {p k : BitVec 32} {t : Typmod} (ht : Typmod.new p k = .ok (some t)) :
    ∃ o, b.applyTypmod t = .ok (o, decide ((10:ℚ) ^ (p.toInt - k.toInt) ≤ |roundHalfAway x k.toInt|)) ∧
      (|roundHalfAway x k.toInt| < limit → ∃ b' a', o = some b' ∧ Owned b' a' ∧ Holds a' (roundHalfAway x k.toInt) k.toInt) ∧
      (limit ≤ |roundHalfAway x k.toInt| → o = none) := by
  obtain ⟨⟨h1, h2, h3, h4⟩, _⟩ := Typmod.new_some ht
  obtain ⟨ex, et⟩ := Typmod.new_facts ht
  obtain ⟨v, ov, hv, rfl, hs, rfl, e1, e2, e3, eo, hr⟩ := open_holds ho ha
  obtain ⟨u, eu, ud, un, us, uv, uw, uw2, uw3, ul⟩ := roundCommon_canonical hv k.toInt (by omega)
  have hm := makeResult_loose ud un us uv h3 (by omega) (roundHalfAway_hasScale _ _) uw uw2 (by omega)
  obtain ⟨o', eo', hr'⟩ := OVar.roundCommon_rep hv.digits hr eu
  have hfl := typmod_flag ud u.weight (p.toInt - k.toInt)
  rw [← abs_value u ud, uv] at hfl
  have hva : OVar.applyTypmod ov t = .ok (o', decide ((10:ℚ) ^ (p.toInt - k.toInt) ≤ |roundHalfAway (value v) k.toInt|)) := by
    unfold OVar.applyTypmod
    have hn : ¬ (Typmod.value t).toInt < 4 := by unfold Typmod.value; omega
    rw [if_neg hn]
    simp only [ex, bind_ok]
    rw [i32_ok (by omega) (by omega)]
    simp only [bind_ok, eo', hr'.weight]
    rw [fits_ok (by fits_tac), bind_ok]
    rw [i32_ok (by simp only [DEC_DIGITS]; omega) (by simp only [DEC_DIGITS]; omega)]
    simp only [bind_ok, pure_ok, hr'.ndigits]
    rw [fits_ok (by simp only [DEC_DIGITS]; fits_tac), bind_ok]
    rw [← hr'.ndigits]
    have hdig := hr'.live.digits
    rw [← hr'.ndigits] at hdig
    by_cases hc : (u.weight + 1) * DEC_DIGITS > p.toInt - k.toInt
    · rw [if_pos hc, hdig]
      simp only [bind_ok]
      rw [decide_eq_true hc, Bool.true_and] at hfl
      congr 2
      rw [Bool.eq_iff_iff, hfl, decide_eq_true_eq]
    · rw [if_neg hc]
      rw [decide_eq_false hc, Bool.false_and] at hfl
      congr 2
      rw [eq_comm, decide_eq_false_iff_not, ← hfl]
      simp
  unfold Buf.applyTypmod
  simp only [eo, bind_ok, hva]
  rcases lt_or_ge |roundHalfAway (value v) k.toInt| limit with hl | hl
  · obtain ⟨em, hc⟩ := hm.1 hl
    rcases OVar.finish_rep hr' un (by omega) em (fun _ => hc) with ⟨h, _⟩ | ⟨_, b', eb, hb⟩
    · cases h
    · refine ⟨some b', by simp only [eb, bind_ok, pure_ok], fun _ => ⟨b', _, rfl, hb, _, hc, rfl, by rw [strip_value, uv],
        by rw [strip_dscale, us]⟩, fun h => absurd hl (not_lt.2 h)⟩
  · refine ⟨none, ?_, fun h => absurd h (not_lt.2 hl), fun _ => rfl⟩
    have : (10:ℚ) ^ (p.toInt - k.toInt) ≤ |roundHalfAway (value v) k.toInt| := by
      refine le_trans ?_ hl
      unfold limit
      rw [← zpow_natCast]
      exact T_le_iff'.2 (by omega)
    rcases OVar.finish_rep hr' un (by omega) (hm.2 hl) (fun h => absurd rfl h) with ⟨_, h⟩ | ⟨h, _⟩
    · simp only [h, bind_ok, decide_eq_true this, pure_ok]
    · cases h

/-- A freshly made buffer. -/
theorem ofVar_spec [Build] {v : Var} (hv : Bin.Storable v) : ∃ b, Buf.ofVar v = .ok b ∧ Owned b (Bin.encode v) := by
  obtain ⟨o, eo, hr⟩ := Rep.ofVar v
  obtain ⟨b, eb, hb⟩ := OVar.intoBuf_rep hv hr
  exact ⟨b, by unfold Buf.ofVar; simp only [eo, bind_ok, eb], hb⟩

theorem nan_spec [Build] : ∃ b, Buf.nan = .ok b ∧ Owned b Bin.nan := by
  obtain ⟨c, ec⟩ : ∃ c, Buf.nan = .ok ⟨c, 4⟩ ∧ c = [none, none] ++ ((Data.wordCells (Bin.nan).vlLen ++ (Bin.nan).header.toInt ::
      (Bin.nan).rest.map BitVec.toInt).map some ++ []) := by
    refine ⟨_, ?_, rfl⟩
    unfold Buf.nan Buf.ofVar OVar.ofVar
    rw [show Var.nan.digits = [] from rfl, ofDigits_ok]
    unfold OVar.intoBuf Data.setHeader
    simp only [bind_ok, pure_ok]
    rw [if_pos ⟨rfl, rfl⟩, dassert_ok (show Var.nan.weight = 0 from rfl), dassert_ok (show Var.nan.dscale = 0 from rfl)]
    simp only [bind_ok]
    rw [dassert_ok (by decide), if_pos (by rfl), if_neg (by omega)]
    have hw := writeCells_append (Data.wordCells (Bin.nan).vlLen ++ [(Bin.nan).header.toInt]) [none, none]
      [none, none, none] [] (by simp [Data.wordCells])
    simp only [bind_ok]
    have : (List.replicate 5 none ++ (List.map some ([] : List Int) ++ [])) = ([none, none] ++ ([none, none, none] ++ []) : Cells) := rfl
    rw [this]
    have h2 : (writeCells ([none, none] ++ ([none, none, none] ++ [])) (5 - 3)
      (Data.wordCells (Bin.encodeLen (6#32 + BitVec.ofNat 32 ([] : List Int).length * 2#32)) ++
        [(Bin.shortHeader (BitVec.ofInt 16 Var.nan.weight) (BitVec.ofInt 16 Var.nan.dscale)
          (Bin.signWord Var.nan.sign)).toInt])) = _ := hw
    rw [h2]
    simp only [bind_ok]
    rw [dassert_ok (by simp [Data.wordCells])]
    simp [Bin.nan]
  refine ⟨_, ec.1, ⟨[none, none], [], ec.2, rfl, ?_⟩, nan_isNaN.len⟩
  show 8 ≤ 4 + Bin.headerSize Bin.nan
  have : (Bin.nan).headerIsShort = true := by show ((Bin.NAN &&& 0x8000#16) != 0#16) = true; decide
  unfold Bin.headerSize
  rw [this]
  simp

/-- NaN buffers are left alone. -/
theorem mut_nan [Build] {b : Buf} {a : Bin} (ho : Owned b a) (ha : IsNaN a) (n : Int) :
    b.negateMut = .ok b ∧ b.absMut = .ok b ∧ b.roundMut n = .ok (some b) ∧ b.truncMut n = .ok b := by
  have e1 := ho.asNumeric
  have e2 := ho.asBinary
  have e3 := ha.facts.2.1
  refine ⟨?_, ?_, ?_, ?_⟩
  · unfold Buf.negateMut; simp only [e1, bind_ok, e2, e3, if_true, pure_ok]
  · unfold Buf.absMut; simp only [e1, bind_ok, e2, e3, if_true, pure_ok]
  · unfold Buf.roundMut; simp only [e1, bind_ok, e2, e3, if_true, pure_ok]
  · unfold Buf.truncMut; simp only [e1, bind_ok, e2, e3, if_true, pure_ok]

end Buf
end PgNumeric
