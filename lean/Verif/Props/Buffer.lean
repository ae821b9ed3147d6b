import Verif.Proofs.Data2
import Verif.Props.Typmod
/-!
# In-place operations on owned buffers (C37)

`Owned b a`: the allocation of the buffer `b` holds the bytes of the numeric `a` (`Verif/SpecBuf.lean`). In the
model every access outside the allocation, and every read of a cell that was never written, is the fault `oob`;
a result `.ok _` therefore says that there was none.
-/
namespace PgNumeric.Props
open PgNumeric Spec

/-- One in-place operation on a buffer; `none` is a buffer left with the null pointer. -/
def stepBuf [Build] (op : MutOp) (b : Buf) : M (Option Buf) :=
  match op with
  | .negate => do let b ← b.negateMut; pure (some b)
  | .abs => do let b ← b.absMut; pure (some b)
  | .round n => b.roundMut n
  | .trunc n => do let b ← b.truncMut n; pure (some b)
  | .typmod p s => do
    match ← Typmod.new p s with
    | none => pure (some b)
    | some t => do
      let (r, _) ← b.applyTypmod t
      pure r

/-- A sequence of in-place operations on one buffer, up to the first that leaves the null pointer. -/
def runBuf [Build] : List MutOp → Buf → M (Option Buf)
  | [], b => pure (some b)
  | op :: ops, b => do
    match ← stepBuf op b with
    | none => pure none
    | some b => runBuf ops b

/-- C37: a buffer that holds `a` reads back as `a`. -/
theorem C37_read [Build] {b : Buf} {a : Bin} (h : Owned b a) : b.asNumeric = .ok a := h.asNumeric

/-- C37: every number that fits has a fresh buffer that holds it. -/
theorem C37_fresh [Build] {x : ℚ} {s : Int} (hs : HasScale x s) (h0 : 0 ≤ s) (h1 : s ≤ 16383) (hl : |x| < limit) :
    ∃ v b a, value v = x ∧ v.dscale = s ∧ Buf.ofVar v = .ok b ∧ Owned b a ∧ Holds a x s := by
  obtain ⟨v, hc, hv, hd⟩ := exists_canonical hs h0 h1 hl
  obtain ⟨b, eb, hb⟩ := Buf.ofVar_spec hc.storable
  exact ⟨v, b, _, hv, hd, eb, hb, v, hc, rfl, hv, hd⟩

/-- C37: `NumericBuf::nan()` holds NaN. -/
theorem C37_fresh_nan [Build] : ∃ b, Buf.nan = .ok b ∧ Owned b Bin.nan := Buf.nan_spec

/-- C37: `negate_mut` leaves the bytes that `negate` returns. -/
theorem C37_negate_mut [Build] {b : Buf} {a : Bin} {x : ℚ} {s : Int} (ho : Owned b a) (ha : Holds a x s) :
    ∃ b' a', b.negateMut = .ok b' ∧ Num.negate a = .ok a' ∧ Owned b' a' := by
  obtain ⟨b', a', e, ho', ha'⟩ := Buf.negateMut_spec ho ha
  obtain ⟨r, er, hr⟩ := Num.negate_ok ha
  exact ⟨b', r, e, er, by rw [hr.unique ha']; exact ho'⟩

/-- C37: `abs_mut` leaves the bytes that `abs` returns. -/
theorem C37_abs_mut [Build] {b : Buf} {a : Bin} {x : ℚ} {s : Int} (ho : Owned b a) (ha : Holds a x s) :
    ∃ b' a', b.absMut = .ok b' ∧ Num.abs a = .ok a' ∧ Owned b' a' := by
  obtain ⟨b', a', e, ho', ha'⟩ := Buf.absMut_spec ho ha
  obtain ⟨r, er, hr⟩ := Num.abs_ok ha
  exact ⟨b', r, e, er, by rw [hr.unique ha']; exact ho'⟩

/-- C37: `round_mut` leaves the bytes that `round` returns; when `round` panics so does `round_mut`, leaving the
null pointer in the receiver. -/
theorem C37_round_mut [Build] {b : Buf} {a : Bin} {x : ℚ} {s : Int} (ho : Owned b a) (ha : Holds a x s) (n : Int) :
    (∃ b' a', b.roundMut n = .ok (some b') ∧ Num.round a n = .ok a' ∧ Owned b' a') ∨
    (b.roundMut n = .ok none ∧ Num.round a n = .error (.panic VALUE_OVERFLOW_MSG)) := by
  have h1 := Buf.roundMut_spec ho ha n
  have h2 := Num.round_ok ha n
  rcases lt_or_ge |roundHalfAway x (max (-1000) (min 1000 n))| limit with hl | hl
  · obtain ⟨b', a', e, ho', ha'⟩ := h1.1 hl
    obtain ⟨r, er, hr⟩ := h2.1 hl
    exact .inl ⟨b', r, e, er, by rw [hr.unique ha']; exact ho'⟩
  · exact .inr ⟨h1.2 hl, h2.2 hl⟩

/-- C37: `trunc_mut` leaves the bytes that `trunc` returns. -/
theorem C37_trunc_mut [Build] {b : Buf} {a : Bin} {x : ℚ} {s : Int} (ho : Owned b a) (ha : Holds a x s) (n : Int) :
    ∃ b' a', b.truncMut n = .ok b' ∧ Num.trunc a n = .ok a' ∧ Owned b' a' := by
  obtain ⟨b', a', e, ho', ha'⟩ := Buf.truncMut_spec ho ha n
  obtain ⟨r, er, hr⟩ := Num.trunc_ok ha n
  exact ⟨b', r, e, er, by rw [hr.unique ha']; exact ho'⟩

/-- C37: `apply_typmod` on a buffer leaves the bytes, and returns the flag, of the byte-level function. -/
theorem C37_apply_typmod [Build] {b : Buf} {a : Bin} {x : ℚ} {s : Int} (ho : Owned b a) (ha : Holds a x s)
    {p k : BitVec 32} {t : Typmod} (ht : Typmod.new p k = .ok (some t)) :
    ∃ flag, (∃ b' a', b.applyTypmod t = .ok (some b', flag) ∧ Num.applyTypmod a t = .ok (some a', flag) ∧ Owned b' a') ∨
      (b.applyTypmod t = .ok (none, flag) ∧ Num.applyTypmod a t = .ok (none, flag)) := by
  obtain ⟨o1, e1, s1, n1⟩ := Buf.applyTypmod_spec ho ha ht
  obtain ⟨o2, e2, s2, n2⟩ := Num.applyTypmod_spec ha ht
  refine ⟨decide ((10:ℚ) ^ (p.toInt - k.toInt) ≤ |roundHalfAway x k.toInt|), ?_⟩
  rcases lt_or_ge |roundHalfAway x k.toInt| limit with hl | hl
  · obtain ⟨b', a', rfl, hb, ha'⟩ := s1 hl
    obtain ⟨r, rfl, hr⟩ := s2 hl
    exact .inl ⟨b', r, e1, e2, by rw [hr.unique ha']; exact hb⟩
  · rw [n1 hl] at e1
    rw [n2 hl] at e2
    exact .inr ⟨e1, e2⟩

/-- C37: the in-place operations leave a NaN buffer as it is. -/
theorem C37_nan [Build] {b : Buf} {a : Bin} (ho : Owned b a) (ha : IsNaN a) (n : Int) :
    b.negateMut = .ok b ∧ b.absMut = .ok b ∧ b.roundMut n = .ok (some b) ∧ b.truncMut n = .ok b :=
  Buf.mut_nan ho ha n

theorem step_spec [Build] {b : Buf} {a : Bin} {x : ℚ} {s : Int} (ho : Owned b a) (ha : Holds a x s) (op : MutOp)
    (hop : op.Ok) :
    (op.exact (x, s) = none ∧ stepBuf op b = .ok none) ∨
    (∃ y t b' a', op.exact (x, s) = some (y, t) ∧ stepBuf op b = .ok (some b') ∧ Owned b' a' ∧ Holds a' y t) := by
  cases op with
  | negate =>
    obtain ⟨b', a', e, ho', ha'⟩ := Buf.negateMut_spec ho ha
    exact .inr ⟨_, _, b', a', rfl, by simp only [stepBuf, e, bind_ok, pure_ok], ho', ha'⟩
  | abs =>
    obtain ⟨b', a', e, ho', ha'⟩ := Buf.absMut_spec ho ha
    exact .inr ⟨_, _, b', a', rfl, by simp only [stepBuf, e, bind_ok, pure_ok], ho', ha'⟩
  | trunc n =>
    obtain ⟨b', a', e, ho', ha'⟩ := Buf.truncMut_spec ho ha n
    exact .inr ⟨_, _, b', a', rfl, by simp only [stepBuf, e, bind_ok, pure_ok], ho', ha'⟩
  | round n =>
    have h1 := Buf.roundMut_spec ho ha n
    rcases lt_or_ge |roundHalfAway x (max (-1000) (min 1000 n))| limit with hl | hl
    · obtain ⟨b', a', e, ho', ha'⟩ := h1.1 hl
      exact .inr ⟨_, _, b', a', by simp only [MutOp.exact, if_pos hl], e, ho', ha'⟩
    · exact .inl ⟨by simp only [MutOp.exact, if_neg (not_lt.2 hl)], h1.2 hl⟩
  | typmod p k =>
    obtain ⟨t, ht⟩ := (C25_new_iff p k).1 hop
    obtain ⟨o, e, s1, n1⟩ := Buf.applyTypmod_spec ho ha ht
    rcases lt_or_ge |roundHalfAway x k.toInt| limit with hl | hl
    · obtain ⟨b', a', rfl, hb, ha'⟩ := s1 hl
      exact .inr ⟨_, _, b', a', by simp only [MutOp.exact, if_pos hl], by simp only [stepBuf, ht, e, bind_ok, pure_ok], hb, ha'⟩
    · rw [n1 hl] at e
      exact .inl ⟨by simp only [MutOp.exact, if_neg (not_lt.2 hl)], by simp only [stepBuf, ht, e, bind_ok, pure_ok]⟩

/-- C37: after any sequence of in-place operations on a buffer that holds a number, no access was outside the
allocation or of an uninitialised cell, and the buffer holds exactly the number (with the scale) that the
operations give on exact rationals, in the canonical bytes; it is left null exactly when some result on the way
did not fit. -/
theorem C37_history [Build] (ops : List MutOp) {b : Buf} {a : Bin} {x : ℚ} {s : Int} (ho : Owned b a)
    (ha : Holds a x s) (hops : ∀ op ∈ ops, op.Ok) :
    (exactRun ops (x, s) = none ∧ runBuf ops b = .ok none) ∨
    (∃ y t b' a', exactRun ops (x, s) = some (y, t) ∧ runBuf ops b = .ok (some b') ∧ b'.asNumeric = .ok a' ∧
      Owned b' a' ∧ Holds a' y t) := by
  induction ops generalizing b a x s with
  | nil => exact .inr ⟨x, s, b, a, rfl, rfl, ho.asNumeric, ho, ha⟩
  | cons op ops ih =>
    rcases step_spec ho ha op (hops op (by simp)) with ⟨h1, h2⟩ | ⟨y, t, b', a', h1, h2, ho', ha'⟩
    · exact .inl ⟨by simp only [exactRun, h1, Option.bind_none], by simp only [runBuf, h2, bind_ok, pure_ok]⟩
    · have := ih ho' ha' (fun o h => hops o (by simp [h]))
      simp only [exactRun, h1, Option.bind_some, runBuf, h2, bind_ok]
      exact this

/-- Non-vacuity: the buffer of `-9999.95` under negate, round to one place, round to tens, trunc. -/
example [Build] : ∃ b, ∃ b' a', Buf.ofVar ⟨0, 2, .neg, [9999, 9500]⟩ = .ok b ∧
    runBuf [.negate, .round 1, .round (-1), .typmod 10#32 3#32, .trunc 0] b = .ok (some b') ∧
    b'.asNumeric = .ok a' ∧ Holds a' 10000 0 := by
  have hc : Canonical ⟨0, 2, .neg, [9999, 9500]⟩ :=
    ⟨by simp, by intro d hd; simp at hd; rcases hd with rfl | rfl <;> norm_num, ⟨by simp, by simp, by simp⟩, by norm_num,
      by norm_num, by norm_num, ⟨-999995, by simp only [value, mag]; norm_num⟩⟩
  obtain ⟨b, eb, hb⟩ := Buf.ofVar_spec hc.storable
  have hv : value ⟨0, 2, .neg, [9999, 9500]⟩ = -999995 / 100 := by simp only [value, mag]; norm_num
  have hh := cast hc.holds hv rfl
  have r1 : roundHalfAway (999995 / 100) (max (-1000) (min 1000 1)) = 10000 := by
    have : ⌊(999995 / 100 : ℚ) * 10 + 1 / 2⌋ = 100000 := by rw [Int.floor_eq_iff]; norm_num
    rw [show max (-1000) (min 1000 1) = (1:Int) by norm_num]
    unfold roundHalfAway
    rw [if_neg (by norm_num)]
    norm_num at this ⊢
  have r2 : roundHalfAway 10000 (max (-1000) (min 1000 (-1))) = 10000 := by
    have : ⌊(10000 : ℚ) * (1 / 10) + 1 / 2⌋ = 1000 := by rw [Int.floor_eq_iff]; norm_num
    rw [show max (-1000) (min 1000 (-1)) = (-1:Int) by norm_num]
    unfold roundHalfAway
    rw [if_neg (by norm_num)]
    norm_num at this ⊢
  have r3 : roundHalfAway 10000 3 = 10000 := by
    have : ⌊(10000 : ℚ) * 1000 + 1 / 2⌋ = 10000000 := by rw [Int.floor_eq_iff]; norm_num
    unfold roundHalfAway
    rw [if_neg (by norm_num)]
    norm_num at this ⊢
  have r4 : truncTo 10000 0 = 10000 := by
    unfold truncTo; rw [if_neg (by norm_num)]
    have : ⌊(10000 : ℚ)⌋ = 10000 := by rw [Int.floor_eq_iff]; norm_num
    norm_num at this ⊢
  have hl : |(10000 : ℚ)| < limit := lt_limit (by norm_num)
  have run : exactRun [.negate, .round 1, .round (-1), .typmod 10#32 3#32, .trunc 0] (-999995 / 100, 2) = some (10000, 0) := by
    simp only [exactRun, MutOp.exact, Option.bind_some, show -(-999995 / 100 : ℚ) = 999995 / 100 by norm_num, r1, if_pos hl, r2,
      show (3#32).toInt = 3 by decide, r3, show max (-1000) (min 1000 0) = (0:Int) by norm_num, r4]
    norm_num
  rcases C37_history [.negate, .round 1, .round (-1), .typmod 10#32 3#32, .trunc 0] hb hh (by intro op hop; simp only [List.mem_cons, List.not_mem_nil, or_false] at hop; rcases hop with rfl | rfl | rfl | rfl | rfl <;> first | exact trivial | (show _ ∧ _; decide)) with
    ⟨h, -⟩ | ⟨y, t, b', a', h1, h2, h3, h4, h5⟩
  · rw [run] at h; cases h
  · rw [run] at h1
    cases h1
    exact ⟨b, b', a', eb, h2, h3, h5⟩

end PgNumeric.Props
