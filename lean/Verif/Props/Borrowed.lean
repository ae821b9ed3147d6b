import Verif.Proofs.Borrowed
/-!
# C78: borrowed numbers
-/
namespace PgNumeric.Props
open PgNumeric Spec Untrusted Borrowed

/-- C78: the contract of `Borrow<Numeric> for NumericBuf`. Bytes that can be copied into an owned number compare, order and hash, borrowed, as their owned copies
do: so a map with owned keys finds its entries by borrowed keys. -/
theorem C78_borrow [Build] {bs cs : List (BitVec 8)} {a b : Bin} (hn : bs.length < 4294967288) (hm : cs.length < 4294967288)
    (ha : Untrusted.deserialize bs = .ok a) (hb : Untrusted.deserialize cs = .ok b) :
    Borrowed.cmp bs cs = Untrusted.cmp a b ∧ Borrowed.hash bs = Num.hash a := by
  obtain ⟨x, x1, x2, x3, -⟩ := owned_header hn ha
  obtain ⟨y, y1, y2, y3, -⟩ := owned_header hm hb
  obtain ⟨p1, -⟩ := untrusted_facts hn ha
  obtain ⟨q1, -⟩ := untrusted_facts hm hb
  constructor
  · unfold Borrowed.cmp Untrusted.cmp
    simp only [x1, y1, x2, y2, x3, y3, p1, q1, bind_ok, owned_var hn ha, owned_var hm hb]
  · unfold Borrowed.hash Num.hash
    rw [owned_var hn ha]

/-- C78: every query and every result that is read off borrowed bytes is that of the owned copy. -/
theorem C78_queries [Build] {bs : List (BitVec 8)} {a : Bin} (hn : bs.length < 4294967288) (h : Untrusted.deserialize bs = .ok a) :
    Borrowed.isNan bs = Num.isNan a ∧ Borrowed.isNegative bs = Num.isNegative a ∧ Borrowed.isPositive bs = Num.isPositive a ∧ Borrowed.scale bs = Num.scale a ∧
    Borrowed.negate bs = Num.negate a ∧ Borrowed.abs bs = Num.abs a ∧ Borrowed.display bs = Untrusted.display a := by
  obtain ⟨x, x1, x2, x3, x4, x5, x6⟩ := owned_header hn h
  obtain ⟨p1, -⟩ := untrusted_facts hn h
  have hv := owned_var hn h
  refine ⟨?_, ?_, ?_, ?_, ?_, ?_, ?_⟩
  · unfold Borrowed.isNan Num.isNan; simp only [x1, x2, x3, p1, bind_ok]
  · unfold Borrowed.isNegative Num.isNegative; simp only [x1, x2, x4, p1, bind_ok]
  · unfold Borrowed.isPositive Num.isPositive; simp only [x1, x2, x5, p1, bind_ok]
  · unfold Borrowed.scale Num.scale
    simp only [x1, x2, x3, p1, bind_ok]
    cases hx : a.isNan with
    | true => rfl
    | false => simp only [Bool.false_eq_true, if_false, x6 hx]
  · unfold Borrowed.negate Num.negate; simp only [x1, x2, x3, p1, bind_ok, hv]
  · unfold Borrowed.abs Num.abs; simp only [x1, x2, x3, p1, bind_ok, hv]
  · unfold Borrowed.display Untrusted.display; simp only [p1, bind_ok, hv]

open Classical in
/-- C78: what the queries answer, from the bytes: NaN is neither negative nor positive and has no scale; every other number is one of the two. -/
theorem C78_answers [Build] {bs : List (BitVec 8)} (hc : Covered bs) (hd : Build.debug = true → declared bs = bs.length) :
    Borrowed.isNan bs = .ok (decide (kindAt bs = 3)) ∧ Borrowed.isNegative bs = .ok (decide (kindAt bs ≠ 3 ∧ negAt bs)) ∧
    Borrowed.isPositive bs = .ok (decide (kindAt bs ≠ 3 ∧ ¬ negAt bs)) ∧ Borrowed.scale bs = .ok (if kindAt bs = 3 then none else some (scaleAt bs)) := by
  obtain ⟨b, eb, hb⟩ := header_ok hc.1
  obtain ⟨p1, p2, p3, p4⟩ := header_says hb
  have h1 := Borrowed.asBinary_ok hc.1 hd
  refine ⟨?_, ?_, ?_, ?_⟩
  · unfold Borrowed.isNan; rw [h1, bind_ok, eb, bind_ok, p1]; rfl
  · unfold Borrowed.isNegative; rw [h1, bind_ok, eb, bind_ok, p2]; rfl
  · unfold Borrowed.isPositive; rw [h1, bind_ok, eb, bind_ok, p3]; rfl
  · unfold Borrowed.scale
    rw [h1, bind_ok, eb, bind_ok, p1]
    by_cases h3 : kindAt bs = 3
    · simp [h3]
    · simp [h3, p4 h3]

/-- C78: borrowing text is refused, borrowing bytes never is, and the borrowed number is those bytes, without a copy. -/
theorem C78_no_copy (t : Str) (bs : List (BitVec 8)) :
    deserializeRef (.inl t) = none ∧ ∃ r, deserializeRef (.inr bs) = some r ∧ Borrowed.asBytes r = bs := ⟨rfl, bs, rfl, rfl⟩

/-- C78: the bytes of a number (`as_bytes`), borrowed again, are that number, with every answer. -/
theorem C78_again [Build] {bs : List (BitVec 8)} {a : Bin} (hn : bs.length < 4294967288) (h : Untrusted.deserialize bs = .ok a) (hl : a.asBytes.length < 4294967288) :
    Borrowed.cmp a.asBytes bs = .ok .eq ∧ Borrowed.hash a.asBytes = Borrowed.hash bs ∧ Borrowed.display a.asBytes = Borrowed.display bs := by
  have h2 := C74_again hn h
  obtain ⟨e1, e2⟩ := C78_borrow hl hn h2 h
  obtain ⟨-, e3⟩ := C78_borrow hn hn h h
  rw [e1, e2, e3, (C78_queries hl h2).2.2.2.2.2.2, (C78_queries hn h).2.2.2.2.2.2]
  exact ⟨C75_self hn h, rfl, rfl⟩

open Classical in
/-- C78: the owned copy gives these answers too. -/
theorem C78_owned_answers [Build] {bs : List (BitVec 8)} {a : Bin} (hn : bs.length < 4294967288) (h : Untrusted.deserialize bs = .ok a) :
    Num.isNan a = .ok (decide (kindAt bs = 3)) ∧ Num.isNegative a = .ok (decide (kindAt bs ≠ 3 ∧ negAt bs)) ∧
    Num.isPositive a = .ok (decide (kindAt bs ≠ 3 ∧ ¬ negAt bs)) ∧ Num.scale a = .ok (if kindAt bs = 3 then none else some (scaleAt bs)) := by
  obtain ⟨hc, hd⟩ := untrusted_source hn h
  obtain ⟨p1, p2, p3, p4, -⟩ := C78_queries hn h
  rw [← p1, ← p2, ← p3, ← p4]
  exact C78_answers hc hd

open Classical in
/-- C78: the absolute value drops the sign and keeps everything else, whatever the digits are. -/
theorem C78_abs [Build] {bs : List (BitVec 8)} {a : Bin} (hn : bs.length < 4294967288) (h : Untrusted.deserialize bs = .ok a) :
    ∃ r, Borrowed.abs bs = .ok r ∧ Complete r.asBytes ∧ (kindAt bs = 3 → r = Bin.nan) ∧
      (kindAt bs ≠ 3 → kindAt r.asBytes ≠ 3 ∧ ¬ negAt r.asBytes ∧ scaleAt r.asBytes = scaleAt bs ∧ weightAt r.asBytes = weightAt bs ∧ digitsAt r.asBytes = digitsAt bs) := by
  rw [(C78_queries hn h).2.2.2.2.2.1]
  obtain ⟨c1, -, c3, -⟩ := C74_content hn h
  obtain ⟨p1, p2⟩ := untrusted_facts hn h
  unfold Num.abs
  rw [p1, bind_ok]
  rcases p2 with ⟨h3, hx⟩ | ⟨h3, hx, hst, hv⟩
  · rw [hx, if_pos rfl, Num.nan_ok]
    obtain rfl := c3 h3
    exact ⟨_, rfl, c1, fun _ => rfl, fun hh => absurd h3 hh⟩
  · have hab : (varAt bs).abs = { varAt bs with sign := .pos } := by
      have := hst.not_nan
      unfold Var.abs
      cases hs : (varAt bs).sign with
      | pos => simp [← hs]
      | neg => simp
      | nan => exact absurd hs this
    have hst' : Storable16 { varAt bs with sign := .pos } :=
      ⟨by simp, hst.digits, hst.weight_ge, hst.weight_le, hst.dscale_nonneg, hst.dscale_le, hst.length, hst.length_long⟩
    rw [hx, if_neg (by simp), hv, bind_ok, hab, Num.intoBuf_ok (by simp)]
    obtain ⟨e1, e2, e3, e4, e5, e6⟩ := encode_says hst'
    exact ⟨_, rfl, e1, fun hh => absurd hh h3, fun _ => ⟨e2, by simp [e3], Int.natCast_inj.1 e5, e4, e6⟩⟩

/-- A length word that declares 16 bytes, and 6 bytes. -/
def headOnly : List (BitVec 8) := [0x40#8, 0#8, 0#8, 0#8, 0x00#8, 0x80#8]

/-- C78 (a defect): the queries of a borrowed number look at its header only. So in a release build they answer for bytes whose digits are missing, and then
comparing and printing read behind the end of the bytes; a debug build stops at the first query. -/
theorem C78_head_only : @Borrowed.isNan (rel false) headOnly = .ok false ∧ @Borrowed.scale (rel false) headOnly = .ok (some 0) ∧
    @Borrowed.cmp (rel false) headOnly headOnly = .error .oob ∧ @Borrowed.display (rel false) headOnly = .error .oob ∧
    @Borrowed.isNan (dbg false) headOnly = .error .assert := ⟨rfl, rfl, rfl, rfl, rfl⟩

/-- The hypotheses are met with bytes behind the declared end (a release build): the owned copy drops them, the borrowed number keeps them. -/
example : ∃ a, @Untrusted.deserialize (rel false) (digitBytes1 5#8 0#8 ++ [1#8, 2#8, 3#8]) = .ok a ∧ a.asBytes = digitBytes1 5#8 0#8 ∧
    Borrowed.asBytes (digitBytes1 5#8 0#8 ++ [1#8, 2#8, 3#8]) ≠ a.asBytes := ⟨_, rfl, rfl, by decide⟩

end PgNumeric.Props
