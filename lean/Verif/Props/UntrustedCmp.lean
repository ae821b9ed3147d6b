import Verif.Props.Untrusted
import Verif.Proofs.UntrustedCmp
/-!
# C75: comparing numbers from arbitrary bytes
-/
namespace PgNumeric.Props
open PgNumeric Spec Untrusted

/-- What is known of a number that came out of bytes. -/
theorem untrusted_facts [Build] {bs : List (BitVec 8)} {a : Bin} (hn : bs.length < 4294967288) (h : Untrusted.deserialize bs = .ok a) :
    Num.asBinary a = .ok () ∧ ((kindAt bs = 3 ∧ a.isNan = true) ∨
      (kindAt bs ≠ 3 ∧ a.isNan = false ∧ Storable16 (varAt bs) ∧ a.asVar = .ok (varAt bs))) := by
  obtain ⟨hc, hd⟩ := untrusted_source hn h
  rw [untrusted_covered hc hd] at h
  by_cases h3 : kindAt bs = 3
  · rw [if_pos h3] at h
    obtain rfl : Bin.nan = a := by simpa using h
    refine ⟨?_, .inl ⟨h3, Bin.nan_isNan⟩⟩
    unfold Num.asBinary
    have h6 : (Bin.decodeLen (Bin.encodeLen 6#32)).toNat = 6 := by
      rw [Bin.decode_encode_len (by decide)]; decide
    exact dassert_ok (by unfold Bin.len Bin.size Bin.nan; simp [h6])
  · rw [if_neg h3] at h
    obtain rfl : Bin.encode (varAt bs) = a := by simpa using h
    have hst := varAt_storable hc h3
    refine ⟨?_, .inr ⟨h3, ?_, hst, asVar_encode16 hst⟩⟩
    · unfold Num.asBinary
      exact dassert_ok (encode_len16 hst)
    · have := Bin.encode_not_nan hst.bare
      unfold Bin.isNan Bin.flagBits at this ⊢
      have e : (Bin.encode (varAt bs)).header = (Bin.encode { varAt bs with digits := [] }).header := by
        unfold Bin.encode
        simp only
        split <;> rfl
      rw [e]
      exact this

/-- C75: reading a number from any bytes and asking for its kind, copying it or taking its absolute value never panics and reads nothing outside it. -/
theorem C75_queries [Build] {bs : List (BitVec 8)} {a : Bin} (hn : bs.length < 4294967288) (h : Untrusted.deserialize bs = .ok a) :
    Num.isNan a = .ok (decide (kindAt bs = 3)) ∧ (∃ r, Num.isNegative a = .ok r) ∧ (∃ r, Num.isPositive a = .ok r) ∧ (∃ r, Num.scale a = .ok r) ∧
    Num.toOwned a = .ok a ∧ Num.clone a = .ok a ∧ (∃ r, Num.abs a = .ok r) := by
  obtain ⟨e1, e2⟩ := untrusted_facts hn h
  obtain ⟨hc, hd⟩ := untrusted_source hn h
  rw [untrusted_covered hc hd] at h
  refine ⟨?_, ⟨_, by unfold Num.isNegative; rw [e1]; rfl⟩, ⟨_, by unfold Num.isPositive; rw [e1]; rfl⟩, ⟨_, by unfold Num.scale; rw [e1]; rfl⟩, ?_⟩
  · unfold Num.isNan
    rw [e1, bind_ok, pure_ok]
    rcases e2 with ⟨h3, hx⟩ | ⟨h3, hx, -⟩ <;> rw [hx] <;> simp [h3]
  · rcases e2 with ⟨h3, hx⟩ | ⟨h3, hx, hst, hv⟩
    · rw [if_pos h3] at h
      obtain rfl : Bin.nan = a := by simpa using h
      have hnan : Var.nan.sign = .nan := rfl
      refine ⟨?_, ?_, ?_⟩
      · unfold Num.toOwned
        rw [Bin.asVar_nan, bind_ok, if_pos hnan, Num.nan_ok]
      · unfold Num.clone
        rw [Bin.asVar_nan, bind_ok]
        exact Num.nan_ok
      · unfold Num.abs
        rw [e1, bind_ok, if_pos hx, Num.nan_ok]
        exact ⟨_, rfl⟩
    · rw [if_neg h3] at h
      have h : Bin.encode (varAt bs) = a := by simpa using h
      refine ⟨?_, ?_, ?_⟩
      · unfold Num.toOwned
        rw [hv, bind_ok, if_neg hst.not_nan, Num.intoBuf_ok hst.not_nan, h]
      · unfold Num.clone
        rw [hv, bind_ok, Num.intoBuf_ok hst.not_nan, h]
      · have hab : (varAt bs).abs.sign ≠ .nan := by
          unfold Var.abs
          split
          · simp
          · exact hst.not_nan
        unfold Num.abs
        rw [e1, bind_ok, hx, if_neg (by simp), hv, bind_ok, Num.intoBuf_ok hab]
        exact ⟨_, rfl⟩

/-- C75: a release build compares any two numbers that it reads from bytes (more bytes than a debug build accepts: C74), without a panic and without a
read outside them. -/
theorem C75_release (e : Bool) {bs cs : List (BitVec 8)} {a b : Bin} (hn : bs.length < 4294967288) (hm : cs.length < 4294967288)
    (ha : @Untrusted.deserialize (rel e) bs = .ok a) (hb : @Untrusted.deserialize (rel e) cs = .ok b) :
    ∃ o, @Untrusted.cmp (rel e) a b = .ok o := by
  obtain ⟨r1, r2⟩ := @untrusted_facts (rel e) bs a hn ha
  obtain ⟨s1, s2⟩ := @untrusted_facts (rel e) cs b hm hb
  unfold Untrusted.cmp
  rw [r1, s1]
  simp only [bind_ok]
  rcases r2 with ⟨h3, hx⟩ | ⟨h3, hx, hst, hv⟩
  · simp only [hx, if_true]
    split <;> exact ⟨_, rfl⟩
  · rcases s2 with ⟨k3, kx⟩ | ⟨k3, kx, kst, kv⟩
    · simp only [hx, kx, if_true, Bool.false_eq_true, if_false]
      exact ⟨_, rfl⟩
    · simp only [hx, kx, Bool.false_eq_true, if_false, hv, kv, bind_ok]
      obtain ⟨c, hc⟩ := cmpCommon_release e (@varAt (rel e) bs) (@varAt (rel e) cs)
      rw [hc]; exact ⟨_, rfl⟩

/-- C75: a release build compares any two numbers read from bytes, without a panic and without a read outside them; a debug build does the same or stops at
the overflow check. -/
theorem C75_total (e : Bool) {bs cs : List (BitVec 8)} {a b : Bin} (hn : bs.length < 4294967288) (hm : cs.length < 4294967288)
    (ha : @Untrusted.deserialize (dbg e) bs = .ok a) (hb : @Untrusted.deserialize (dbg e) cs = .ok b) :
    (∃ o, @Untrusted.cmp (rel e) a b = .ok o) ∧
    (@Untrusted.cmp (dbg e) a b = @Untrusted.cmp (rel e) a b ∨ @Untrusted.cmp (dbg e) a b = .error .overflow) := by
  have ha' : @Untrusted.deserialize (rel e) bs = .ok a := by rw [← C74_builds_agree e ((C74_debug_returns e bs).1 ⟨a, ha⟩)]; exact ha
  have hb' : @Untrusted.deserialize (rel e) cs = .ok b := by rw [← C74_builds_agree e ((C74_debug_returns e cs).1 ⟨b, hb⟩)]; exact hb
  obtain ⟨p1, p2⟩ := @untrusted_facts (dbg e) bs a hn ha
  obtain ⟨q1, q2⟩ := @untrusted_facts (dbg e) cs b hm hb
  obtain ⟨r1, r2⟩ := @untrusted_facts (rel e) bs a hn ha'
  obtain ⟨s1, s2⟩ := @untrusted_facts (rel e) cs b hm hb'
  unfold Untrusted.cmp
  rw [p1, q1, r1, s1]
  simp only [bind_ok]
  rcases p2 with ⟨h3, hx⟩ | ⟨h3, hx, hst, hv⟩
  · simp only [hx, if_true]
    constructor
    · split <;> exact ⟨_, rfl⟩
    · exact .inl trivial
  · rcases q2 with ⟨k3, kx⟩ | ⟨k3, kx, kst, kv⟩
    · simp only [hx, kx, if_true, Bool.false_eq_true, if_false]
      exact ⟨⟨_, rfl⟩, .inl trivial⟩
    · have hv' := r2.resolve_left (fun h => h3 h.1) |>.2.2.2
      have kv' := s2.resolve_left (fun h => k3 h.1) |>.2.2.2
      simp only [hx, kx, Bool.false_eq_true, if_false, hv, kv, hv', kv', bind_ok]
      have same : ∀ ds : List (BitVec 8), @varAt (dbg e) ds = @varAt (rel e) ds := fun _ => rfl
      simp only [same]
      obtain ⟨c, hc⟩ := cmpCommon_release e (@varAt (rel e) bs) (@varAt (rel e) cs)
      constructor
      · rw [hc]; exact ⟨_, rfl⟩
      · rcases cmpCommon_debug e (@varAt (rel e) bs) (@varAt (rel e) cs) with h | h
        · rw [h]; exact .inl rfl
        · rw [h]; exact .inr rfl

/-- C75: every number read from bytes, whatever its digits, is equal to itself. -/
theorem C75_self [Build] {bs : List (BitVec 8)} {a : Bin} (hn : bs.length < 4294967288) (ha : Untrusted.deserialize bs = .ok a) :
    Untrusted.cmp a a = .ok .eq := by
  obtain ⟨p1, p2⟩ := untrusted_facts hn ha
  unfold Untrusted.cmp
  simp only [p1, bind_ok]
  rcases p2 with ⟨h3, hx⟩ | ⟨h3, hx, hst, hv⟩
  · simp only [hx, if_true, pure_ok]
  · simp only [hx, Bool.false_eq_true, if_false, hv, bind_ok, cmpCommon_self]
    rfl

theorem untrusted_digits [Build] {bs : List (BitVec 8)} (h3 : kindAt bs ≠ 3) (hm : ¬ Hostile bs) (hst : Storable16 (varAt bs)) :
    Digits15 (varAt bs).digits ∧ ((varAt bs).digits ≠ [] → 0 < mag32768 (varAt bs).digits (varAt bs).weight) ∧
    rankAt bs = ((value32 (varAt bs) : ℚ) : WithTop ℚ) := by
  have hd : (varAt bs).digits = digitsAt bs := rfl
  have h15 : Digits15 (varAt bs).digits := by
    intro d hx
    refine ⟨?_, (hst.digits d hx).2⟩
    by_contra hc
    exact hm ⟨h3, .inl ⟨d, hx, by omega⟩⟩
  refine ⟨h15, fun hne => ?_, ?_⟩
  · rw [mag32_pos_iff h15, List.any_eq_true]
    by_contra hc
    push Not at hc
    exact hm ⟨h3, .inr ⟨hne, fun d hx => by simpa using hc d hx⟩⟩
  · unfold rankAt value32 varAt
    simp only [h3, if_false]
    by_cases hg : negAt bs <;> simp [hg]

/-- C75: digits up to 32767 do no harm to the order. Numbers read from bytes without negative digits (and not made of zeros only) are ordered as their values
in base 32768, with NaN above all: a total order. -/
theorem C75_order [Build] {bs cs : List (BitVec 8)} {a b : Bin} (hn : bs.length < 4294967288) (hm : cs.length < 4294967288)
    (ha : Untrusted.deserialize bs = .ok a) (hb : Untrusted.deserialize cs = .ok b) (na : ¬ Hostile bs) (nb : ¬ Hostile cs) :
    Untrusted.cmp a b = .ok (compare (rankAt bs) (rankAt cs)) := by
  obtain ⟨p1, p2⟩ := untrusted_facts hn ha
  obtain ⟨q1, q2⟩ := untrusted_facts hm hb
  unfold Untrusted.cmp
  simp only [p1, q1, bind_ok]
  rcases p2 with ⟨h3, hx⟩ | ⟨h3, hx, hst, hv⟩
  · have ra : rankAt bs = ⊤ := by unfold rankAt; rw [if_pos h3]
    rcases q2 with ⟨k3, kx⟩ | ⟨k3, kx, kst, kv⟩
    · have rb : rankAt cs = ⊤ := by unfold rankAt; rw [if_pos k3]
      rw [ra, rb, compare_eq_iff_eq.2 rfl]
      simp only [hx, kx, if_true, pure_ok]
    · rw [ra, (untrusted_digits k3 nb kst).2.2, compare_gt_iff_gt.2 (WithTop.coe_lt_top _)]
      simp only [hx, kx, if_true, Bool.false_eq_true, if_false, pure_ok]
  · obtain ⟨d1, z1, r1⟩ := untrusted_digits h3 na hst
    rcases q2 with ⟨k3, kx⟩ | ⟨k3, kx, kst, kv⟩
    · have rb : rankAt cs = ⊤ := by unfold rankAt; rw [if_pos k3]
      rw [rb, r1, compare_lt_iff_lt.2 (WithTop.coe_lt_top _)]
      simp only [hx, kx, if_true, Bool.false_eq_true, if_false, pure_ok]
    · obtain ⟨d2, z2, r2⟩ := untrusted_digits k3 nb kst
      simp only [hx, kx, hv, kv, bind_ok, Bool.false_eq_true, if_false, pure_ok, cmpCommon_ok d1 d2]
      rw [common32 _ _ d1 d2 hst.not_nan kst.not_nan z1 z2, r1, r2]
      unfold cmpSign
      rcases lt_trichotomy (value32 (varAt bs)) (value32 (varAt cs)) with h | h | h
      · rw [compare_lt_iff_lt.2 (WithTop.coe_lt_coe.2 h)]; simp [h]
      · rw [compare_eq_iff_eq.2 (by rw [h])]; simp [h]
      · rw [compare_gt_iff_gt.2 (WithTop.coe_lt_coe.2 h)]; simp [h.ne', not_lt.2 h.le]

/-- C75: there `cmp` of the rest of the model is the same. -/
theorem C75_model [Build] {bs cs : List (BitVec 8)} {a b : Bin} (hn : bs.length < 4294967288) (hm : cs.length < 4294967288)
    (ha : Untrusted.deserialize bs = .ok a) (hb : Untrusted.deserialize cs = .ok b) (na : ∀ d ∈ digitsAt bs, 0 ≤ d) (nb : ∀ d ∈ digitsAt cs, 0 ≤ d) :
    Untrusted.cmp a b = Num.cmp a b := by
  obtain ⟨p1, p2⟩ := untrusted_facts hn ha
  obtain ⟨q1, q2⟩ := untrusted_facts hm hb
  unfold Untrusted.cmp Num.cmp
  simp only [p1, q1, bind_ok]
  rcases p2 with ⟨h3, hx⟩ | ⟨h3, hx, hst, hv⟩
  · simp only [hx, if_true]
  · rcases q2 with ⟨k3, kx⟩ | ⟨k3, kx, kst, kv⟩
    · simp only [hx, kx, if_true, Bool.false_eq_true, if_false]
    · have d1 : Digits15 (varAt bs).digits := fun d hd => ⟨na d hd, (hst.digits d hd).2⟩
      have d2 : Digits15 (varAt cs).digits := fun d hd => ⟨nb d hd, (kst.digits d hd).2⟩
      simp only [hx, kx, Bool.false_eq_true, if_false, hv, kv, bind_ok, cmpCommon_ok d1 d2]

/-- C75: hashing never fails, and whatever the digits are, two numbers that compare as equal feed the hasher the same data. -/
theorem C75_hash [Build] {bs cs : List (BitVec 8)} {a b : Bin} (hn : bs.length < 4294967288) (hm : cs.length < 4294967288)
    (ha : Untrusted.deserialize bs = .ok a) (hb : Untrusted.deserialize cs = .ok b) :
    (∃ w, Num.hash a = .ok w) ∧ (Untrusted.cmp a b = .ok .eq → Num.hash a = Num.hash b) := by
  have nanHash : ∀ {ds : List (BitVec 8)} {c : Bin}, ds.length < 4294967288 → Untrusted.deserialize ds = .ok c → kindAt ds = 3 → Num.hash c = .ok [] := by
    intro ds c hl hc h3
    obtain ⟨hcov, hd⟩ := untrusted_source hl hc
    rw [untrusted_covered hcov hd, if_pos h3] at hc
    obtain rfl : Bin.nan = c := by simpa using hc
    unfold Num.hash
    rw [Bin.asVar_nan, bind_ok]
    rfl
  obtain ⟨p1, p2⟩ := untrusted_facts hn ha
  obtain ⟨q1, q2⟩ := untrusted_facts hm hb
  rcases p2 with ⟨h3, hx⟩ | ⟨h3, hx, hst, hv⟩
  · refine ⟨⟨_, nanHash hn ha h3⟩, fun h => ?_⟩
    unfold Untrusted.cmp at h
    simp only [p1, q1, bind_ok] at h
    rcases q2 with ⟨k3, kx⟩ | ⟨k3, kx, kst, kv⟩
    · rw [nanHash hn ha h3, nanHash hm hb k3]
    · simp [hx, kx] at h
  · refine ⟨⟨_, hash16 hst hv⟩, fun h => ?_⟩
    unfold Untrusted.cmp at h
    simp only [p1, q1, bind_ok] at h
    rcases q2 with ⟨k3, kx⟩ | ⟨k3, kx, kst, kv⟩
    · simp [hx, kx] at h
    · rw [hash16 hst hv, hash16 kst kv]
      simp only [hx, kx, Bool.false_eq_true, if_false, hv, kv, bind_ok] at h
      cases hc : Untrusted.cmpCommon (varAt bs) (varAt cs) with
      | error f => rw [hc] at h; cases h
      | ok c =>
        rw [hc, bind_ok] at h
        have h0 : c = 0 := by
          by_contra hne
          rcases lt_or_gt_of_ne hne with hlt | hgt
          · simp [hlt, not_lt.2 hlt.le] at h
          · simp [hgt] at h
        subst h0
        rw [common_zero hst.digits kst.digits hst.not_nan kst.not_nan hc]

/-! ## Negative digits -/

/-- Length word 8 (10), short header with weight 0 and scale 0, the digits given as bytes. -/
def digitBytes1 (lo hi : BitVec 8) : List (BitVec 8) := [32#8, 0#8, 0#8, 0#8, 0x00#8, 0x80#8, lo, hi]
def digitBytes2 (l1 h1 l2 h2 : BitVec 8) : List (BitVec 8) := [40#8, 0#8, 0#8, 0#8, 0x00#8, 0x80#8, l1, h1, l2, h2]

/-- C75 (a defect): the safe functions deserialise and compare can break the contract of `Ord`. The digit -32768 and the digit 0: in a release build each number is
less than the other; in a debug build one of the two comparisons panics. -/
theorem C75_not_antisymmetric : ∃ a b, @Untrusted.deserialize (dbg false) (digitBytes1 0#8 0x80#8) = .ok a ∧
    @Untrusted.deserialize (dbg false) (digitBytes1 0#8 0#8) = .ok b ∧
    @Untrusted.cmp (rel false) a b = .ok .lt ∧ @Untrusted.cmp (rel false) b a = .ok .lt ∧ @Untrusted.cmp (dbg false) b a = .error .overflow :=
  ⟨_, _, rfl, rfl, rfl, rfl, rfl⟩

/-- C75 (a defect): the digits 1, -5 compare as less than 1, 0, which is equal to 1, which is less than 1, -5: in both builds `<` has a cycle. -/
theorem C75_cycle (d : Bool) : ∃ a b c, @Untrusted.deserialize ⟨d, false⟩ (digitBytes2 1#8 0#8 0xFB#8 0xFF#8) = .ok a ∧
    @Untrusted.deserialize ⟨d, false⟩ (digitBytes2 1#8 0#8 0#8 0#8) = .ok b ∧ @Untrusted.deserialize ⟨d, false⟩ (digitBytes1 1#8 0#8) = .ok c ∧
    @Untrusted.cmp ⟨d, false⟩ a b = .ok .lt ∧ @Untrusted.cmp ⟨d, false⟩ b c = .ok .eq ∧ @Untrusted.cmp ⟨d, false⟩ c a = .ok .lt := by
  cases d <;> exact ⟨_, _, _, rfl, rfl, rfl, rfl, rfl, rfl⟩

/-- The hypotheses of `C75_order` are met by a digit of 30000: it is not malformed, and above a digit of 29999. -/
example : ∃ a b, @Untrusted.deserialize (dbg false) (digitBytes1 0x30#8 0x75#8) = .ok a ∧ @Untrusted.deserialize (dbg false) (digitBytes1 0x2F#8 0x75#8) = .ok b ∧
    @Untrusted.cmp (dbg false) a b = .ok .gt ∧ ¬ @Hostile (dbg false) (digitBytes1 0x30#8 0x75#8) ∧ ¬ @Hostile (dbg false) (digitBytes1 0x2F#8 0x75#8) := by
  refine ⟨_, _, rfl, rfl, rfl, ?_, ?_⟩ <;> unfold Hostile <;> decide

end PgNumeric.Props
