import Verif.Proofs.UntrustedSign
/-!
# C76: negating numbers from arbitrary bytes
-/
namespace PgNumeric.Props
open PgNumeric Spec Untrusted

/-- Negating a stored number, by what its digits are. -/
theorem untrusted_negate [Build] {bs : List (BitVec 8)} {a : Bin} (hn : bs.length < 4294967288) (h : Untrusted.deserialize bs = .ok a) (h3 : kindAt bs ≠ 3) :
    ((∀ d ∈ digitsAt bs, d = 0) → Num.negate a = .ok (Bin.encode ⟨0, scaleAt bs, .pos, []⟩) ∧ Storable16 ⟨0, scaleAt bs, .pos, []⟩) ∧
    ∀ {k m : ℕ} {core : List ℤ}, digitsAt bs = List.replicate k 0 ++ core ++ List.replicate m 0 → core ≠ [] → core.head? ≠ some 0 → core.getLast? ≠ some 0 →
      Num.negate a = .ok (Bin.encode ⟨wrap16 (weightAt bs - k), scaleAt bs, (varAt bs).negate.sign, core⟩) ∧
      Storable16 ⟨wrap16 (weightAt bs - k), scaleAt bs, (varAt bs).negate.sign, core⟩ ∧ ((varAt bs).negate.sign = .neg ↔ ¬ negAt bs) := by
  obtain ⟨p1, p2⟩ := untrusted_facts hn h
  obtain ⟨-, hx, hst, hv⟩ := p2.resolve_left (fun hh => h3 hh.1)
  have w1 := hst.weight_ge
  have w2 := hst.weight_le
  have s1 := hst.dscale_nonneg
  have s2 := hst.dscale_le
  have l1 := hst.length
  have hdig : (varAt bs).negate.digits = digitsAt bs ∧ (varAt bs).negate.weight = weightAt bs ∧ (varAt bs).negate.dscale = scaleAt bs := by
    unfold Var.negate
    split
    · split <;> exact ⟨rfl, rfl, rfl⟩
    · exact ⟨rfl, rfl, rfl⟩
  have hsg : (varAt bs).negate.sign ≠ .nan := by
    have := hst.not_nan
    unfold Var.negate
    split
    · split
      · simp
      · simp
      · assumption
    · exact this
  have run : ∀ u : Var, Var.strip (varAt bs).negate = u → u.sign ≠ .nan → Num.negate a = .ok (Bin.encode u) := by
    intro u hu hus
    unfold Num.negate Num.finishNoOverflow Var.makeResultNoOverflow Var.stripM
    rw [p1, bind_ok, hx, if_neg (by simp), hv, bind_ok, dassert_ok (by simpa using hsg), bind_ok]
    have hlen := (List.takeWhile_prefix (p := fun x : Int => decide (x = 0)) (l := digitsAt bs)).length_le
    have l1' : 6 + 2 * (digitsAt bs).length < 1073741824 := l1
    have w1' : -32768 ≤ weightAt bs := w1
    have w2' : weightAt bs ≤ 32767 := w2
    rw [fits_ok (by
      rw [stripLead_loose, hdig.1, hdig.2.1]
      fits_tac), bind_ok, pure_ok, bind_ok, hu]
    unfold Bin.intoBuf
    rw [if_neg (fun hh => hus hh.1)]
    rfl
  constructor
  · intro hz
    have hu : Var.strip (varAt bs).negate = ⟨0, scaleAt bs, .pos, []⟩ := by
      have e : (Var.stripLead (digitsAt bs) (weightAt bs)).1 = [] := by
        rw [stripLead_loose]
        exact List.dropWhile_eq_nil_iff.2 (by simpa using hz)
      unfold Var.strip
      rw [hdig.1, hdig.2.1, hdig.2.2]
      simp only [e]
      rfl
    refine ⟨run _ hu (by simp), by simp, by simp, by simp, by simp, s1, s2, by simp, by simp⟩
  · intro k m core hc hne hh hl
    have hu : Var.strip (varAt bs).negate = ⟨weightAt bs - k, scaleAt bs, (varAt bs).negate.sign, core⟩ := by
      unfold Var.strip
      rw [hdig.1, hdig.2.1, hdig.2.2, hc, stripLead_core k hne hh]
      simp only [stripTrail_core m hl]
      rw [if_neg hne]
    have hwr := wrap16_range (weightAt bs - k)
    have hlen : (digitsAt bs).length = k + core.length + m := by rw [hc]; simp; omega
    have l1' : 6 + 2 * (digitsAt bs).length < 1073741824 := l1
    refine ⟨?_, ⟨hsg, ?_, hwr.1, hwr.2, s1, s2, ?_, ?_⟩, ?_⟩
    · rw [run _ hu hsg, encode_wrap]
    · intro d hd
      exact hst.digits d (by show d ∈ digitsAt bs; rw [hc]; simp [hd])
    · simp only; omega
    · intro hs
      rcases Nat.eq_zero_or_pos k with h0 | h0
      · subst h0
        have w1' : -32768 ≤ weightAt bs := w1
        have w2' : weightAt bs ≤ 32767 := w2
        simp only [Nat.cast_zero, sub_zero] at hs ⊢
        rw [wrap16_id w1' w2'] at hs
        have := hst.length_long hs
        have e : (varAt bs).digits = digitsAt bs := rfl
        rw [e] at this
        omega
      · simp only; omega
    · have hpos : (varAt bs).ndigits > 0 := by
        have e : (varAt bs).digits = digitsAt bs := rfl
        have : 0 < core.length := List.length_pos_iff.2 hne
        unfold Var.ndigits
        rw [e]
        omega
      unfold Var.negate
      rw [if_pos hpos]
      by_cases hg : negAt bs <;> simp [varAt, hg]

/-- C76: negating a number read from any bytes never fails, in either build, and gives complete bytes. NaN stays NaN. Zeros give zero without a sign.
Otherwise the digits stay, up to zeros at the ends, the scale stays, the sign changes, and the weight decreases by the number of leading zeros: in 16 bits. -/
theorem C76_negate [Build] {bs : List (BitVec 8)} {a : Bin} (hn : bs.length < 4294967288) (h : Untrusted.deserialize bs = .ok a) :
    ∃ r, Num.negate a = .ok r ∧ Complete r.asBytes ∧ (kindAt bs = 3 → r = Bin.nan) ∧
      (kindAt bs ≠ 3 → kindAt r.asBytes ≠ 3 ∧ scaleAt r.asBytes = scaleAt bs ∧
        ((∀ d ∈ digitsAt bs, d = 0) → digitsAt r.asBytes = [] ∧ weightAt r.asBytes = 0 ∧ ¬ negAt r.asBytes) ∧
        ∀ (k m : ℕ) (core : List ℤ), digitsAt bs = List.replicate k 0 ++ core ++ List.replicate m 0 → core ≠ [] → core.head? ≠ some 0 → core.getLast? ≠ some 0 →
          digitsAt r.asBytes = core ∧ weightAt r.asBytes = wrap16 (weightAt bs - k) ∧ (negAt r.asBytes ↔ ¬ negAt bs)) := by
  by_cases h3 : kindAt bs = 3
  · obtain ⟨c1, -, c3, -⟩ := C74_content hn h
    obtain ⟨p1, p2⟩ := untrusted_facts hn h
    have hx : a.isNan = true := by rcases p2 with h | h; exact h.2; exact absurd h3 h.1
    obtain rfl := c3 h3
    refine ⟨Bin.nan, ?_, c1, fun _ => rfl, fun hh => absurd h3 hh⟩
    unfold Num.negate
    rw [p1, bind_ok, hx, if_pos rfl]
    exact Num.nan_ok
  · obtain ⟨n1, n2⟩ := untrusted_negate hn h h3
    rcases core_exists (digitsAt bs) with hz | ⟨k, core, m, hc, hne, hh, hl⟩
    · obtain ⟨hr, hs⟩ := n1 hz
      obtain ⟨e1, e2, e3, e4, e5, e6⟩ := encode_says hs
      refine ⟨_, hr, e1, fun hh => absurd hh h3, fun _ => ⟨e2, Int.natCast_inj.1 e5, fun _ => ⟨e6, e4, by simp [e3]⟩, ?_⟩⟩
      intro k m core hc hne hh hl
      exfalso
      obtain ⟨d, l, rfl⟩ := List.exists_cons_of_ne_nil hne
      exact hh (by rw [hz d (by rw [hc]; simp)]; rfl)
    · obtain ⟨hr, hs, hg⟩ := n2 hc hne hh hl
      obtain ⟨e1, e2, e3, e4, e5, e6⟩ := encode_says hs
      refine ⟨_, hr, e1, fun hh => absurd hh h3, fun _ => ⟨e2, Int.natCast_inj.1 e5, ?_, ?_⟩⟩
      · intro hz
        exfalso
        obtain ⟨d, l, rfl⟩ := List.exists_cons_of_ne_nil hne
        exact hh (by rw [hz d (by rw [hc]; simp)]; rfl)
      · intro k' m' core' hc' hne' hh' hl'
        obtain ⟨hr', hs', hg'⟩ := n2 hc' hne' hh' hl'
        obtain ⟨f1, f2, f3, f4, f5, f6⟩ := encode_says hs'
        rw [hr] at hr'
        rw [Except.ok.inj hr']
        exact ⟨f6, f4, by rw [f3, hg']⟩

/-- C76: where the weight stays above -32768 without the leading zeros, the value is negated. -/
theorem C76_value [Build] {bs : List (BitVec 8)} {a r : Bin} (hn : bs.length < 4294967288) (h : Untrusted.deserialize bs = .ok a) (h3 : kindAt bs ≠ 3)
    (hw : ∀ (k : ℕ) (rest : List ℤ), digitsAt bs = List.replicate k 0 ++ rest → rest ≠ [] → rest.head? ≠ some 0 → -32768 ≤ weightAt bs - k)
    (hr : Num.negate a = .ok r) : valueAt r.asBytes = -valueAt bs := by
  obtain ⟨r', hr', -, -, hc⟩ := C76_negate hn h
  rw [hr] at hr'
  obtain rfl : r = r' := by simpa using hr'
  obtain ⟨-, -, hz, hcore⟩ := hc h3
  obtain ⟨-, p2⟩ := untrusted_facts hn h
  obtain ⟨-, -, hst, -⟩ := p2.resolve_left (fun hh => h3 hh.1)
  have w2 : weightAt bs ≤ 32767 := hst.weight_le
  unfold valueAt
  rcases core_exists (digitsAt bs) with hall | ⟨k, core, m, he, hne, hh, hl⟩
  · obtain ⟨z1, z2, z3⟩ := hz hall
    have : mag32768 (digitsAt bs) (weightAt bs) = 0 := by
      rw [List.eq_replicate_iff.2 ⟨rfl, hall⟩, mag32_zeros]
    rw [if_neg z3, z1, this]
    simp [mag32768]
  · obtain ⟨c1, c2, c3⟩ := hcore k m core he hne hh hl
    have hwk := hw k (core ++ List.replicate m 0) (by rw [he, List.append_assoc]) (by simp [hne]) (by
      obtain ⟨d, l, rfl⟩ := List.exists_cons_of_ne_nil hne
      exact hh)
    rw [wrap16_id hwk (by omega)] at c2
    have hm : mag32768 (digitsAt bs) (weightAt bs) = mag32768 core (weightAt bs - k) := by
      rw [he, List.append_assoc, mag32_append, mag32_tail]
    rw [c1, c2, hm]
    by_cases hg : negAt bs
    · rw [if_pos hg, if_neg (by rw [c3]; exact fun h => h hg), neg_neg]
    · rw [if_neg hg, if_pos (c3.2 hg)]

/-- Length word 12, long header of a positive number with scale 0, weight -32768, the digits 0 and 1. -/
def tinyBytes : List (BitVec 8) := [48#8, 0#8, 0#8, 0#8, 0#8, 0#8, 0#8, 0x80#8, 0#8, 0#8, 1#8, 0#8]

/-- C76 (a defect): the weight wraps. Negating a tiny number twice gives a huge one, in both builds. -/
theorem C76_wraps (d : Bool) : ∃ a r s, @Untrusted.deserialize ⟨d, false⟩ tinyBytes = .ok a ∧ @Num.negate ⟨d, false⟩ a = .ok r ∧ @Num.negate ⟨d, false⟩ r = .ok s ∧
    weightAt r.asBytes = 32767 ∧ @Untrusted.cmp ⟨d, false⟩ a s = .ok .lt := by
  cases d <;> exact ⟨_, _, _, rfl, rfl, rfl, rfl, rfl⟩

/-- The hypotheses of `C76_value` are met: the digits 0, 5 and 0 at weight 0. -/
example : ∃ a r, @Untrusted.deserialize (dbg false) (digitBytes2 0#8 0#8 5#8 0#8) = .ok a ∧ @Num.negate (dbg false) a = .ok r ∧
    @digitsAt (dbg false) (digitBytes2 0#8 0#8 5#8 0#8) = [0, 5] ∧ weightAt (digitBytes2 0#8 0#8 5#8 0#8) = 0 ∧ kindAt (digitBytes2 0#8 0#8 5#8 0#8) ≠ 3 ∧
    @digitsAt (dbg false) r.asBytes = [5] ∧ weightAt r.asBytes = -1 ∧ negAt r.asBytes :=
  ⟨_, _, rfl, rfl, rfl, rfl, by decide, rfl, rfl, by unfold negAt; decide⟩

end PgNumeric.Props
