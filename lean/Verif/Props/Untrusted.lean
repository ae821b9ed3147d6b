import Verif.Proofs.Untrusted
import Verif.Proofs.Stored
import Verif.Model.Text
/-!
# C74: deserialising arbitrary bytes

`Deserialize` (src/num.rs:325-376) is a safe function and takes any bytes. Here: for which bytes it returns, what it returns, and how it ends otherwise.
-/
namespace PgNumeric.Props
open PgNumeric Spec Untrusted

theorem untrusted_covered [Build] {bs : List (BitVec 8)} (hc : Covered bs) (hd : Build.debug = true → declared bs = bs.length) :
    Untrusted.deserialize bs = .ok (open Classical in if kindAt bs = 3 then Bin.nan else Bin.encode (varAt bs)) := by
  unfold Untrusted.deserialize
  rw [asVar_ok hc hd, bind_ok]
  by_cases h3 : kindAt bs = 3
  · simp only [h3, if_true]
    have hn : Var.nan.sign = .nan := rfl
    rw [if_pos hn, Num.nan_ok]
  · simp only [h3, if_false]
    have hn := (varAt_storable hc h3).not_nan
    rw [if_neg hn, Num.intoBuf_ok hn]

theorem untrusted_debug_stop (e : Bool) {bs : List (BitVec 8)} (hc : ¬ @Complete (dbg e) bs) :
    @Untrusted.deserialize (dbg e) bs = .error (if bs.length < 4 then .oob else if @declared (dbg e) bs ≠ bs.length then .assert
      else if bs.length < 6 then .oob else .overflow) := by
  unfold Untrusted.deserialize
  rw [asVar_debug e hc, bind_err]

/-- C74: a debug build returns on exactly the bytes that are complete: the length word is the number of bytes and the header is there. The digits may be
anything, and the number of bytes may be odd. -/
theorem C74_debug_returns (e : Bool) (bs : List (BitVec 8)) :
    (∃ r, @Untrusted.deserialize (dbg e) bs = .ok r) ↔ @Complete (dbg e) bs := by
  constructor
  · rintro ⟨r, hr⟩
    by_contra hc
    rw [untrusted_debug_stop e hc] at hr
    cases hr
  · intro hc
    exact ⟨_, @untrusted_covered (dbg e) bs (@complete_covered (dbg e) bs hc) (fun _ => hc.1)⟩

/-- C74: how a debug build ends otherwise. Fewer than 4 bytes: it reads behind them. A length word that is not the number of bytes: the debug assertion. A true
length word and no header (4 or 5 bytes): it reads behind them. A long header cut short (6 or 7 bytes): the overflow check. -/
theorem C74_debug_stops (e : Bool) {bs : List (BitVec 8)} (hc : ¬ @Complete (dbg e) bs) :
    (bs.length < 4 → @Untrusted.deserialize (dbg e) bs = .error .oob) ∧
    (4 ≤ bs.length → @declared (dbg e) bs ≠ bs.length → @Untrusted.deserialize (dbg e) bs = .error .assert) ∧
    (4 ≤ bs.length → @declared (dbg e) bs = bs.length → bs.length < 6 → @Untrusted.deserialize (dbg e) bs = .error .oob) ∧
    (6 ≤ bs.length → @declared (dbg e) bs = bs.length → @Untrusted.deserialize (dbg e) bs = .error .overflow) := by
  rw [untrusted_debug_stop e hc]
  refine ⟨fun h => by rw [if_pos h], fun h h2 => by rw [if_neg (by omega), if_pos h2], fun h h2 h3 => ?_, fun h h2 => ?_⟩
  · rw [if_neg (by omega), if_neg (by simpa using h2), if_pos h3]
  · rw [if_neg (by omega), if_neg (by simpa using h2), if_neg (by omega)]

/-- C74: a release build returns on exactly the bytes that cover what their length word declares. -/
theorem C74_release_returns (e : Bool) (bs : List (BitVec 8)) (hn : bs.length < 4294967288) :
    (∃ r, @Untrusted.deserialize (rel e) bs = .ok r) ↔ @Covered (rel e) bs := by
  constructor
  · rintro ⟨r, hr⟩
    by_contra hc
    unfold Untrusted.deserialize at hr
    rw [asVar_oob e hn hc, bind_err] at hr
    cases hr
  · intro hc
    exact ⟨_, @untrusted_covered (rel e) bs hc (fun h => by cases h)⟩

/-- C74 (a defect): on all other bytes a release build reads behind the end of the slice. -/
theorem C74_release_oob (e : Bool) {bs : List (BitVec 8)} (hn : bs.length < 4294967288) (hc : ¬ @Covered (rel e) bs) :
    @Untrusted.deserialize (rel e) bs = .error .oob := by
  unfold Untrusted.deserialize
  rw [asVar_oob e hn hc, bind_err]

/-- C74: on complete bytes both builds return the same. -/
theorem C74_builds_agree (e : Bool) {bs : List (BitVec 8)} (hc : @Complete (dbg e) bs) :
    @Untrusted.deserialize (dbg e) bs = @Untrusted.deserialize (rel e) bs := by
  rw [@untrusted_covered (dbg e) bs (@complete_covered (dbg e) bs hc) (fun _ => hc.1),
    @untrusted_covered (rel e) bs (@complete_covered (dbg e) bs hc) (fun h => by cases h)]
  rfl

/-- What a returned number was read from. -/
theorem untrusted_source [Build] {bs : List (BitVec 8)} {r : Bin} (hn : bs.length < 4294967288) (h : Untrusted.deserialize bs = .ok r) :
    Covered bs ∧ (Build.debug = true → declared bs = bs.length) := by
  rename_i inst
  obtain ⟨d, e⟩ := inst
  cases d with
  | true =>
    have hc := (C74_debug_returns e bs).1 ⟨r, h⟩
    exact ⟨@complete_covered (dbg e) bs hc, fun _ => hc.1⟩
  | false => exact ⟨(C74_release_returns e bs hn).1 ⟨r, h⟩, fun h => by cases h⟩

theorem untrusted_encode_complete [Build] {v : Var} (h : Storable16 v) : Complete (Bin.encode v).asBytes ∧ asVar (Bin.encode v).asBytes = .ok v ∧
    (Bin.encode v).asBytes.length ≤ 8 + 2 * v.digits.length := by
  have hsz : (Bin.encode v).asBytes.length ≤ 8 + 2 * v.digits.length := by
    rw [Bin.asBytes_length]
    unfold Bin.size
    by_cases hs : v.dscale ≤ 63 ∧ v.weight ≤ 63 ∧ -64 ≤ v.weight
    · rw [encode_short16 h hs]; simp only [List.length_map]; omega
    · rw [encode_long16 h hs]; simp only [List.length_map, List.length_cons]; omega
  have hl := h.length
  have hv : asVar (Bin.encode v).asBytes = .ok v := by
    rw [asVar_asBytes _ (by omega)]
    exact asVar_encode16 h
  refine ⟨?_, hv, hsz⟩
  rename_i inst
  obtain ⟨d, e⟩ := inst
  have hv' : @asVar (dbg e) (@Bin.encode (dbg e) v).asBytes = .ok v := by
    rw [@asVar_asBytes (dbg e) _ (by exact (show (@Bin.encode ⟨d, e⟩ v).asBytes.length < 4294967288 by omega))]
    exact @asVar_encode16 (dbg e) v h
  by_contra hc
  have := asVar_debug e (bs := (@Bin.encode (dbg e) v).asBytes) hc
  rw [hv'] at this
  cases this

/-- C74: what is returned. Bytes with a NaN header give NaN, whatever else they say. All other bytes give a number whose own bytes are complete, and
say the same: the same sign, weight, scale and digits. -/
theorem C74_content [Build] {bs : List (BitVec 8)} {r : Bin} (hn : bs.length < 4294967288) (h : Untrusted.deserialize bs = .ok r) :
    Complete r.asBytes ∧ (kindAt r.asBytes = 3 ↔ kindAt bs = 3) ∧ (kindAt bs = 3 → r = Bin.nan) ∧
    (kindAt bs ≠ 3 → (negAt r.asBytes ↔ negAt bs) ∧ weightAt r.asBytes = weightAt bs ∧ scaleAt r.asBytes = scaleAt bs ∧
      digitsAt r.asBytes = digitsAt bs) := by
  obtain ⟨hc, hd⟩ := untrusted_source hn h
  rw [untrusted_covered hc hd] at h
  by_cases h3 : kindAt bs = 3
  · rw [if_pos h3] at h
    obtain rfl : Bin.nan = r := by simpa using h
    have hk : kindAt (Bin.nan).asBytes = 3 ∧ Complete (Bin.nan).asBytes := by
      have hlen : declared (Bin.nan).asBytes = 6 := by
        obtain ⟨w, ew, hw⟩ := load32_ok (bs := (Bin.nan).asBytes) (by rw [Bin.asBytes_length]; simp [Bin.size, Bin.nan])
        have e2 : load32 (Bin.nan).asBytes 0 = .ok (Bin.encodeLen 6#32) := load32_bytes _ _
        rw [e2] at ew
        obtain rfl : Bin.encodeLen 6#32 = w := by simpa using ew
        rw [← hw, Bin.decode_encode_len (by decide)]
        rfl
      have hk : kindAt (Bin.nan).asBytes = 3 := by
        obtain ⟨w, ew, hw⟩ := load16_ok (bs := (Bin.nan).asBytes) (i := 4) (by rw [Bin.asBytes_length]; simp [Bin.size, Bin.nan])
        rw [load16_head] at ew
        obtain rfl : (Bin.nan).header = w := by simpa using ew
        rw [← header_kind hw]
        show (Bin.NAN).toNat / 16384 = 3
        decide
      refine ⟨hk, ?_, ?_, fun h => absurd h (by omega)⟩
      · rw [hlen, Bin.asBytes_length]; rfl
      · rw [Bin.asBytes_length]; exact le_refl 6
    exact ⟨hk.2, ⟨fun _ => h3, fun _ => hk.1⟩, fun _ => rfl, fun hx => absurd h3 hx⟩
  · rw [if_neg h3] at h
    obtain rfl : Bin.encode (varAt bs) = r := by simpa using h
    have hst := varAt_storable hc h3
    obtain ⟨hcr, hvr, -⟩ := untrusted_encode_complete hst
    have hcov := complete_covered hcr
    rw [asVar_ok hcov (fun _ => hcr.1)] at hvr
    by_cases h3r : kindAt (Bin.encode (varAt bs)).asBytes = 3
    · exfalso
      rw [if_pos h3r] at hvr
      obtain hvr : Var.nan = varAt bs := by simpa using hvr
      exact hst.not_nan (by rw [← hvr]; rfl)
    · rw [if_neg h3r] at hvr
      have hvr : varAt (Bin.encode (varAt bs)).asBytes = varAt bs := by simpa using hvr
      refine ⟨hcr, ⟨fun h => absurd h h3r, fun h => absurd h h3⟩, fun h => absurd h h3, fun _ => ?_⟩
      have f1 := congrArg Var.sign hvr
      have f2 := congrArg Var.weight hvr
      have f3 := congrArg Var.dscale hvr
      have f4 := congrArg Var.digits hvr
      generalize (Bin.encode (varAt bs)).asBytes = cs at *
      unfold varAt at f1 f2 f3 f4
      simp only at f1 f2 f3 f4
      refine ⟨?_, f2, by exact_mod_cast f3, f4⟩
      by_cases hx : negAt cs <;> by_cases hy : negAt bs <;> simp [hx, hy] at f1 ⊢

/-- C74: the result takes no more bytes than were declared. -/
theorem C74_size [Build] {bs : List (BitVec 8)} {r : Bin} (hn : bs.length < 4294967288) (h : Untrusted.deserialize bs = .ok r) (h3 : kindAt bs ≠ 3) :
    r.asBytes.length ≤ declared bs := by
  obtain ⟨hc, hd⟩ := untrusted_source hn h
  rw [untrusted_covered hc hd, if_neg h3] at h
  obtain rfl : Bin.encode (varAt bs) = r := by simpa using h
  obtain ⟨c1, c2⟩ := hc.2 h3
  have hst := varAt_storable hc h3
  have hlen : (varAt bs).digits.length = declaredDigits bs := by unfold varAt digitsAt; simp
  rw [Bin.asBytes_length]
  unfold Bin.size
  by_cases hs : (varAt bs).dscale ≤ 63 ∧ (varAt bs).weight ≤ 63 ∧ -64 ≤ (varAt bs).weight
  · rw [encode_short16 hst hs]
    simp only [List.length_map, hlen]
    unfold declaredDigits digitsFrom at *
    split at c1 <;> simp_all <;> omega
  · have h2 : kindAt bs ≠ 2 := by
      intro h2
      apply hs
      unfold varAt weightAt scaleAt
      simp only [h2, if_true]
      refine ⟨by omega, ?_, ?_⟩ <;> split <;> omega
    rw [encode_long16 hst hs]
    simp only [List.length_map, List.length_cons, hlen]
    unfold declaredDigits digitsFrom at *
    simp only [h2, if_false] at *
    omega

/-- C74: deserialising the bytes of the result gives the same result again. -/
theorem C74_again [Build] {bs : List (BitVec 8)} {r : Bin} (hn : bs.length < 4294967288) (h : Untrusted.deserialize bs = .ok r) :
    Untrusted.deserialize r.asBytes = .ok r := by
  obtain ⟨hcr, hk, hnan, -⟩ := C74_content hn h
  obtain ⟨hc, hd⟩ := untrusted_source hn h
  by_cases h3 : kindAt bs = 3
  · rw [untrusted_covered (complete_covered hcr) (fun _ => hcr.1), if_pos (hk.2 h3), hnan h3]
  · rw [untrusted_covered hc hd, if_neg h3] at h
    obtain rfl : Bin.encode (varAt bs) = r := by simpa using h
    have hst := varAt_storable hc h3
    unfold Untrusted.deserialize
    rw [(untrusted_encode_complete hst).2.1, bind_ok, if_neg hst.not_nan, Num.intoBuf_ok hst.not_nan]

/-- C74: bytes that say a number give that number. If the digits lie in 0..9999, are not all zero (or there are none, and no sign), and the scale covers them, the
result is a stored form of the number that they are the digits of. -/
theorem C74_number [Build] {bs : List (BitVec 8)} {r : Bin} (hn : bs.length < 4294967288) (h : Untrusted.deserialize bs = .ok r) (h3 : kindAt bs ≠ 3)
    (hlen : declaredDigits bs ≤ 90000000) (hw : weightAt bs ≠ -32768) (hd : Digits (digitsAt bs))
    (h0 : digitsAt bs = [] ∧ ¬ negAt bs ∨ ∃ d ∈ digitsAt bs, d ≠ 0) {x : ℚ} (hp : ¬ negAt bs → x = mag (digitsAt bs) (weightAt bs))
    (hm : negAt bs → x = -mag (digitsAt bs) (weightAt bs)) (hs : HasScale x (scaleAt bs)) : Stored r x (scaleAt bs) := by
  obtain ⟨hc, hdb⟩ := untrusted_source hn h
  rw [untrusted_covered hc hdb, if_neg h3] at h
  obtain rfl : Bin.encode (varAt bs) = r := by simpa using h
  have hst := varAt_storable hc h3
  have hx : value (varAt bs) = x := by
    unfold value varAt
    by_cases hng : negAt bs
    · simp [hng, hm hng]
    · simp [hng, hp hng]
  have hl : Loose (varAt bs) := by
    have := hst.weight_ge
    have hwv : (varAt bs).weight = weightAt bs := rfl
    refine ⟨hst.not_nan, hd, by omega, hst.weight_le, ?_, hst.dscale_nonneg, hst.dscale_le, by rw [hx]; exact hs, ?_⟩
    · show ((digitsAt bs).length : ℤ) ≤ _
      unfold digitsAt
      simp only [List.length_map, List.length_range]
      omega
    · rcases h0 with ⟨h1, h2⟩ | h1
      · exact .inl ⟨h1, by unfold varAt; simp [h2]⟩
      · exact .inr h1
  have := Bin.stored_encode hl
  rw [hx] at this
  exact this

/-- C74: on byte strings of even length, of at least 6 bytes, this is the deserialisation of the rest of the model. -/
theorem C74_words [Build] {bs : List (BitVec 8)} (hn : bs.length < 4294967288) (h6 : 6 ≤ bs.length) (he : bs.length % 2 = 0) :
    Num.deserialize (.inr bs) = (Untrusted.deserialize bs >>= fun r => pure (some r)) := by
  have hw : ∀ n : ℕ, ∀ l : List (BitVec 8), l.length = 2 * n → ∃ ws, Bin.words l = some ws := by
    intro n
    induction n with
    | zero => intro l hl; obtain rfl : l = [] := List.length_eq_zero_iff.1 (by omega); exact ⟨[], rfl⟩
    | succ n ih =>
      intro l hl
      match l, hl with
      | a :: b :: l, hl =>
        obtain ⟨ws, e⟩ := ih l (by simp at hl; omega)
        exact ⟨(b ++ a) :: ws, by simp only [Bin.words, e, Option.map_some]⟩
  match bs, hn, h6, he with
  | b0 :: b1 :: b2 :: b3 :: h0 :: h1 :: l, hn, h6, he =>
    obtain ⟨ws, e⟩ := hw (l.length / 2) l (by simp at he; omega)
    have hf : Bin.fromBytes (b0 :: b1 :: b2 :: b3 :: h0 :: h1 :: l) = some ⟨b3 ++ b2 ++ b1 ++ b0, h1 ++ h0, ws⟩ := by
      simp only [Bin.fromBytes, e, Option.map_some]
    have hb : (Bin.mk (b3 ++ b2 ++ b1 ++ b0) (h1 ++ h0) ws).asBytes = b0 :: b1 :: b2 :: b3 :: h0 :: h1 :: l := by
      unfold Bin.asBytes
      rw [List.flatMap_cons, Bin.words_asBytes e]
      have e1 : (b3 ++ b2 ++ b1 ++ b0 : BitVec 32).extractLsb' 0 8 = b0 := by
        apply BitVec.eq_of_getLsbD_eq
        intro i hi
        interval_cases i <;> simp only [BitVec.getLsbD_append, BitVec.getLsbD_extractLsb'] <;> simp
      have e2 : (b3 ++ b2 ++ b1 ++ b0 : BitVec 32).extractLsb' 8 8 = b1 := by
        apply BitVec.eq_of_getLsbD_eq
        intro i hi
        interval_cases i <;> simp only [BitVec.getLsbD_append, BitVec.getLsbD_extractLsb'] <;> simp
      have e3 : (b3 ++ b2 ++ b1 ++ b0 : BitVec 32).extractLsb' 16 8 = b2 := by
        apply BitVec.eq_of_getLsbD_eq
        intro i hi
        interval_cases i <;> simp only [BitVec.getLsbD_append, BitVec.getLsbD_extractLsb'] <;> simp
      have e4 : (b3 ++ b2 ++ b1 ++ b0 : BitVec 32).extractLsb' 24 8 = b3 := by
        apply BitVec.eq_of_getLsbD_eq
        intro i hi
        interval_cases i <;> simp only [BitVec.getLsbD_append, BitVec.getLsbD_extractLsb'] <;> simp
      have e5 : (h1 ++ h0 : BitVec 16).extractLsb' 0 8 = h0 := by
        apply BitVec.eq_of_getLsbD_eq
        intro i hi
        interval_cases i <;> simp only [BitVec.getLsbD_append, BitVec.getLsbD_extractLsb'] <;> simp
      have e6 : (h1 ++ h0 : BitVec 16).extractLsb' 8 8 = h1 := by
        apply BitVec.eq_of_getLsbD_eq
        intro i hi
        interval_cases i <;> simp only [BitVec.getLsbD_append, BitVec.getLsbD_extractLsb'] <;> simp
      simp only [Bin.bytes32, Bin.bytes16, e1, e2, e3, e4, e5, e6, List.cons_append, List.nil_append]
    unfold Num.deserialize
    simp only [hf]
    unfold Untrusted.deserialize Num.toOwned
    rw [← hb, asVar_asBytes _ (by rw [hb]; exact hn)]

/-! ## Concrete bytes

The length words are those of a little-endian host without the byte swap (`rel false`, `dbg false`): four times the length. -/

/-- 9 bytes, an odd number: length word 9, short header of a negative number with scale 2 and weight 0, the digits 12 and half a digit. -/
def oddBytes : List (BitVec 8) := [36#8, 0#8, 0#8, 0#8, 0x00#8, 0xA1#8, 12#8, 0#8, 7#8]

/-- They are complete, and mean -12. -/
example : @Complete (dbg false) oddBytes ∧ kindAt oddBytes = 2 ∧ negAt oddBytes ∧ @digitsAt (dbg false) oddBytes = [12] ∧ weightAt oddBytes = 0 ∧
    scaleAt oddBytes = 2 := by
  unfold Complete negAt
  decide

/-- A length word that declares more than there is, and one that declares less. -/
def longWord : List (BitVec 8) := [40#8, 0#8, 0#8, 0#8, 0x00#8, 0x80#8, 12#8, 0#8]
def shortWord : List (BitVec 8) := [24#8, 0#8, 0#8, 0#8, 0x00#8, 0x80#8, 12#8, 0#8]

example : ¬ @Covered (rel false) longWord ∧ @Covered (rel false) shortWord ∧ ¬ @Complete (dbg false) longWord ∧ ¬ @Complete (dbg false) shortWord ∧
    @digitsAt (rel false) shortWord = [] := by
  unfold Covered Complete
  decide

/-- A digit of 30000 is taken as it is. -/
example : @Complete (dbg false) [32#8, 0#8, 0#8, 0#8, 0x00#8, 0x80#8, 0x30#8, 0x75#8] ∧
    @digitsAt (dbg false) [32#8, 0#8, 0#8, 0#8, 0x00#8, 0x80#8, 0x30#8, 0x75#8] = [30000] := by
  unfold Complete
  decide

/-- The run on the odd bytes, and its result read again: 8 bytes, -12. -/
example : ∃ r, @Untrusted.deserialize (rel false) oddBytes = .ok r ∧ r.asBytes.length = 8 ∧ @Stored (rel false) r (-12) 2 := by
  let _ : Build := rel false
  have hc : Covered oddBytes := by unfold Covered; decide
  obtain ⟨r, hr⟩ := (C74_release_returns false oddBytes (by decide)).2 hc
  have hs : Stored r (-12) (scaleAt oddBytes) := by
    refine C74_number (by decide) hr (by decide) (by decide) (by decide) ?_ ?_ ?_ ?_ ?_
    · rw [show digitsAt oddBytes = [12] by decide]; intro d hd; simp at hd; omega
    · rw [show digitsAt oddBytes = [12] by decide]; right; exact ⟨12, by simp, by norm_num⟩
    · intro h; exact absurd (show negAt oddBytes by unfold negAt; decide) h
    · intro _
      rw [show digitsAt oddBytes = [12] by decide, show weightAt oddBytes = 0 by decide]
      simp [mag]
    · exact ⟨-1200, by rw [show scaleAt oddBytes = 2 by decide]; norm_num⟩
  refine ⟨r, hr, ?_, hs⟩
  obtain ⟨hcr, hk, -, hsame⟩ := C74_content (by decide) hr
  obtain ⟨s1, s2, s3, s4⟩ := hsame (by decide)
  have hle := C74_size (by decide) hr (by decide)
  rw [show declared oddBytes = 9 by decide] at hle
  have hev : r.asBytes.length = 6 + 2 * r.rest.length := by rw [Bin.asBytes_length]; rfl
  rw [show digitsAt oddBytes = [12] by decide] at s4
  have := congrArg List.length s4
  unfold digitsAt declaredDigits at this
  simp only [List.length_map, List.length_range, List.length_cons, List.length_nil] at this
  have h6 : 6 ≤ digitsFrom r.asBytes := by unfold digitsFrom; split <;> omega
  have := hcr.1
  omega

end PgNumeric.Props
