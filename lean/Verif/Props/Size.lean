import Verif.Props.StoredArith
import Verif.Proofs.Sqrt
/-!
# The size of a number in bytes (C70)

`asBytes` is what `as_bytes` shows of a number, what serde writes in binary formats and what PostgreSQL would store.
-/
namespace PgNumeric.Props
open PgNumeric Spec Var Num

/-- The length of the encoded form of a variable. -/
theorem encode_size [Build] {v : Var} (h : Bin.Storable v) :
    ((Bin.encode v).asBytes.length : Int) = (if v.dscale ≤ 63 ∧ v.weight ≤ 63 ∧ -64 ≤ v.weight then 6 else 8) + 2 * v.ndigits := by
  rw [Bin.asBytes_length]
  split
  · rename_i hs
    rw [Bin.encode_short h hs]
    simp [Bin.size, ndigits]
  · rename_i hs
    rw [Bin.encode_long h hs]
    simp [Bin.size, ndigits]; ring

/-- C70: the size in bytes of a number other than zero, from the number alone. With `w` the position of its first group of four decimals
(`10000^w ≤ |x| < 10000^(w+1)`) and `m` the least number of groups behind the point that hold it, there are `w + 1 + m` groups of two bytes; the
header takes 6 bytes if `w` fits seven bits and the scale six bits, and 8 otherwise. -/
theorem C70_size [Build] {a : Bin} {x : ℚ} {s w m : ℤ} (ha : Holds a x s) (h1 : (10000:ℚ) ^ w ≤ |x|) (h2 : |x| < (10000:ℚ) ^ (w + 1))
    (h3 : HasScale x (4 * m)) (h4 : ¬ HasScale x (4 * (m - 1))) :
    (a.asBytes.length : ℤ) = (if s ≤ 63 ∧ w ≤ 63 ∧ -64 ≤ w then 6 else 8) + 2 * (w + 1 + m) := by
  obtain ⟨v, hc, rfl, rfl, rfl⟩ := ha
  have hne : v.digits ≠ [] := by
    intro h
    have := (stripped_zero_iff hc.digits hc.stripped).2 h
    rw [this, abs_zero] at h1
    exact absurd h1 (not_le.2 (B_zpow_pos _))
  have hab := abs_value v hc.digits
  have hlt := mag_lt hc.digits v.weight
  have hge : (10000:ℚ) ^ v.weight ≤ mag v.digits v.weight := by
    obtain ⟨d, ds, hd⟩ := List.exists_cons_of_ne_nil hne
    have hh := hc.stripped.1
    have hdg := hc.digits
    rw [hd] at hh hdg ⊢
    exact mag_ge_of_head hdg (by simpa using hh) _
  rw [← hab] at hlt hge
  have hw : v.weight = w := by
    have e1 := lt_of_le_of_lt h1 hlt
    have e2 := lt_of_le_of_lt hge h2
    rw [zpow_lt_zpow_iff_right₀ (by norm_num)] at e1 e2
    omega
  have hm : v.ndigits = w + 1 + m := by
    have hle := stripped_len hc.digits hc.stripped hne h3
    refine le_antisymm (by omega) ?_
    by_contra hcon
    apply h4
    have hsc : HasScale (value v) (4 * (v.ndigits - v.weight - 1)) := by
      have : HasScale (mag v.digits v.weight) (4 * (v.ndigits - v.weight - 1)) := by
        refine ⟨dval v.digits, ?_⟩
        rw [mag_eq_dval, B_eq_T, mul_assoc, ← zpow_add₀ (by norm_num)]
        rw [show 4 * (v.weight + 1 - (v.digits.length : ℤ)) + 4 * (v.ndigits - v.weight - 1) = 0 by simp only [ndigits]; ring]
        simp
      obtain ⟨n, hn⟩ := this
      unfold value
      cases v.sign
      · exact ⟨n, hn⟩
      · exact ⟨-n, by rw [neg_mul, hn]; push_cast; rfl⟩
      · exact ⟨n, hn⟩
    exact hsc.mono (by omega)
  rw [encode_size hc.storable, hw, hm]

/-- C70: zero takes 6 bytes, 8 if its scale is above 63. -/
theorem C70_size_zero [Build] {a : Bin} {s : ℤ} (ha : Holds a 0 s) : (a.asBytes.length : ℤ) = if s ≤ 63 then 6 else 8 := by
  obtain ⟨v, hc, rfl, hv, rfl⟩ := ha
  have hne := (stripped_zero_iff hc.digits hc.stripped).1 hv
  obtain ⟨hw, -⟩ := hc.stripped.2.2 hne
  rw [encode_size hc.storable, hw]
  simp [ndigits, hne]

/-- C70: no number takes more than 73736 bytes. -/
theorem C70_size_max [Build] {a : Bin} {x : ℚ} {s : ℤ} (ha : Holds a x s) : a.asBytes.length ≤ 73736 := by
  obtain ⟨v, hc, rfl, rfl, rfl⟩ := ha
  have h := encode_size hc.storable
  have hn : v.ndigits ≤ 32768 + 4096 := by
    by_cases hne : v.digits = []
    · simp [ndigits, hne]
    · have := stripped_len hc.digits hc.stripped hne hc.scale
      have := hc.weight_le
      have := hc.dscale_le
      omega
  split at h <;> omega

/-- C70: of all the stored forms of a number with a given scale, the library makes the shortest. -/
theorem C70_shortest [Build] {a b : Bin} {x : ℚ} {s : ℤ} (ha : Holds a x s) (hb : Stored b x s) : a.asBytes.length ≤ b.asBytes.length := by
  obtain ⟨u, hc, rfl, hux, hus⟩ := ha
  obtain ⟨neg, w, ds, hl, hd, h0, hx, hsc⟩ := hb
  obtain ⟨v, rfl, hv, hvx, -⟩ := Bin.stored_layout hl hd h0 hx hsc
  have hu : u = strip ⟨w, s, if neg then .neg else .pos, ds⟩ := by
    refine stripped_unique hc.digits hv.canonical.digits hc.not_nan hv.canonical.not_nan hc.stripped hv.canonical.stripped ?_ ?_
    · rw [hux, ← hvx]; exact (strip_value _).symm
    · rw [hus]; simp
  have h := encode_size hc.storable
  have hsb : (b.asBytes.length : ℤ) = 6 + 2 * b.rest.length := by rw [Bin.asBytes_length]; simp [Bin.size]
  have key : u.ndigits = 0 ∧ u.weight = 0 ∨ ∃ k : ℕ, u.weight = w - k ∧ u.ndigits + k ≤ ds.length := by
    rw [hu]
    unfold strip
    rw [stripLead_loose]
    dsimp only
    split
    · left; simp [ndigits]
    · right
      refine ⟨(ds.takeWhile (· = 0)).length, rfl, ?_⟩
      have e1 := stripTrail_length_le (ds.dropWhile (· = 0))
      have e2 := congrArg List.length (List.takeWhile_append_dropWhile (p := (fun d : ℤ => decide (d = 0))) (l := ds))
      rw [List.length_append] at e2
      simp only [ndigits]
      omega
  obtain ⟨-, -, -, ⟨g1, g2, g3, -, g5⟩ | ⟨g1, g2, g3, -, g5⟩⟩ := hl
  · have g5 := congrArg List.length g5
    rw [List.length_map] at g5
    rcases key with ⟨k1, k2⟩ | ⟨k, k1, k2⟩ <;> split at h <;> omega
  · have g5 := congrArg List.length g5
    rw [List.length_map, List.length_cons] at g5
    have : 0 ≤ u.ndigits := by simp [ndigits]
    rcases key with ⟨k1, k2⟩ | ⟨k, k1, k2⟩ <;> split at h <;> omega

/-- 12345.678 takes 12 bytes: three groups (1, 2345, 6780) behind a short header. -/
example [Build] : ∃ a, Holds a (12345678 / 1000) 3 ∧ a.asBytes.length = 12 := by
  obtain ⟨a, ha⟩ := witness (x := 12345678 / 1000) (s := 3) 12345678 (by norm_num) (by norm_num) (by norm_num) (by norm_num [abs_lt])
  refine ⟨a, ha, ?_⟩
  have := C70_size (w := 1) (m := 1) ha (by norm_num) (by norm_num) ⟨123456780, by norm_num⟩ (by
    rintro ⟨n, hn⟩
    norm_num at hn
    have : (12345678:ℤ) = 1000 * n := by
      have : (12345678:ℚ) = ((1000 * n : ℤ) : ℚ) := by push_cast; rw [← hn]; norm_num
      exact_mod_cast this
    omega)
  norm_num at this
  exact_mod_cast this

/-- The padded form of -1.5 is longer than the canonical one. -/
example [Build] : ∃ a, Holds a (-3 / 2) 1 ∧ a.asBytes.length ≤ paddedForm.asBytes.length := by
  obtain ⟨a, ha⟩ := witness (x := -3 / 2) (s := 1) (-15) (by norm_num) (by norm_num) (by norm_num) (by norm_num [abs_lt])
  exact ⟨a, ha, C70_shortest ha paddedForm_stored⟩

end PgNumeric.Props
