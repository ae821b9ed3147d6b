import Verif.Proofs.UntrustedSign
import Verif.Proofs.Text
import Mathlib.Data.List.GetD
/-!
# Printing numbers from arbitrary bytes
-/
namespace PgNumeric.Untrusted
open PgNumeric Spec Props

/-- The integer part that is printed. -/
def intChars (ds : List Int) : Nat → Int → Str
  | 0, _ => []
  | n + 1, d => (if d > 0 then padI 4 (Var.digitAt ds d) else decI (Var.digitAt ds d)) ++ intChars ds n (d + 1)

theorem intLoop_ok [Build] (ds : List Int) : ∀ (n : ℕ) (d : Int), (Build.debug = true → ∀ i : ℕ, i < n → 0 ≤ Var.digitAt ds (d + i)) →
    intLoop ds n d = .ok (intChars ds n d)
  | 0, _, _ => rfl
  | n + 1, d, h => by
    unfold intLoop intChars
    dsimp only
    have h0 : Build.debug = true → 0 ≤ Var.digitAt ds d := fun hd => by simpa using h hd 0 (by omega)
    have hda : dassert (Var.digitAt ds d ≥ 0) = .ok () := by
      by_cases hb : Build.debug = true
      · exact dassert_ok (h0 hb)
      · unfold dassert; simp [hb]
    rw [hda, bind_ok, intLoop_ok ds n (d + 1) (fun hd i hi => by
      have := h hd (i + 1) (by omega)
      have e : d + ((i + 1 : ℕ) : ℤ) = d + 1 + i := by push_cast; ring
      rwa [e] at this), bind_ok]
    rfl

theorem intLoop_stop (e : Bool) (ds : List Int) : ∀ (n : ℕ) (d : Int), (∃ i : ℕ, i < n ∧ Var.digitAt ds (d + i) < 0) →
    @intLoop (dbg e) ds n d = .error .assert
  | 0, _, h => by obtain ⟨i, hi, -⟩ := h; omega
  | n + 1, d, h => by
    let _ : Build := dbg e
    unfold intLoop
    dsimp only
    by_cases h0 : 0 ≤ Var.digitAt ds d
    · rw [dassert_ok h0, bind_ok]
      obtain ⟨i, hi, hneg⟩ := h
      cases i with
      | zero => simp at hneg; omega
      | succ i =>
        rw [intLoop_stop e ds n (d + 1) ⟨i, by omega, by
          have e : d + ((i + 1 : ℕ) : ℤ) = d + 1 + i := by push_cast; ring
          rwa [e] at hneg⟩]
        rfl
    · have : @dassert (dbg e) (Var.digitAt ds d ≥ 0) _ = .error .assert := by
        unfold dassert
        have hb : (Build.debug && !(decide (Var.digitAt ds d ≥ 0))) = true := by
          have : decide (Var.digitAt ds d ≥ 0) = false := decide_eq_false h0
          rw [this]; rfl
        rw [if_pos hb]
        rfl
      rw [this]
      rfl

theorem digitAt_nat (ds : List Int) (i : ℕ) : Var.digitAt ds i = ds.getD i 0 := by
  unfold Var.digitAt
  by_cases h : i < ds.length
  · rw [if_pos (by omega)]; simp
  · rw [if_neg (by omega), List.getD_eq_default _ _ (by omega)]

theorem digitAt_mem (ds : List Int) (i : Int) : Var.digitAt ds i = 0 ∨ Var.digitAt ds i ∈ ds := by
  unfold Var.digitAt
  split
  · rename_i h
    right
    have : i.toNat < ds.length := by omega
    rw [List.getD_eq_getElem _ _ this]
    exact List.getElem_mem this
  · exact .inl rfl

/-- The text without its assertions. -/
def chars (v : Var) : Str :=
  (if v.sign = .neg then str "-" else []) ++ (if v.weight < 0 then str "0" else intChars v.digits (v.weight + 1).toNat 0) ++
    (if v.dscale > 0 then str "." ++ fracLoop v.digits v.dscale ((v.dscale + 3) / 4).toNat (v.weight + 1) 0 else [])

theorem write_ok [Build] {v : Var} (hv : Storable16 v) (h : Build.debug = true → ∀ i : ℕ, (i : ℤ) ≤ v.weight → 0 ≤ v.digits.getD i 0) :
    write v = .ok (chars v) := by
  have w1 := hv.weight_ge
  have w2 := hv.weight_le
  have s1 := hv.dscale_nonneg
  have s2 := hv.dscale_le
  unfold write chars
  rw [if_neg hv.not_nan, fits_ok (by fits_tac), bind_ok]
  dsimp only
  by_cases hw : v.weight < 0
  · rw [if_pos hw, if_pos hw]; rfl
  · rw [if_neg hw, if_neg hw, intLoop_ok _ _ _ (fun hd i hi => by
      rw [zero_add, digitAt_nat]
      exact h hd i (by omega))]
    rfl

theorem write_stop (e : Bool) {v : Var} (hv : Storable16 v) (h : ∃ i : ℕ, (i : ℤ) ≤ v.weight ∧ v.digits.getD i 0 < 0) :
    @write (dbg e) v = .error .assert := by
  have w1 := hv.weight_ge
  have w2 := hv.weight_le
  have s1 := hv.dscale_nonneg
  have s2 := hv.dscale_le
  obtain ⟨i, hi, hneg⟩ := h
  unfold write
  rw [if_neg hv.not_nan, fits_ok (by fits_tac), bind_ok]
  dsimp only
  rw [if_neg (by omega), intLoop_stop e _ _ _ ⟨i, by omega, by rw [zero_add, digitAt_nat]; exact hneg⟩]
  rfl

/-! ## Characters -/

theorem dec_dec (n : ℕ) : DecDigits (Text.dec n) ∧ Text.dec n ≠ [] := by
  rw [Text.dec_eq]
  exact ⟨(Text.natText_dec n).1, (Text.natText_dec n).2.1⟩

theorem pad_dec (k n : ℕ) : DecDigits (Text.pad k n) ∧ Text.pad k n ≠ [] ∧ k ≤ (Text.pad k n).length := by
  obtain ⟨h1, h2⟩ := dec_dec n
  unfold Text.pad
  refine ⟨?_, by simp [h2], by simp; omega⟩
  intro c hc
  rcases List.mem_append.1 hc with h | h
  · rw [(List.mem_replicate.1 h).2]; omega
  · exact h1 c h

/-- A digit or a minus sign. -/
def DigitOrMinus (s : Str) : Prop := ∀ c ∈ s, c = 45 ∨ (48 ≤ c ∧ c ≤ 57)

theorem decI_chars (d : Int) : DigitOrMinus (decI d) ∧ (0 ≤ d → DecDigits (decI d) ∧ decI d ≠ []) := by
  unfold decI
  split
  · refine ⟨?_, fun h => by omega⟩
    intro c hc
    rcases List.mem_cons.1 hc with rfl | h
    · exact .inl rfl
    · exact .inr ((dec_dec _).1 c h)
  · exact ⟨fun c hc => .inr ((dec_dec _).1 c hc), fun _ => dec_dec _⟩

theorem padI_chars (k : ℕ) (d : Int) : DigitOrMinus (padI k d) ∧ (0 ≤ d → DecDigits (padI k d) ∧ padI k d ≠ [] ∧ k ≤ (padI k d).length) := by
  unfold padI
  split
  · refine ⟨?_, fun h => by omega⟩
    intro c hc
    rcases List.mem_cons.1 hc with rfl | h
    · exact .inl rfl
    · exact .inr ((pad_dec _ _).1 c h)
  · exact ⟨fun c hc => .inr ((pad_dec _ _).1 c hc), fun _ => pad_dec _ _⟩

theorem divTenI_nonneg : ∀ (k : ℕ) {d : Int}, 0 ≤ d → 0 ≤ divTenI k d
  | 0, _, h => h
  | k + 1, _, h => divTenI_nonneg k (Int.tdiv_nonneg h (by decide))

theorem append_minus {a b : Str} (h1 : DigitOrMinus a) (h2 : DigitOrMinus b) : DigitOrMinus (a ++ b) :=
  fun c hc => (List.mem_append.1 hc).elim (h1 c) (h2 c)

theorem append_dec {a b : Str} (h1 : DecDigits a) (h2 : DecDigits b) : DecDigits (a ++ b) :=
  fun c hc => (List.mem_append.1 hc).elim (h1 c) (h2 c)

theorem intChars_minus (ds : List Int) : ∀ (n : ℕ) (d : Int), DigitOrMinus (intChars ds n d)
  | 0, _ => fun _ hc => absurd hc List.not_mem_nil
  | n + 1, d => by
    unfold intChars
    apply append_minus _ (intChars_minus ds n (d + 1))
    split
    · exact (padI_chars _ _).1
    · exact (decI_chars _).1

theorem fracLoop_minus (ds : List Int) (s : Int) : ∀ (n : ℕ) (d k : Int), DigitOrMinus (fracLoop ds s n d k)
  | 0, _, _ => fun _ hc => absurd hc List.not_mem_nil
  | n + 1, d, k => by
    unfold fracLoop
    apply append_minus _ (fracLoop_minus ds s n (d + 1) (k + 4))
    split
    · exact (padI_chars _ _).1
    · exact (padI_chars _ _).1

theorem nonneg_at {ds : List Int} (h : ∀ d ∈ ds, 0 ≤ d) (i : Int) : 0 ≤ Var.digitAt ds i := by
  rcases digitAt_mem ds i with e | e
  · rw [e]
  · exact h _ e

theorem intChars_dec {ds : List Int} (h : ∀ d ∈ ds, 0 ≤ d) : ∀ (n : ℕ) (d : Int), DecDigits (intChars ds n d) ∧ (0 < n → intChars ds n d ≠ [])
  | 0, _ => ⟨fun _ hc => absurd hc List.not_mem_nil, fun h => by omega⟩
  | n + 1, d => by
    unfold intChars
    have hd := nonneg_at h d
    have key : DecDigits (if d > 0 then padI 4 (Var.digitAt ds d) else decI (Var.digitAt ds d)) ∧
        (if d > 0 then padI 4 (Var.digitAt ds d) else decI (Var.digitAt ds d)) ≠ [] := by
      split
      · exact ⟨((padI_chars _ _).2 hd).1, ((padI_chars _ _).2 hd).2.1⟩
      · exact (decI_chars _).2 hd
    exact ⟨append_dec key.1 (intChars_dec h n (d + 1)).1, fun _ => by simp [key.2]⟩

theorem fracLoop_dec {ds : List Int} (h : ∀ d ∈ ds, 0 ≤ d) (s : Int) : ∀ (n : ℕ) (d k : Int), DecDigits (fracLoop ds s n d k) ∧
    (k + 4 * n - 4 < s → s ≤ k + 4 * n → s - k ≤ (fracLoop ds s n d k).length)
  | 0, _, _ => ⟨fun _ hc => absurd hc List.not_mem_nil, fun _ h => by simp [fracLoop]; omega⟩
  | n + 1, d, k => by
    unfold fracLoop
    have hd := nonneg_at h d
    obtain ⟨i1, i2⟩ := fracLoop_dec h s n (d + 1) (k + 4)
    dsimp only
    split
    · rename_i hk
      obtain ⟨p1, p2, p3⟩ := (padI_chars 4 _).2 hd
      refine ⟨append_dec p1 i1, fun h1 h2 => ?_⟩
      have := i2 (by push_cast at h1; omega) (by push_cast at h2; omega)
      rw [List.length_append]
      push_cast
      omega
    · rename_i hk
      obtain ⟨p1, p2, p3⟩ := (padI_chars (s - k).toNat _).2 (divTenI_nonneg (4 - (s - k).toNat) hd)
      refine ⟨append_dec p1 i1, fun h1 h2 => ?_⟩
      rw [List.length_append]
      push_cast
      omega

/-! ## Agreement with `Text.write` -/

theorem divTenI_eq : ∀ (k : ℕ) {d : Int}, 0 ≤ d → (divTenI k d).toNat = Text.divTen k d.toNat
  | 0, _, _ => rfl
  | k + 1, d, h => by
    unfold divTenI Text.divTen
    rw [divTenI_eq k (Int.tdiv_nonneg h (by decide))]
    congr 1
    rw [Int.tdiv_eq_ediv_of_nonneg h]
    omega

theorem fracLoop_eq {ds : List Int} (h : ∀ d ∈ ds, 0 ≤ d) (s : Int) : ∀ (n : ℕ) (d k : Int), fracLoop ds s n d k = Text.fracLoop ds s n d k
  | 0, _, _ => rfl
  | n + 1, d, k => by
    unfold fracLoop Text.fracLoop
    have hd := nonneg_at h d
    dsimp only
    rw [fracLoop_eq h s n]
    congr 1
    split
    · unfold padI; rw [if_neg (by omega)]
    · unfold padI
      rw [if_neg (not_lt.2 (divTenI_nonneg _ hd)), divTenI_eq _ hd]

theorem intLoop_eq [Build] {ds : List Int} (h : ∀ d ∈ ds, 0 ≤ d) : ∀ (n : ℕ) (d : Int), intLoop ds n d = Text.intLoop ds n d
  | 0, _ => rfl
  | n + 1, d => by
    unfold intLoop Text.intLoop
    have hd := nonneg_at h d
    dsimp only
    rw [intLoop_eq h n]
    have e1 : padI 4 (Var.digitAt ds d) = Text.pad 4 (Var.digitAt ds d).toNat := by unfold padI; rw [if_neg (by omega)]
    have e2 : decI (Var.digitAt ds d) = Text.dec (Var.digitAt ds d).toNat := by unfold decI; rw [if_neg (by omega)]
    rw [e1, e2]

theorem write_eq [Build] {v : Var} (h : ∀ d ∈ v.digits, 0 ≤ d) : write v = Text.write v := by
  unfold write Text.write Text.intText
  simp only [fracLoop_eq h, intLoop_eq h]
  split
  · rfl
  · congr 1
    funext _
    split <;> rfl

end PgNumeric.Untrusted
