import Verif.Proofs.Basic
/-! `strip` keeps the value and produces the stripped form; canonical forms are unique. -/
namespace PgNumeric
open Spec Var

theorem stripLead_mag (ds : List Int) (w : Int) :
    mag (stripLead ds w).1 (stripLead ds w).2 = mag ds w := by
  induction ds generalizing w with
  | nil => rfl
  | cons d ds ih =>
    unfold stripLead
    split
    · rw [ih, mag_cons]; simp_all
    · rfl

theorem stripLead_digits {ds : List Int} (h : Digits ds) (w : Int) : Digits (stripLead ds w).1 := by
  induction ds generalizing w with
  | nil => exact h
  | cons d ds ih =>
    unfold stripLead
    split
    · exact ih (Digits.cons.1 h).2 _
    · exact h

theorem stripLead_head (ds : List Int) (w : Int) : (stripLead ds w).1.head? ≠ some 0 := by
  induction ds generalizing w with
  | nil => simp [stripLead]
  | cons d ds ih =>
    unfold stripLead
    split
    · exact ih _
    · simpa

theorem stripLead_weight_le (ds : List Int) (w : Int) : (stripLead ds w).2 ≤ w := by
  induction ds generalizing w with
  | nil => simp [stripLead]
  | cons d ds ih =>
    unfold stripLead
    split
    · have := ih (w - 1); omega
    · simp

theorem stripLead_weight_ge (ds : List Int) (w : Int) : w - ds.length ≤ (stripLead ds w).2 := by
  induction ds generalizing w with
  | nil => simp [stripLead]
  | cons d ds ih =>
    unfold stripLead
    split
    · have := ih (w - 1); simp only [List.length_cons]; push_cast; omega
    · simp only [List.length_cons]; push_cast; omega

/-- The counting of leading zeros stays within `i32`. -/
theorem stripM_ok {v : Var} (h : -2147483648 ≤ v.weight - v.digits.length) (h' : v.weight ≤ 2147483647) :
    stripM v = .ok (strip v) := by
  unfold stripM
  have h1 := stripLead_weight_ge v.digits v.weight
  have h2 := stripLead_weight_le v.digits v.weight
  rw [fits_ok (by simp only [List.forall_mem_cons, List.not_mem_nil, IsEmpty.forall_iff, implies_true, and_true]; omega)]
  rfl

theorem stripLead_of_head {d : Int} {ds : List Int} (h : d ≠ 0) (w : Int) :
    stripLead (d :: ds) w = (d :: ds, w) := by simp [stripLead, h]

theorem stripTrail_nil_mag {ds : List Int} (h : stripTrail ds = []) (w : Int) : mag ds w = 0 := by
  induction ds generalizing w with
  | nil => rfl
  | cons d ds ih =>
    unfold stripTrail at h
    split at h
    · rename_i h'
      rw [mag_cons, ih h']
      split at h <;> simp_all
    · simp at h

theorem stripTrail_mag (ds : List Int) (w : Int) : mag (stripTrail ds) w = mag ds w := by
  induction ds generalizing w with
  | nil => rfl
  | cons d ds ih =>
    unfold stripTrail
    split
    · rename_i h'
      rw [mag_cons, stripTrail_nil_mag h']
      split <;> simp_all [mag_cons]
    · rw [mag_cons, mag_cons, ih]

theorem stripTrail_digits {ds : List Int} (h : Digits ds) : Digits (stripTrail ds) := by
  induction ds with
  | nil => exact h
  | cons d ds ih =>
    rw [Digits.cons] at h
    unfold stripTrail
    split
    · split
      · exact Digits.nil
      · exact Digits.cons.2 ⟨h.1, Digits.nil⟩
    · exact Digits.cons.2 ⟨h.1, ih h.2⟩

theorem stripTrail_last (ds : List Int) : (stripTrail ds).getLast? ≠ some 0 := by
  induction ds with
  | nil => simp [stripTrail]
  | cons d ds ih =>
    unfold stripTrail
    split
    · split <;> simp_all
    · rename_i x h
      rw [List.getLast?_cons]
      rcases hx : stripTrail ds with _ | ⟨y, ys⟩
      · simp_all
      · rw [hx, List.getLast?_cons] at ih
        rw [List.getLast?_cons]
        simpa using ih

theorem stripTrail_head (ds : List Int) (h : ds.head? ≠ some 0) : (stripTrail ds).head? = ds.head? := by
  cases ds with
  | nil => rfl
  | cons d ds =>
    unfold stripTrail
    split <;> simp_all

theorem stripTrail_length_le (ds : List Int) : (stripTrail ds).length ≤ ds.length := by
  induction ds with
  | nil => simp [stripTrail]
  | cons d ds ih =>
    unfold stripTrail
    split
    · split <;> simp
    · simpa using ih

theorem strip_digits {v : Var} (h : Digits v.digits) : Digits (strip v).digits := by
  unfold strip
  simp only
  split
  · exact Digits.nil
  · exact stripTrail_digits (stripLead_digits h _)

theorem strip_value (v : Var) : value (strip v) = value v := by
  unfold strip
  simp only
  split
  · rename_i h
    have h0 : mag v.digits v.weight = 0 := by
      rw [← stripLead_mag, ← stripTrail_mag, h]; rfl
    unfold value
    rw [h0]
    simp
    cases v.sign <;> rfl
  · unfold value
    simp only [stripTrail_mag, stripLead_mag]

theorem strip_stripped (v : Var) : Stripped (strip v) := by
  unfold strip
  simp only
  split
  · simp [Stripped]
  · rename_i h
    refine ⟨?_, stripTrail_last _, fun h' => absurd h' h⟩
    have := stripLead_head v.digits v.weight
    rw [stripTrail_head _ this]
    exact this

@[simp] theorem strip_dscale (v : Var) : (strip v).dscale = v.dscale := by
  unfold strip; simp only; split <;> rfl

theorem strip_sign {v : Var} (h : v.sign ≠ .nan) : (strip v).sign ≠ .nan := by
  unfold strip; simp only; split <;> simp [h]

theorem strip_length_le (v : Var) : (strip v).digits.length ≤ v.digits.length := by
  unfold strip; simp only; split
  · simp
  · refine (stripTrail_length_le _).trans ?_
    have : ∀ ds w, (stripLead ds w).1.length ≤ ds.length := by
      intro ds
      induction ds with
      | nil => simp [stripLead]
      | cons d ds ih =>
        intro w; unfold stripLead
        split
        · have := ih (w-1); simp; omega
        · simp
    exact this _ _

/-! ## Uniqueness of stripped forms -/

theorem head_ne_zero {d : Int} {ds : List Int} (h : (d :: ds).head? ≠ some 0) : d ≠ 0 := by
  simpa using h

/-- For non-empty stripped digits the magnitude lies in `[B^w, B^(w+1))`. -/
theorem stripped_mag_ge {v : Var} (h : Digits v.digits) (hs : Stripped v) (hne : v.digits ≠ []) :
    (10000 : ℚ) ^ v.weight ≤ mag v.digits v.weight := by
  obtain ⟨hh, -, -⟩ := hs
  cases hv : v.digits with
  | nil => exact absurd hv hne
  | cons d ds =>
    rw [hv] at h hh
    exact mag_ge_of_head h (head_ne_zero hh) _

theorem stripped_mag_pos {v : Var} (h : Digits v.digits) (hs : Stripped v) (hne : v.digits ≠ []) :
    0 < mag v.digits v.weight := lt_of_lt_of_le (B_zpow_pos _) (stripped_mag_ge h hs hne)

theorem stripped_zero_iff {v : Var} (h : Digits v.digits) (hs : Stripped v) :
    value v = 0 ↔ v.digits = [] := by
  constructor
  · intro h0
    by_contra hne
    have := stripped_mag_pos h hs hne
    rw [← abs_value v h, h0] at this
    simp at this
  · intro h0
    unfold value
    rw [h0]
    cases v.sign <;> simp

theorem B_zpow_lt_iff {a b : Int} : (10000 : ℚ) ^ a < 10000 ^ b ↔ a < b :=
  zpow_lt_zpow_iff_right₀ (by norm_num)
theorem B_zpow_le_iff {a b : Int} : (10000 : ℚ) ^ a ≤ 10000 ^ b ↔ a ≤ b :=
  zpow_le_zpow_iff_right₀ (by norm_num)
theorem T_zpow_lt_iff {a b : Int} : (10 : ℚ) ^ a < 10 ^ b ↔ a < b :=
  zpow_lt_zpow_iff_right₀ (by norm_num)
theorem T_zpow_le_iff {a b : Int} : (10 : ℚ) ^ a ≤ 10 ^ b ↔ a ≤ b :=
  zpow_le_zpow_iff_right₀ (by norm_num)

theorem mag_pos_of_last {l : List Int} (hd : Digits l) (hne : l ≠ []) (hl : l.getLast? ≠ some 0) (w : Int) :
    0 < mag l w := by
  induction l generalizing w with
  | nil => exact absurd rfl hne
  | cons x xs ih =>
    rw [Digits.cons] at hd
    rw [mag_cons]
    cases xs with
    | nil =>
      have : x ≠ 0 := by simpa using hl
      have : (0:ℚ) < x := by exact_mod_cast (by omega : (0:Int) < x)
      have := B_zpow_pos w
      simp; positivity
    | cons y ys =>
      have h1 := ih hd.2 (by simp) (by simpa using hl) (w - 1)
      have : (0:ℚ) ≤ x := by exact_mod_cast hd.1.1
      have := mul_nonneg this (B_zpow_pos w).le
      linarith

theorem digits_eq_of_mag {a b : List Int} (ha : Digits a) (hb : Digits b)
    (la : a.getLast? ≠ some 0) (lb : b.getLast? ≠ some 0) (w : Int) (h : mag a w = mag b w) : a = b := by
  induction a generalizing b w with
  | nil =>
    cases b with
    | nil => rfl
    | cons d ds =>
      exfalso
      rw [mag_nil] at h
      have := mag_pos_of_last hb (by simp) lb w
      linarith
  | cons x xs ih =>
    cases b with
    | nil =>
      exfalso
      have := mag_pos_of_last ha (by simp) la w
      rw [mag_nil] at h
      linarith
    | cons y ys =>
      rw [Digits.cons] at ha hb
      rw [mag_cons, mag_cons] at h
      have h1 := mag_lt ha.2 (w - 1)
      have h2 := mag_lt hb.2 (w - 1)
      have h3 := mag_nonneg ha.2 (w - 1)
      have h4 := mag_nonneg hb.2 (w - 1)
      rw [sub_add_cancel] at h1 h2
      have hw := B_zpow_pos w
      have hxy : x = y := by
        rcases lt_trichotomy x y with hlt | heq | hgt
        · exfalso
          have : (x : ℚ) + 1 ≤ y := by exact_mod_cast hlt
          nlinarith
        · exact heq
        · exfalso
          have : (y : ℚ) + 1 ≤ x := by exact_mod_cast hgt
          nlinarith
      subst hxy
      congr 1
      refine ih ha.2 hb.2 ?_ ?_ (w - 1) (by linarith)
      · cases xs with
        | nil => simp
        | cons z zs => simpa using la
      · cases ys with
        | nil => simp
        | cons z zs => simpa using lb

/-- Two stripped variables with the same value and display scale are equal. -/
theorem stripped_unique {a b : Var} (ha : Digits a.digits) (hb : Digits b.digits)
    (na : a.sign ≠ .nan) (nb : b.sign ≠ .nan)
    (sa : Stripped a) (sb : Stripped b) (hv : value a = value b) (hd : a.dscale = b.dscale) : a = b := by
  by_cases ea : a.digits = []
  · have : value b = 0 := by rw [← hv]; exact (stripped_zero_iff ha sa).2 ea
    have eb := (stripped_zero_iff hb sb).1 this
    obtain ⟨wa, ga⟩ := sa.2.2 ea
    obtain ⟨wb, gb⟩ := sb.2.2 eb
    cases a; cases b; simp_all
  · have eb : b.digits ≠ [] := by
      intro h
      exact ea ((stripped_zero_iff ha sa).1 (by rw [hv]; exact (stripped_zero_iff hb sb).2 h))
    have pa := stripped_mag_pos ha sa ea
    have pb := stripped_mag_pos hb sb eb
    have hm : mag a.digits a.weight = mag b.digits b.weight := by
      rw [← abs_value a ha, ← abs_value b hb, hv]
    have hs : a.sign = b.sign := by
      unfold value at hv
      cases h1 : a.sign <;> cases h2 : b.sign <;> rw [h1, h2] at hv <;> simp only at hv <;>
        first | rfl | exact absurd h1 na | exact absurd h2 nb | (exfalso; linarith)
    have hw : a.weight = b.weight := by
      have h1 := stripped_mag_ge ha sa ea
      have h2 := stripped_mag_ge hb sb eb
      have h3 := mag_lt ha a.weight
      have h4 := mag_lt hb b.weight
      rw [hm] at h1 h3
      have := B_zpow_lt_iff.1 (lt_of_le_of_lt h1 h4)
      have := B_zpow_lt_iff.1 (lt_of_le_of_lt h2 h3)
      omega
    have hds : a.digits = b.digits := by
      rw [hw] at hm
      exact digits_eq_of_mag ha hb sa.2.1 sb.2.1 _ hm
    cases a; cases b; simp_all

end PgNumeric
