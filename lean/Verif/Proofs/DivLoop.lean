import Verif.Proofs.Div
/-! The division loop and `div_common` against the exact quotient. -/
namespace PgNumeric
open Spec Var

theorem knuthLoop_spec [Build] (dv : List Int) (hdv : Digits dv) (hm : 2 ≤ dv.length) (hhead : 1 ≤ dv.headD 0) :
    ∀ (n j : Nat) (pre E : List Int), Digits E → pre.length = j → dv.length + n ≤ E.length →
      dval (E.take dv.length) < dval dv →
      ∃ Q, knuthLoop (0 :: dv) n j (pre ++ E) = .ok Q ∧ Digits Q ∧ Q.length = n ∧
        dval Q * dval dv ≤ dval (E.take (dv.length + n)) ∧
        dval (E.take (dv.length + n)) < (dval Q + 1) * dval dv := by
  intro n
  induction n with
  | zero =>
    intro j pre E hE hp hl hinv
    refine ⟨[], rfl, Digits.nil, rfl, ?_, ?_⟩
    · simpa using dval_nonneg (hE.take dv.length)
    · simpa using hinv
  | succ n ih =>
    intro j pre E hE hp hl hinv
    obtain ⟨q, E', e, hq0, hq1, hE', hlE, hval, hlt, hdrop⟩ :=
      knuthStep_spec dv hdv hm hhead pre E hE j hp (by omega) hinv
    obtain ⟨Q, e2, hQ, hlQ, b1, b2⟩ := ih (j + 1) (pre ++ [0]) E' hE' (by simp [hp]) (by omega) hlt
    unfold knuthLoop
    rw [e]
    simp only [bind_ok]
    rw [show pre ++ 0 :: E' = pre ++ [0] ++ E' by simp, e2]
    simp only [bind_ok, pure_ok]
    refine ⟨_, rfl, Digits.cons.2 ⟨⟨hq0, hq1⟩, hQ⟩, by simp [hlQ], ?_⟩
    have t1 : E.take (dv.length + (n + 1)) = E.take (dv.length + 1) ++ (E.drop (dv.length + 1)).take n := by
      rw [← List.take_add]; congr 1; omega
    have t2 : E'.take (dv.length + n) = E'.take dv.length ++ (E.drop (dv.length + 1)).take n := by
      rw [← hdrop, ← List.take_add]
    have hln : ((E.drop (dv.length + 1)).take n).length = n := by
      rw [List.length_take, List.length_drop]; omega
    rw [t2, dval_append, hln] at b1 b2
    rw [t1, dval_append, hln, dval_cons, hlQ, hval]
    have hpn : (0:Int) < 10000 ^ n := by positivity
    constructor <;> linarith

theorem scale_head {f : Int} (h1 : 1 ≤ f) (h2 : f < 5000) : 5000 ≤ f * (10000 / (f + 1)) := by
  have hd : 2 ≤ 10000 / (f + 1) := by
    rw [Int.le_ediv_iff_mul_le (by omega)]; omega
  have hm : 10000 < (10000 / (f + 1) + 1) * (f + 1) := Int.lt_ediv_add_one_mul_self _ (by omega)
  generalize 10000 / (f + 1) = d at *
  by_cases hf : f = 1
  · subst hf; omega
  · nlinarith [mul_nonneg (by omega : 0 ≤ f - 2) (by omega : 0 ≤ d - 2)]

theorem dval_take_le (l : List Int) (n : Nat) (h : Digits l) :
    dval (l.take n) * 10000 ^ (l.length - n) ≤ dval l ∧ dval l < (dval (l.take n) + 1) * 10000 ^ (l.length - n) := by
  have e := dval_take_drop l n
  have h0 := dval_nonneg (h.drop n)
  have h1 := dval_lt (h.drop n)
  rw [List.length_drop] at h1
  constructor <;> linarith

/-- The quotient digits: `Q` is the floor of the scaled quotient. -/
theorem divDigits_spec [Build] (d1 d2 : List Int) (h1 : Digits d1) (h2 : Digits d2) (h20 : d2 ≠ [])
    (hh : d2.headD 0 ≠ 0) (resN divN : Nat) (hdn : resN + d2.length ≤ divN) (hd1 : d1.length ≤ divN) :
    ∃ Q, divDigits d1 d2 resN divN = .ok Q ∧ Digits Q ∧ Q.length = resN ∧
      dval Q * dval d2 * 10000 ^ (divN + 1 - (d2.length + resN)) ≤ dval d1 * 10000 ^ (divN - d1.length) ∧
      dval d1 * 10000 ^ (divN - d1.length) < (dval Q + 1) * dval d2 * 10000 ^ (divN + 1 - (d2.length + resN)) := by
  unfold divDigits
  set D' := d1 ++ List.replicate (divN - d1.length) 0 with hD'
  have hD'd : Digits D' := Digits.append.2 ⟨h1, Digits.replicate _⟩
  have hD'l : D'.length = divN := by rw [hD']; simp; omega
  have hD'v : dval D' = dval d1 * 10000 ^ (divN - d1.length) := dval_replicate_append _ _
  rw [← hD'v]
  have hl2 : 0 < d2.length := List.length_pos_iff.2 h20
  obtain ⟨v1, vr, rfl⟩ : ∃ v1 vr, d2 = v1 :: vr := by
    cases d2 with
    | nil => exact absurd rfl h20
    | cons v1 vr => exact ⟨v1, vr, rfl⟩
  simp only [List.headD_cons] at hh
  have h2' := Digits.cons.1 h2
  have hv1 : 1 ≤ v1 := by omega
  by_cases hone : (v1 :: vr).length = 1
  · simp only [hone, if_true]
    have : vr = [] := by simpa using hone
    subst this
    have hg : getM (0 :: [v1]) 1 = .ok v1 := rfl
    rw [hg, bind_ok]
    have hDD : Digits (0 :: D') := Digits.cons.2 ⟨by omega, hD'd⟩
    simp only [List.length_cons, List.length_nil, zero_add] at hdn
    obtain ⟨Q, e, hQ, hlQ, b1, b2⟩ := divSingle_spec (0 :: D') v1 hDD ⟨hv1, h2'.1.2⟩ resN 0 0
      (by simp; omega) le_rfl (by omega)
    simp only [zero_mul, zero_add, List.drop_succ_cons, List.drop_zero] at b1 b2
    refine ⟨Q, e, hQ, hlQ, ?_⟩
    obtain ⟨t1, t2⟩ := dval_take_le D' resN hD'd
    rw [hD'l] at t1 t2
    have hpw : (0:Int) < 10000 ^ (divN - resN) := by positivity
    have he : divN + 1 - (1 + resN) = divN - resN := by omega
    have hdv : dval [v1] = v1 := by simp [dval_cons]
    rw [he, hdv]
    constructor
    · exact (mul_le_mul_of_nonneg_right b1 hpw.le).trans t1
    · refine lt_of_lt_of_le t2 (mul_le_mul_of_nonneg_right (by omega) hpw.le)
  · simp only [hone, if_false]
    have hg : getM (0 :: v1 :: vr) 1 = .ok v1 := rfl
    rw [hg, bind_ok]
    have hm2 : 2 ≤ (v1 :: vr).length := by omega
    -- common conclusion for a dividend `D` and divisor `dv` scaled by `d`
    have core : ∀ (d : Int) (dv D : List Int), 1 ≤ d → Digits dv → Digits D → dv.length = (v1 :: vr).length →
        1 ≤ dv.headD 0 → D.length = divN + 1 → dval dv = d * dval (v1 :: vr) → dval D = d * dval D' →
        ∃ Q, knuthLoop (0 :: dv) resN 0 D = .ok Q ∧ Digits Q ∧ Q.length = resN ∧
          dval Q * dval (v1 :: vr) * 10000 ^ (divN + 1 - ((v1 :: vr).length + resN)) ≤ dval D' ∧
          dval D' < (dval Q + 1) * dval (v1 :: vr) * 10000 ^ (divN + 1 - ((v1 :: vr).length + resN)) := by
      intro d dv D hd1' hdv hD hdl hdh hDl hdvv hDv
      set m := (v1 :: vr).length with hmd
      have hinit : dval (D.take dv.length) < dval dv := by
        have t1 := (dval_take_le D dv.length hD).1
        rw [hDl, hdl] at t1
        have hD'lt := dval_lt hD'd
        rw [hD'l] at hD'lt
        have hv2lb : (10000:Int) ^ (m - 1) ≤ dval (v1 :: vr) := by
          rw [dval_cons, hmd, List.length_cons, Nat.add_sub_cancel]
          have := dval_nonneg h2'.2
          have hp : (0:Int) < 10000 ^ vr.length := by positivity
          nlinarith
        by_contra hc
        push Not at hc
        rw [hdl] at hc
        have hpw : (0:Int) < 10000 ^ (divN + 1 - m) := by positivity
        have c1 : dval dv * 10000 ^ (divN + 1 - m) ≤ d * dval D' := by
          rw [← hDv]; exact (mul_le_mul_of_nonneg_right hc hpw.le).trans t1
        rw [hdvv, mul_assoc] at c1
        have c2 : dval (v1 :: vr) * 10000 ^ (divN + 1 - m) ≤ dval D' := le_of_mul_le_mul_left c1 (by omega)
        have c3 : (10000:Int) ^ (m - 1) * 10000 ^ (divN + 1 - m) ≤ dval D' :=
          (mul_le_mul_of_nonneg_right hv2lb hpw.le).trans c2
        rw [← pow_add, show m - 1 + (divN + 1 - m) = divN by omega] at c3
        linarith
      obtain ⟨Q, e, hQ, hlQ, b1, b2⟩ := knuthLoop_spec dv hdv (by omega) hdh resN 0 [] D hD rfl (by omega) hinit
      rw [List.nil_append] at e
      refine ⟨Q, e, hQ, hlQ, ?_⟩
      obtain ⟨t1, t2⟩ := dval_take_le D (dv.length + resN) hD
      rw [hDl, hdl, hDv] at t1 t2
      rw [hdl, hdvv] at b1 b2
      have hpw : (0:Int) < 10000 ^ (divN + 1 - (m + resN)) := by positivity
      constructor
      · have c := (mul_le_mul_of_nonneg_right b1 hpw.le).trans t1
        have c' : d * (dval Q * dval (v1 :: vr) * 10000 ^ (divN + 1 - (m + resN))) ≤ d * dval D' := by linarith
        exact le_of_mul_le_mul_left c' (by omega)
      · have c : d * dval D' < _ := lt_of_lt_of_le t2 (mul_le_mul_of_nonneg_right (by omega : _ + 1 ≤ (dval Q + 1) * (d * dval (v1 :: vr))) hpw.le)
        have c' : d * dval D' < d * ((dval Q + 1) * dval (v1 :: vr) * 10000 ^ (divN + 1 - (m + resN))) := by linarith
        exact lt_of_mul_lt_mul_left c' (by omega)
    by_cases hsc : v1 < 5000
    · simp only [hsc, if_true, NBASE]
      set d := 10000 / (v1 + 1) with hd
      have hdle : d * (v1 + 1) ≤ 10000 := Int.ediv_mul_le _ (by omega)
      have hdt := scale_head hv1 hsc
      have hd1' : 1 ≤ d := by
        by_contra hc
        have : d ≤ 0 := by omega
        nlinarith
      have hd5 : d ≤ 5000 := by
        by_contra hc
        nlinarith
      obtain ⟨dv, c, e, k1, k2, k3, k4, k5⟩ := scaleUp_spec d ⟨hd1', hd5⟩ (v1 :: vr) h2
      have hvrlt := dval_lt h2'.2
      have hpv : (0:Int) < 10000 ^ vr.length := by positivity
      have hv2ub : d * dval (v1 :: vr) < 10000 ^ (v1 :: vr).length := by
        rw [dval_cons, List.length_cons, pow_succ]
        have : d * (v1 * 10000 ^ vr.length + dval vr) < d * ((v1 + 1) * 10000 ^ vr.length) :=
          mul_lt_mul_of_pos_left (by linarith) (by omega)
        have := mul_le_mul_of_nonneg_right hdle hpv.le
        linarith
      have hcz : c = 0 := by
        have := dval_nonneg k1
        by_contra hne
        have : 1 ≤ c := by omega
        have hp : (0:Int) < 10000 ^ (v1 :: vr).length := by positivity
        have := mul_le_mul_of_nonneg_right this hp.le
        linarith
      subst hcz
      rw [e]
      simp only [bind_ok, dassert_true]
      have htk : (0 :: D').take (d1.length + 1) = 0 :: d1 := by
        rw [List.take_succ_cons, hD', List.take_append_of_le_length le_rfl, List.take_length]
      have hdr : (0 :: D').drop (d1.length + 1) = List.replicate (divN - d1.length) 0 := by
        rw [List.drop_succ_cons, hD', List.drop_append_of_le_length le_rfl, List.drop_length, List.nil_append]
      rw [htk, hdr]
      obtain ⟨dd, c, e, m1, m2, m3, m4, m5⟩ := scaleUp_spec d ⟨hd1', hd5⟩ (0 :: d1) (Digits.cons.2 ⟨by omega, h1⟩)
      have hz : dval (0 :: d1) = dval d1 := by rw [dval_cons]; simp
      rw [hz, List.length_cons] at m5
      have hcz : c = 0 := by
        have := dval_nonneg m1
        have hlt := dval_lt h1
        by_contra hne
        have : 1 ≤ c := by omega
        have hp : (0:Int) < 10000 ^ d1.length := by positivity
        rw [pow_succ] at m5
        have h7 := mul_le_mul_of_nonneg_right this (by positivity : (0:Int) ≤ 10000 ^ d1.length * 10000)
        have h8 := mul_lt_mul_of_pos_left hlt (by omega : 0 < d)
        have h9 := mul_le_mul_of_nonneg_right hd5 hp.le
        linarith
      subst hcz
      rw [e]
      simp only [bind_ok, dassert_true]
      have hhead : dv.headD 0 ≥ 5000 := by
        cases hdv : dv with
        | nil => rw [hdv] at k2; simp at k2
        | cons x xs =>
          simp only [List.headD_cons]
          rw [hdv] at k1 k2 k5
          have hxl : xs.length = vr.length := by simpa using k2
          rw [dval_cons, dval_cons, hxl] at k5
          have := dval_nonneg h2'.2
          have hxs := dval_lt (Digits.cons.1 k1).2
          rw [hxl] at hxs
          by_contra hc
          have : x + 1 ≤ 5000 := by omega
          have h7 := mul_le_mul_of_nonneg_right this hpv.le
          have h8 := mul_le_mul_of_nonneg_right hdt hpv.le
          have h9 : 0 ≤ d * dval vr := mul_nonneg (by omega) (by assumption)
          linarith
      rw [dassert_ok hhead, bind_ok]
      refine core d dv _ hd1' k1 (Digits.append.2 ⟨m1, Digits.replicate _⟩) k2 (by omega) ?_ (by simpa using k5) ?_
      · rw [List.length_append, m2, List.length_cons, List.length_replicate]; omega
      · rw [dval_append, dval_replicate, List.length_replicate, hD'v]
        have : dval dd = d * dval d1 := by simpa using m5
        rw [this]; ring
    · simp only [hsc, if_false]
      refine core 1 (v1 :: vr) (0 :: D') le_rfl h2 (Digits.cons.2 ⟨by omega, hD'd⟩) rfl hv1 (by simp [hD'l])
        (by ring) ?_
      rw [dval_cons]; ring

/-! ## Rounding a truncated expansion -/

/-- Rounding half up commutes with a prior truncation to a finer even grid. -/
theorem floor_half_of_floor {y : ℚ} {K : ℤ} (hK : 0 < K) (hev : K % 2 = 0) :
    ⌊((⌊y * K⌋ : ℤ) : ℚ) / K + 1 / 2⌋ = ⌊y + 1 / 2⌋ := by
  have hKq : (0:ℚ) < K := by exact_mod_cast hK
  obtain ⟨L, hL⟩ : ∃ L, K = 2 * L := ⟨K / 2, by omega⟩
  have hLq : (K:ℚ) = 2 * L := by exact_mod_cast hL
  apply le_antisymm
  · apply Int.floor_le_floor
    have : ((⌊y * K⌋ : ℤ) : ℚ) / K ≤ y := by
      rw [div_le_iff₀ hKq]; exact Int.floor_le _
    linarith
  · rw [Int.le_floor]
    set m := ⌊y + 1/2⌋ with hm
    have h1 : (m:ℚ) ≤ y + 1/2 := Int.floor_le _
    have h2 : ((m * K - L : ℤ) : ℚ) ≤ y * K := by
      push_cast
      have : ((m:ℚ) - 1/2) * K ≤ y * K := mul_le_mul_of_nonneg_right (by linarith) hKq.le
      rw [hLq] at this ⊢
      linarith
    have h3 : m * K - L ≤ ⌊y * K⌋ := Int.le_floor.2 h2
    have h4 : ((m * K - L : ℤ) : ℚ) ≤ ((⌊y * K⌋ : ℤ) : ℚ) := by exact_mod_cast h3
    have h5 : (m:ℚ) - 1/2 ≤ ((⌊y * K⌋ : ℤ) : ℚ) / K := by
      rw [le_div_iff₀ hKq]
      push_cast at h4
      rw [hLq] at h4 ⊢
      linarith
    linarith

theorem floor_of_floor {y : ℚ} {K : ℤ} (hK : 0 < K) :
    ⌊((⌊y * K⌋ : ℤ) : ℚ) / K⌋ = ⌊y⌋ := by
  have hKq : (0:ℚ) < K := by exact_mod_cast hK
  apply le_antisymm
  · apply Int.floor_le_floor
    rw [div_le_iff₀ hKq]; exact Int.floor_le _
  · rw [Int.le_floor, le_div_iff₀ hKq]
    have h1 : ((⌊y⌋ * K : ℤ) : ℚ) ≤ y * K := by
      push_cast; exact mul_le_mul_of_nonneg_right (Int.floor_le _) hKq.le
    have h3 : ⌊y⌋ * K ≤ ⌊y * K⌋ := Int.le_floor.2 h1
    exact_mod_cast h3

theorem rmag_of_trunc {x : ℚ} {s e : Int} (he : s + 1 ≤ e) : rmag (tmag x e) s = rmag x s := by
  obtain ⟨k, hk⟩ := Int.eq_ofNat_of_zero_le (a := e - s - 1) (by omega)
  have hes : e = s + (k + 1 : ℕ) := by push_cast; omega
  unfold rmag tmag
  have hT := T_zpow_pos s
  have hTe : (10:ℚ) ^ e = 10 ^ s * ((10 ^ (k+1) : ℤ) : ℚ) := by
    rw [hes, zpow_add₀ (by norm_num), zpow_natCast]; push_cast; rfl
  have hKp : (0:ℤ) < 10 ^ (k+1) := by positivity
  have hKq : (0:ℚ) < ((10 ^ (k+1) : ℤ) : ℚ) := by exact_mod_cast hKp
  congr 2
  rw [hTe]
  have : ((⌊x * (10 ^ s * ((10 ^ (k+1) : ℤ) : ℚ))⌋ : ℤ) : ℚ) / (10 ^ s * ((10 ^ (k+1) : ℤ) : ℚ)) * 10 ^ s =
      ((⌊(x * 10 ^ s) * ((10 ^ (k+1) : ℤ) : ℚ)⌋ : ℤ) : ℚ) / ((10 ^ (k+1) : ℤ) : ℚ) := by
    rw [← mul_assoc]; field_simp
  rw [this, floor_half_of_floor hKp]
  rw [pow_succ, Int.mul_emod]; simp

theorem tmag_of_trunc {x : ℚ} {s e : Int} (he : s ≤ e) : tmag (tmag x e) s = tmag x s := by
  obtain ⟨k, hk⟩ := Int.eq_ofNat_of_zero_le (a := e - s) (by omega)
  have hes : e = s + (k : ℕ) := by omega
  unfold tmag
  have hT := T_zpow_pos s
  have hTe : (10:ℚ) ^ e = 10 ^ s * ((10 ^ k : ℤ) : ℚ) := by
    rw [hes, zpow_add₀ (by norm_num), zpow_natCast]; push_cast; rfl
  have hKp : (0:ℤ) < 10 ^ k := by positivity
  have hKq : (0:ℚ) < ((10 ^ k : ℤ) : ℚ) := by exact_mod_cast hKp
  congr 2
  rw [hTe]
  have : ((⌊x * (10 ^ s * ((10 ^ k : ℤ) : ℚ))⌋ : ℤ) : ℚ) / (10 ^ s * ((10 ^ k : ℤ) : ℚ)) * 10 ^ s =
      ((⌊(x * 10 ^ s) * ((10 ^ k : ℤ) : ℚ)⌋ : ℤ) : ℚ) / ((10 ^ k : ℤ) : ℚ) := by
    rw [← mul_assoc]; field_simp
  rw [this, floor_of_floor hKp]

/-! ## div_common -/

theorem value_div_sign (a b : Var) (na : a.sign ≠ .nan) (nb : b.sign ≠ .nan) :
    value a / value b = (if a.sign = b.sign then 1 else -1) * (mag a.digits a.weight / mag b.digits b.weight) := by
  unfold value
  cases ha : a.sign <;> cases hb : b.sign <;> simp_all [neg_div, div_neg]

theorem divCommon_zero [Build] (a b : Var) (na : a.sign ≠ .nan) (nb : b.sign ≠ .nan) (hb : b.digits = [])
    (s : Int) (rnd : Bool) : divCommon a b s rnd = .ok none := by
  unfold divCommon
  rw [dassert_ok na, dassert_ok nb]
  simp [hb, ndigits]

theorem divCommon_spec [Build] (a b : Var) (sma : Small a) (smb : Small b) (s : Int) (hsB : s ≤ 300000000) (rnd : Bool) (ha : Digits a.digits) (hb : Digits b.digits)
    (na : a.sign ≠ .nan) (nb : b.sign ≠ .nan) (hb0 : b.digits ≠ []) (hbh : b.digits.head? ≠ some 0)
    (hs0 : 0 ≤ s) (hs1 : s ≤ 16383 ∨ a.digits ≠ []) :
    ∃ u, divCommon a b s rnd = .ok (some u) ∧ AddOK u s
      (if rnd then roundHalfAway (value a / value b) s else truncTo (value a / value b) s) := by
  have hlb : 0 < b.digits.length := List.length_pos_iff.2 hb0
  have hhd : b.digits.headD 0 ≠ 0 := by
    cases hb' : b.digits with
    | nil => exact absurd hb' hb0
    | cons x xs => rw [hb'] at hbh; simpa using hbh
  obtain ⟨wa1, wa2, wa3⟩ := sma
  obtain ⟨wb1, wb2, wb3⟩ := smb
  unfold divCommon
  rw [dassert_ok na, dassert_ok nb]
  simp only [bind_ok, ndigits, DEC_DIGITS]
  rw [if_neg (by simp only [not_or]; exact ⟨by omega, hhd⟩)]
  by_cases haz : (a.digits.length : Int) = 0
  · rw [if_pos haz]
    have : a.digits = [] := List.length_eq_zero_iff.1 (by omega)
    have hva : value a = 0 := by unfold value; rw [this]; cases a.sign <;> simp
    rw [zeroScaled_ok hs0 (hs1.resolve_right (fun h => h this))]
    refine ⟨_, rfl, ?_⟩
    rw [hva, zero_div, roundHalfAway_of_nonneg le_rfl, truncTo_of_nonneg le_rfl, rmag_zero, tmag_zero, ite_self]
    exact AddOK.zero
  · rw [if_neg haz]
    kill_fits
    simp only [bind_ok]
    set n : Int := max (a.weight - b.weight + 1 + (s + 4 - 1) / 4) 1 with hn
    set rN : Int := if rnd = true then n + 1 else n with hrN
    have hrN1 : n ≤ rN := by rw [hrN]; split <;> omega
    obtain ⟨N, hN⟩ := Int.eq_ofNat_of_zero_le (a := rN) (by omega)
    rw [hN]
    obtain ⟨D, hD⟩ := Int.eq_ofNat_of_zero_le (a := max ((N:Int) + b.digits.length) a.digits.length) (by omega)
    rw [hD]
    simp only [Int.toNat_natCast]
    obtain ⟨Q, e, hQ, hlQ, b1, b2⟩ := divDigits_spec a.digits b.digits ha hb hb0 hhd N D (by omega) (by omega)
    rw [e]
    simp only [bind_ok]
    set sg := if a.sign = b.sign then Sign.pos else Sign.neg with hsg
    have hsgn : sg ≠ .nan := by rw [hsg]; split <;> simp
    set r : Var := ⟨a.weight - b.weight, 0, sg, Q⟩ with hr
    have hma := mag_nonneg ha a.weight
    have hbpos : 0 < mag b.digits b.weight := by
      cases hb' : b.digits with
      | nil => exact absurd hb' hb0
      | cons x xs =>
        rw [hb'] at hb hbh
        exact lt_of_lt_of_le (B_zpow_pos _) (mag_ge_of_head hb (head_ne_zero hbh) _)
    -- the digits are the truncated quotient
    set E : Int := 4 * ((N:Int) - 1 - (a.weight - b.weight)) with hE
    have hmagQ : mag Q (a.weight - b.weight) = tmag (mag a.digits a.weight / mag b.digits b.weight) E := by
      have hVpos : (0:ℚ) < dval b.digits := by
        rw [mag_eq_dval] at hbpos
        exact pos_of_mul_pos_left hbpos (B_zpow_pos _).le
      have hfl : ⌊mag a.digits a.weight / mag b.digits b.weight * 10 ^ E⌋ = dval Q := by
        have hk : (((D + 1 - (b.digits.length + N) : ℕ) : ℤ)) = D + 1 - (b.digits.length + N) := by omega
        have hk2 : (((D - a.digits.length : ℕ) : ℤ)) = D - a.digits.length := by omega
        have hX : mag a.digits a.weight / mag b.digits b.weight * 10 ^ E =
            ((dval a.digits * 10000 ^ (D - a.digits.length) : ℤ) : ℚ) /
              ((dval b.digits * 10000 ^ (D + 1 - (b.digits.length + N)) : ℤ) : ℚ) := by
          rw [mag_eq_dval, mag_eq_dval, hE, ← B_eq_T]
          push_cast
          rw [← zpow_natCast (10000:ℚ) (D - _), ← zpow_natCast (10000:ℚ) (D + 1 - _), hk, hk2]
          rw [mul_div_mul_comm, mul_div_mul_comm, mul_assoc, ← zpow_sub₀ B_ne, ← zpow_sub₀ B_ne, ← zpow_add₀ B_ne]
          congr 2
          ring
        have hden : (0:ℚ) < ((dval b.digits * 10000 ^ (D + 1 - (b.digits.length + N)) : ℤ) : ℚ) := by
          push_cast; positivity
        rw [hX, Int.floor_eq_iff, le_div_iff₀ hden, div_lt_iff₀ hden]
        constructor
        · exact_mod_cast (by linarith : dval Q * (dval b.digits * 10000 ^ (D + 1 - (b.digits.length + N))) ≤
            dval a.digits * 10000 ^ (D - a.digits.length))
        · exact_mod_cast (by linarith : dval a.digits * 10000 ^ (D - a.digits.length) < (dval Q + 1) * (dval b.digits * 10000 ^ (D + 1 - (b.digits.length + N))))
      unfold tmag
      rw [hfl, mag_eq_dval, hlQ, hE, ← B_eq_T, div_eq_mul_inv, ← zpow_neg]
      congr 2; ring
    have hval : value r = (if a.sign = b.sign then 1 else -1) * tmag (mag a.digits a.weight / mag b.digits b.weight) E := by
      by_cases hh : a.sign = b.sign <;> simp [value, hr, hsg, hh, hmagQ]
    have hx0 : 0 ≤ mag a.digits a.weight / mag b.digits b.weight := div_nonneg hma hbpos.le
    have ht0 : 0 ≤ tmag (mag a.digits a.weight / mag b.digits b.weight) E := by
      rw [← hmagQ]; exact mag_nonneg hQ _
    cases rnd with
    | true =>
      simp only [if_true] at hrN ⊢
      obtain ⟨u, eu, ud, un, us, uv⟩ := roundCommon_spec r s hQ hsgn (by rw [hr]; simp only; omega) (by omega)
      rw [eu]
      simp only [bind_ok, pure_ok]
      rw [round_stripM eu (by rw [hr]; simp only; omega) (by rw [hr]; simp only [hlQ]; omega)]
      simp only [bind_ok]
      refine ⟨_, rfl, strip_digits ud, strip_sign un, strip_stripped _, by simp [us], ?_⟩
      rw [strip_value, uv, hval, value_div_sign _ _ na nb]
      have hle : s + 1 ≤ E := by omega
      split
      · rw [one_mul, one_mul, roundHalfAway_of_nonneg ht0, roundHalfAway_of_nonneg hx0, rmag_of_trunc hle]
      · rw [neg_one_mul, neg_one_mul, roundHalfAway_neg, roundHalfAway_neg, roundHalfAway_of_nonneg ht0,
          roundHalfAway_of_nonneg hx0, rmag_of_trunc hle]
    | false =>
      simp only [Bool.false_eq_true, if_false] at hrN ⊢
      obtain ⟨u, eu, ud, un, us, uv, hz, hul, huw, -⟩ := truncCommon_spec r s hQ hsgn (by rw [hr]; simp only; omega) (by omega)
      rw [eu]
      simp only [bind_ok, pure_ok]
      have hrl : r.digits.length = N := hlQ
      have hrw : r.weight = a.weight - b.weight := rfl
      rw [trunc_stripM eu (by rw [hr]; simp only; omega) (by omega)]
      simp only [bind_ok]
      refine ⟨_, rfl, strip_digits ud, strip_sign un, strip_stripped _, by simp [us], ?_⟩
      rw [strip_value, uv, hval, value_div_sign _ _ na nb]
      have hle : s ≤ E := by omega
      split
      · rw [one_mul, one_mul, truncTo_of_nonneg ht0, truncTo_of_nonneg hx0, tmag_of_trunc hle]
      · rw [neg_one_mul, neg_one_mul, truncTo_neg, truncTo_neg, truncTo_of_nonneg ht0,
          truncTo_of_nonneg hx0, tmag_of_trunc hle]

end PgNumeric
