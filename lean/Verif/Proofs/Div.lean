import Verif.Proofs.Mul
/-! Long division: the single-digit loop and Knuth's algorithm D. -/
namespace PgNumeric
open Spec Var

theorem dval_replicate_append (l : List Int) (n : Nat) : dval (l ++ List.replicate n 0) = dval l * 10000 ^ n := by
  rw [dval_append, dval_replicate]; simp

theorem dval_take_succ (l : List Int) (k : Nat) (h : k < l.length) :
    dval (l.take (k + 1)) = dval (l.take k) * 10000 + l[k] := by
  rw [List.take_add_one, dval_append]
  simp [List.getElem?_eq_getElem h, dval_cons]

theorem dval_take_drop (l : List Int) (n : Nat) :
    dval l = dval (l.take n) * 10000 ^ (l.length - n) + dval (l.drop n) := by
  conv_lhs => rw [← List.take_append_drop n l]
  rw [dval_append, List.length_drop]

/-! ## Single-digit divisor -/

theorem divSingle_spec [Build] (D : List Int) (d : Int) (hD : Digits D) (hd : 1 ≤ d ∧ d < 10000) :
    ∀ (n i : Nat) (c : Int), i + 1 + n ≤ D.length → 0 ≤ c → c < d →
      ∃ Q, divSingle D d n i c = .ok Q ∧ Digits Q ∧ Q.length = n ∧
        dval Q * d ≤ c * 10000 ^ n + dval ((D.drop (i + 1)).take n) ∧
        c * 10000 ^ n + dval ((D.drop (i + 1)).take n) < (dval Q + 1) * d := by
  intro n
  induction n with
  | zero =>
    intro i c _ h0 h1
    exact ⟨[], rfl, Digits.nil, rfl, by simp; exact h0, by simp; exact h1⟩
  | succ n ih =>
    intro i c hl h0 h1
    have hi : i + 1 < D.length := by omega
    have hx := hD.get hi
    unfold divSingle
    rw [getM_ok hi, bind_ok]
    simp only [NBASE]
    rw [i32_ok (by omega) (by omega), bind_ok, i32_ok (by omega) (by omega), bind_ok]
    set y := c * 10000 + D[i + 1] with hy
    have hm := Int.mul_ediv_add_emod y d
    have hm0 : 0 ≤ y % d := Int.emod_nonneg _ (by omega)
    have hm1 : y % d < d := Int.emod_lt_of_pos _ (by omega)
    have hq0 : 0 ≤ y / d := Int.ediv_nonneg (by omega) (by omega)
    have hq1 : y / d < 10000 := by
      apply Int.ediv_lt_of_lt_mul (by omega)
      nlinarith
    obtain ⟨Q, e, hQ, hlQ, hv1, hv2⟩ := ih (i + 1) (y % d) (by omega) hm0 hm1
    rw [e]
    simp only [bind_ok, pure_ok]
    refine ⟨_, rfl, Digits.cons.2 ⟨⟨hq0, hq1⟩, hQ⟩, by simp [hlQ], ?_⟩
    rw [List.drop_eq_getElem_cons hi, List.take_succ_cons, dval_cons, dval_cons, hlQ]
    have hl2 : ((D.drop (i + 1 + 1)).take n).length = n := by simp; omega
    rw [hl2]
    have key : c * 10000 ^ (n + 1) + (D[i + 1] * 10000 ^ n + dval ((D.drop (i + 1 + 1)).take n)) =
        (y / d * d) * 10000 ^ n + (y % d * 10000 ^ n + dval ((D.drop (i + 1 + 1)).take n)) := by
      rw [pow_succ]
      have : y / d * d + y % d = c * 10000 + D[i+1] := by rw [mul_comm, hm]
      linear_combination (-(10000:Int)^n) * this
    rw [key]
    constructor
    · linarith
    · linarith

/-! ## Scaling up -/

theorem scaleUp_spec [Build] (d : Int) (hd : 1 ≤ d ∧ d ≤ 5000) (l : List Int) (hl : Digits l) :
    ∃ l' c, scaleUp d l = .ok (l', c) ∧ Digits l' ∧ l'.length = l.length ∧ 0 ≤ c ∧ c < d ∧
      dval l' + c * 10000 ^ l.length = d * dval l := by
  induction l with
  | nil => exact ⟨[], 0, rfl, Digits.nil, rfl, le_rfl, by omega, by simp⟩
  | cons x xs ih =>
    rw [Digits.cons] at hl
    obtain ⟨l', c, e, h1, h2, h3, h4, h5⟩ := ih hl.2
    have hp0 : 0 ≤ x * d := mul_nonneg hl.1.1 (by omega)
    have hp1 : x * d ≤ 9999 * d := mul_le_mul_of_nonneg_right (by omega) (by omega)
    unfold scaleUp
    rw [e]
    simp only [bind_ok, NBASE]
    rw [i32_ok (by omega) (by omega), bind_ok, i32_ok (by omega) (by omega), bind_ok]
    refine ⟨_, _, rfl, Digits.cons.2 ⟨by omega, h1⟩, by simp [h2], by omega, ?_, ?_⟩
    · apply Int.ediv_lt_of_lt_mul (by omega); omega
    · have hm := Int.mul_ediv_add_emod (c + x * d) 10000
      rw [dval_cons, dval_cons, h2, List.length_cons, pow_succ]
      linear_combination h5 + 10000 ^ xs.length * hm

/-! ## The quotient digit estimate -/

/-- The facts that make the `while` loop safe. -/
theorem adjustQhat_spec [Build] (v1 v2 next2 third : Int) (hv1 : 1 ≤ v1 ∧ v1 < 10000) (hv2 : 0 ≤ v2 ∧ v2 < 10000)
    (hn : 0 ≤ next2 ∧ next2 < 100000000) (ht : 0 ≤ third ∧ third < 10000) :
    ∀ (fuel : Nat) (qhat : Int), 0 ≤ qhat → qhat < 10000 → qhat < fuel →
      0 ≤ next2 - qhat * v1 → (next2 - qhat * v1) * 10000 + third ≤ 300000000 →
      ∃ q', adjustQhat v1 v2 next2 third fuel qhat = .ok q' ∧ 0 ≤ q' ∧ q' ≤ qhat ∧
        q' * (v1 * 10000 + v2) ≤ next2 * 10000 + third ∧
        (q' = qhat ∨ next2 * 10000 + third < (q' + 1) * (v1 * 10000 + v2)) := by
  intro fuel
  induction fuel with
  | zero => intro q h0 _ hf; omega
  | succ fuel ih =>
    intro q h0 h1 hf hs hr
    have p1 : v2 * q ≤ 9999 * 9999 := by nlinarith
    have p0 : 0 ≤ v2 * q := mul_nonneg hv2.1 h0
    have p2 : q * v1 ≤ next2 := by omega
    have p3 : 0 ≤ q * v1 := mul_nonneg h0 (by omega)
    unfold adjustQhat
    simp only [NBASE]
    rw [i32_ok (by omega) (by omega), bind_ok, i32_ok (by omega) (by omega), bind_ok,
      i32_ok (by omega) (by omega), bind_ok, i32_ok (by omega) (by omega), bind_ok, i32_ok (by omega) (by omega), bind_ok]
    by_cases hc : v2 * q > (next2 - q * v1) * 10000 + third
    · rw [if_pos hc]
      have hq1 : 1 ≤ q := by
        by_contra hcc
        have : q = 0 := by omega
        subst this
        simp at hc; omega
      have hlin : (q - 1) * v1 = q * v1 - v1 := by ring
      obtain ⟨q', e, g1, g2, g3, g4⟩ := ih (q - 1) (by omega) (by omega) (by omega) (by rw [hlin]; omega) (by rw [hlin]; omega)
      refine ⟨q', e, g1, by omega, g3, .inr ?_⟩
      rcases g4 with rfl | g4
      · have : (q - 1 + 1) * (v1 * 10000 + v2) = q * v1 * 10000 + v2 * q := by ring
        rw [this]; omega
      · exact g4
    · rw [if_neg hc]
      refine ⟨q, rfl, h0, le_rfl, ?_, .inl rfl⟩
      have : q * (v1 * 10000 + v2) = q * v1 * 10000 + v2 * q := by ring
      rw [this]; omega

/-! ## Multiply and subtract, add back -/

theorem mulSub_spec [Build] (q : Int) (hq : 0 ≤ q ∧ q < 10000) :
    ∀ (ws vs : List Int), Digits ws → Digits vs → ws.length = vs.length →
      ∃ ws' c b, mulSub q ws vs = .ok (ws', c, b) ∧ Digits ws' ∧ ws'.length = ws.length ∧ 0 ≤ c ∧ c < 10000 ∧
        (b = 0 ∨ b = -1) ∧ dval ws' + (b - c) * 10000 ^ ws.length = dval ws - q * dval vs := by
  intro ws
  induction ws with
  | nil =>
    intro vs _ _ hl
    have : vs = [] := List.length_eq_zero_iff.1 (by simpa using hl.symm)
    subst this
    exact ⟨[], 0, 0, rfl, Digits.nil, rfl, le_rfl, by norm_num, .inl rfl, by simp⟩
  | cons w ws ih =>
    intro vs hw hv hl
    cases vs with
    | nil => simp at hl
    | cons v vs =>
      rw [Digits.cons] at hw hv
      have hl' : ws.length = vs.length := by simpa using hl
      obtain ⟨ws', c, b, e, h1, h2, h3, h4, h5, h6⟩ := ih vs hw.2 hv.2 hl'
      have hp0 : 0 ≤ v * q := mul_nonneg hv.1.1 hq.1
      have hp1 : v * q ≤ 9999 * 9999 := by nlinarith [hv.1.2, hv.1.1]
      unfold mulSub
      rw [e]
      simp only [bind_ok, NBASE]
      rw [i32_ok (by omega) (by omega), bind_ok, i32_ok (by omega) (by omega), bind_ok,
        i32_ok (by omega) (by omega), bind_ok, i32_ok (by omega) (by omega), bind_ok]
      have hm := Int.mul_ediv_add_emod (c + v * q) 10000
      by_cases hb : b - (c + v * q) % 10000 + w < 0
      · rw [if_pos hb]
        refine ⟨_, _, _, rfl, Digits.cons.2 ⟨by omega, h1⟩, by simp [h2], by omega, by omega, .inr rfl, ?_⟩
        rw [dval_cons, dval_cons, dval_cons, h2, List.length_cons, pow_succ, ← hl']
        linear_combination h6 - 10000 ^ ws.length * hm
      · rw [if_neg hb]
        refine ⟨_, _, _, rfl, Digits.cons.2 ⟨by omega, h1⟩, by simp [h2], by omega, by omega, .inl rfl, ?_⟩
        rw [dval_cons, dval_cons, dval_cons, h2, List.length_cons, pow_succ, ← hl']
        linear_combination h6 - 10000 ^ ws.length * hm

theorem addBack_spec [Build] :
    ∀ (ws vs : List Int), Digits ws → Digits vs → ws.length = vs.length →
      ∃ ws' c, addBack ws vs = .ok (ws', c) ∧ Digits ws' ∧ ws'.length = ws.length ∧ (c = 0 ∨ c = 1) ∧
        dval ws' + c * 10000 ^ ws.length = dval ws + dval vs := by
  intro ws
  induction ws with
  | nil =>
    intro vs _ _ hl
    have : vs = [] := List.length_eq_zero_iff.1 (by simpa using hl.symm)
    subst this
    exact ⟨[], 0, rfl, Digits.nil, rfl, .inl rfl, by simp⟩
  | cons w ws ih =>
    intro vs hw hv hl
    cases vs with
    | nil => simp at hl
    | cons v vs =>
      rw [Digits.cons] at hw hv
      have hl' : ws.length = vs.length := by simpa using hl
      obtain ⟨ws', c, e, h1, h2, h3, h4⟩ := ih vs hw.2 hv.2 hl'
      unfold addBack
      rw [e]
      simp only [bind_ok, NBASE]
      rw [i32_ok (by omega) (by omega), bind_ok]
      by_cases hb : c + (w + v) ≥ 10000
      · rw [if_pos hb]
        refine ⟨_, _, rfl, Digits.cons.2 ⟨by omega, h1⟩, by simp [h2], .inr rfl, ?_⟩
        rw [dval_cons, dval_cons, dval_cons, h2, List.length_cons, pow_succ, ← hl']
        linear_combination h4
      · rw [if_neg hb]
        refine ⟨_, _, rfl, Digits.cons.2 ⟨by omega, h1⟩, by simp [h2], .inl rfl, ?_⟩
        rw [dval_cons, dval_cons, dval_cons, h2, List.length_cons, pow_succ, ← hl']
        linear_combination h4

/-! ## One step of algorithm D -/

theorem getM_append {pre E : List Int} {j i : Nat} (hp : pre.length = j) : getM (pre ++ E) (j + i) = getM E i := by
  subst hp
  unfold getM
  rw [List.getElem?_append_right (by omega)]
  simp

theorem sliceM_append {pre E : List Int} {j n : Nat} (hp : pre.length = j) (hn : n ≤ E.length) :
    sliceM (pre ++ E) j n = .ok (E.take n) := by
  subst hp
  rw [sliceM_ok (by simp; omega)]
  simp

/-- The mathematical core of the estimate: after the adjustment `qhat` is `q` or `q + 1`. -/
theorem qhat_bounds {U V T3 X v12 qhat : Int} (hX : 0 < X) (hV1 : v12 * X ≤ V) (hV2 : V < (v12 + 1) * X)
    (hU1 : T3 * X ≤ U) (hq0 : 0 ≤ qhat) (hq1 : qhat < 10000) (hv : 10000 ≤ v12) (h : qhat * v12 ≤ T3) :
    (qhat - 1) * V ≤ U := by
  by_cases hz : qhat = 0
  · subst hz
    have : 0 ≤ V := le_trans (mul_nonneg (by omega) hX.le) hV1
    have : 0 ≤ T3 := by simpa using h
    have : 0 ≤ T3 * X := mul_nonneg this hX.le
    linarith
  · have h1 : (qhat - 1) * V ≤ (qhat - 1) * ((v12 + 1) * X) := mul_le_mul_of_nonneg_left hV2.le (by omega)
    have h2 : (qhat - 1) * (v12 + 1) ≤ T3 := by nlinarith
    have h3 := mul_le_mul_of_nonneg_right h2 hX.le
    linarith

theorem head_le {a b t v1 v2 X lu lv U V : Int} (hX : 0 < X) (hv2 : v2 < 10000) (hb : 0 ≤ b) (ht : 0 ≤ t)
    (hlv : lv < X) (hlu : 0 ≤ lu) (hU : U = ((a * 10000 + b) * 10000 + t) * X + lu)
    (hV : V = (v1 * 10000 + v2) * X + lv) (hUV : U < V * 10000) : a ≤ v1 := by
  by_contra hc
  have h2 : V < (v1 * 10000 + v2 + 1) * X := by rw [hV]; linarith
  have h4 : (v1 * 10000 + v2 + 1) * X ≤ (v1 + 1) * 10000 * X := mul_le_mul_of_nonneg_right (by omega) hX.le
  have h3 := mul_le_mul_of_nonneg_right (by omega : (v1+1) * 10000 * 10000 ≤ (a * 10000 + b) * 10000 + t) hX.le
  linarith

/-- The initial estimate (src/var.rs:1150-1154). -/
theorem q0_bounds {a b t v1 : Int} (ha : 0 ≤ a) (hb : 0 ≤ b ∧ b < 10000) (ht : 0 ≤ t ∧ t < 10000)
    (hv : 1 ≤ v1 ∧ v1 < 10000) (hav : a ≤ v1) {q0 : Int} (hq0 : q0 = if a = v1 then 10000 - 1 else (a * 10000 + b) / v1) :
    0 ≤ q0 ∧ q0 < 10000 ∧ 0 ≤ (a * 10000 + b) - q0 * v1 ∧ ((a * 10000 + b) - q0 * v1) * 10000 + t ≤ 300000000 ∧
        ∀ q, q < 10000 → q * v1 ≤ a * 10000 + b → q ≤ q0 := by
  by_cases heq : a = v1
  · rw [hq0, if_pos heq]
    subst heq
    refine ⟨by omega, by omega, by omega, by omega, fun q hq _ => by omega⟩
  · rw [hq0, if_neg heq]
    have hm := Int.mul_ediv_add_emod (a * 10000 + b) v1
    have hm0 : 0 ≤ (a * 10000 + b) % v1 := Int.emod_nonneg _ (by omega)
    have hm1 : (a * 10000 + b) % v1 < v1 := Int.emod_lt_of_pos _ (by omega)
    have hcomm : (a * 10000 + b) / v1 * v1 = v1 * ((a * 10000 + b) / v1) := mul_comm _ _
    refine ⟨Int.ediv_nonneg (by omega) (by omega), ?_, by omega, by omega, ?_⟩
    · apply Int.ediv_lt_of_lt_mul (by omega)
      have : a + 1 ≤ v1 := by omega
      linarith
    · intro q _ hh
      exact (Int.le_ediv_iff_mul_le (by omega)).2 hh

/-- The adjusted estimate is never too small. -/
theorem qhat_high {a b t v1 v2 X lu lv U V q q0 : Int} (hX : 0 < X) (hv2 : 0 ≤ v2)
    (ht : t < 10000) (hlv : 0 ≤ lv) (hlu : lu < X) (hU : U = ((a * 10000 + b) * 10000 + t) * X + lu)
    (hV : V = (v1 * 10000 + v2) * X + lv) (hUV : U < V * 10000) (hq : 0 ≤ q) (hV0 : 0 < V)
    (hmax : ∀ q, q < 10000 → q * v1 ≤ a * 10000 + b → q ≤ q0)
    (h : q = q0 ∨ (a * 10000 + b) * 10000 + t < (q + 1) * (v1 * 10000 + v2)) : U < (q + 1) * V := by
  rcases h with h | h
  · by_contra hc
    push Not at hc
    have hq1 : q + 1 < 10000 := by
      by_contra hcc
      have : 10000 ≤ q + 1 := by omega
      have := mul_le_mul_of_nonneg_right this hV0.le
      linarith
    have hk : (q + 1) * v1 ≤ a * 10000 + b := by
      by_contra hcc
      push Not at hcc
      have h3 : 0 ≤ v2 * X := mul_nonneg hv2 hX.le
      have h4 : v1 * (10000 * X) ≤ V := by rw [hV]; linarith
      have h5 := mul_le_mul_of_nonneg_left h4 (by omega : 0 ≤ q + 1)
      have h6 : (a * 10000 + b + 1) * (10000 * X) ≤ ((q + 1) * v1) * (10000 * X) :=
        mul_le_mul_of_nonneg_right (by omega) (by positivity)
      have h7 : (t + 1) * X ≤ 10000 * X := mul_le_mul_of_nonneg_right (by omega) hX.le
      rw [hU] at hc
      linarith
    have := hmax (q + 1) hq1 hk
    omega
  · have h5 : ((a * 10000 + b) * 10000 + t + 1) * X ≤ ((q + 1) * (v1 * 10000 + v2)) * X :=
      mul_le_mul_of_nonneg_right (by omega) hX.le
    have h6 : (q + 1) * ((v1 * 10000 + v2) * X) ≤ (q + 1) * V :=
      mul_le_mul_of_nonneg_left (by rw [hV]; linarith) (by omega)
    rw [hU]
    linarith

theorem knuthStep_spec [Build] (dv : List Int) (hdv : Digits dv) (hm : 2 ≤ dv.length) (hhead : 1 ≤ dv.headD 0)
    (pre E : List Int) (hE : Digits E) (j : Nat) (hp : pre.length = j) (hlE : dv.length + 1 ≤ E.length)
    (hinv : dval (E.take dv.length) < dval dv) :
    ∃ q E', knuthStep (0 :: dv) j (pre ++ E) = .ok (q, pre ++ (0 :: E')) ∧ 0 ≤ q ∧ q < 10000 ∧ Digits E' ∧
      E'.length + 1 = E.length ∧ dval (E.take (dv.length + 1)) = q * dval dv + dval (E'.take dv.length) ∧
      dval (E'.take dv.length) < dval dv ∧ E'.drop dv.length = E.drop (dv.length + 1) := by
  -- destructure the divisor and the window
  obtain ⟨v1, v2, vr, rfl⟩ : ∃ v1 v2 vr, dv = v1 :: v2 :: vr := by
    match dv, hm with
    | v1 :: v2 :: vr, _ => exact ⟨v1, v2, vr, rfl⟩
  obtain ⟨a, b, t, er, rfl⟩ : ∃ a b t er, E = a :: b :: t :: er := by
    match E, hlE with
    | a :: b :: t :: er, _ => exact ⟨a, b, t, er, rfl⟩
    | [_, _], h => simp at h hm
    | [_], h => simp at h
    | [], h => simp at h
  set m := (v1 :: v2 :: vr).length with hmdef
  simp only [List.headD_cons] at hhead
  have hdv' := hdv
  have hE' := hE
  simp only [Digits.cons] at hdv hE
  obtain ⟨hv1, hv2, hvr⟩ := hdv
  obtain ⟨ha, hb, ht, her⟩ := hE
  have hmr : m = vr.length + 2 := by simp [hmdef]
  set V := dval (v1 :: v2 :: vr) with hV
  set W := (a :: b :: t :: er).take (m + 1) with hW
  set U := dval W with hU
  have hWd : Digits W := hE'.take _
  have hlE' : m + 1 ≤ er.length + 3 := by simpa using hlE
  have hWl : W.length = m + 1 := by rw [hW, List.length_take]; simp; omega
  have hX : (0:Int) < 10000 ^ vr.length := by positivity
  have hVeq : V = (v1 * 10000 + v2) * 10000 ^ vr.length + dval vr := by
    rw [hV, dval_cons, dval_cons, List.length_cons, pow_succ]; ring
  have hvr0 := dval_nonneg hvr
  have hvr1 := dval_lt hvr
  have hWeq : W = a :: b :: t :: er.take vr.length := by
    rw [hW, hmr]; simp [List.take_succ_cons]
  have hlt : (er.take vr.length).length = vr.length := by rw [List.length_take]; omega
  have hUeq : U = ((a * 10000 + b) * 10000 + t) * 10000 ^ vr.length + dval (er.take vr.length) := by
    rw [hU, hWeq, dval_cons, dval_cons, dval_cons, List.length_cons, List.length_cons, hlt, pow_succ, pow_succ]; ring
  have her0 := dval_nonneg (her.take vr.length)
  have her1 := dval_lt (her.take vr.length)
  rw [hlt] at her1
  have hV0 : 0 < V := by rw [hVeq]; nlinarith
  have hVm : V < 10000 ^ m := by have := dval_lt hdv'; rwa [← hmdef] at this
  -- the invariant bounds the window by V * B
  have hUV : U < V * 10000 := by
    have hml : m < (a :: b :: t :: er).length := by omega
    have e2 : U = dval ((a :: b :: t :: er).take m) * 10000 + (a :: b :: t :: er)[m] := dval_take_succ _ _ hml
    have e3 := hE'.get hml
    rw [e2]
    have : dval ((a :: b :: t :: er).take m) + 1 ≤ V := hinv
    nlinarith
  -- it is enough to give the quotient digit and the new window
  have finish : ∀ (q : Int) (W' : List Int) (res : M (Int × List Int)), 0 ≤ q → q < 10000 → Digits W' → W'.length = m + 1 →
      dval W' = U - q * V → dval W' < V →
      res = .ok (q, pre ++ W' ++ (a :: b :: t :: er).drop (m + 1)) →
      ∃ q E', res = .ok (q, pre ++ (0 :: E')) ∧ 0 ≤ q ∧ q < 10000 ∧ Digits E' ∧
        E'.length + 1 = (a :: b :: t :: er).length ∧ U = q * V + dval (E'.take m) ∧
        dval (E'.take m) < V ∧ E'.drop m = (a :: b :: t :: er).drop (m + 1) := by
    intro q W' res hq0 hq1 hd hl hval hlt' hres
    cases W' with
    | nil => simp at hl
    | cons x xs =>
      have hxl : xs.length = m := by simpa using hl
      rw [Digits.cons] at hd
      have hx0 := dval_nonneg hd.2
      have hxz : x = 0 := by
        rw [dval_cons, hxl] at hlt'
        by_contra hne
        have : 1 ≤ x := by omega
        have : (10000:Int) ^ m ≤ x * 10000 ^ m := by nlinarith [(by positivity : (0:Int) < 10000 ^ m)]
        linarith
      subst hxz
      have htk : (xs ++ (a :: b :: t :: er).drop (m + 1)).take m = xs := by
        rw [List.take_append_of_le_length (by omega), List.take_of_length_le (by omega)]
      have hdr : (xs ++ (a :: b :: t :: er).drop (m + 1)).drop m = (a :: b :: t :: er).drop (m + 1) := by
        rw [List.drop_append_of_le_length (by omega), List.drop_of_length_le (by omega), List.nil_append]
      have hv' : dval (0 :: xs) = dval xs := by rw [dval_cons]; simp
      rw [hv'] at hval hlt'
      refine ⟨q, xs ++ (a :: b :: t :: er).drop (m + 1), by rw [hres]; simp, hq0, hq1,
        Digits.append.2 ⟨hd.2, hE'.drop _⟩, ?_, ?_, ?_, hdr⟩
      · rw [List.length_append, List.length_drop, hxl]; omega
      · rw [htk]; linarith
      · rw [htk]; exact hlt'
  have hWE : pre ++ W ++ (a :: b :: t :: er).drop (m + 1) = pre ++ (a :: b :: t :: er) := by
    rw [hW, List.append_assoc, List.take_append_drop]
  unfold knuthStep
  have hg1 : getM (0 :: v1 :: v2 :: vr) 1 = .ok v1 := rfl
  have hg2 : getM (0 :: v1 :: v2 :: vr) 2 = .ok v2 := rfl
  have hga : getM (pre ++ a :: b :: t :: er) j = .ok a := by
    have := getM_append (E := a :: b :: t :: er) (i := 0) hp; rw [add_zero] at this; rw [this]; rfl
  have hgb : getM (pre ++ a :: b :: t :: er) (j + 1) = .ok b := by rw [getM_append hp]; rfl
  have hgt : getM (pre ++ a :: b :: t :: er) (j + 2) = .ok t := by rw [getM_append hp]; rfl
  rw [hg1, bind_ok, hg2, bind_ok, hga, bind_ok, hgb, bind_ok]
  simp only [NBASE]
  rw [i32_ok (by omega) (by omega), bind_ok, i32_ok (by omega) (by omega), bind_ok]
  by_cases hn2 : a * 10000 + b = 0
  · rw [if_pos hn2]
    refine finish 0 W _ le_rfl (by norm_num) hWd hWl (by ring) ?_ (by rw [hWE]; rfl)
    rw [← hU, hUeq, hVeq, hn2]
    have : t + 1 ≤ v1 * 10000 := by omega
    have := mul_le_mul_of_nonneg_right this hX.le
    have h3 : 0 ≤ v2 * 10000 ^ vr.length := mul_nonneg hv2.1 hX.le
    linarith
  · rw [if_neg hn2, hgt, bind_ok]
    -- a ≤ v1
    have hav : a ≤ v1 := head_le hX hv2.2 hb.1 ht.1 hvr1 her0 hUeq hVeq hUV
    set q0 : Int := if a = v1 then 10000 - 1 else (a * 10000 + b) / v1 with hq0
    have hq0b := q0_bounds (t := t) ha.1 hb ht ⟨hhead, hv1.2⟩ hav hq0
    obtain ⟨q, eq, g1, g2, g3, g4⟩ := adjustQhat_spec v1 v2 (a * 10000 + b) t ⟨hhead, hv1.2⟩ hv2 (by omega) ht
      (q0.toNat + 1) q0 hq0b.1 hq0b.2.1 (by omega) hq0b.2.2.1 hq0b.2.2.2.1
    rw [eq, bind_ok]
    have hq9 : q < 10000 := by omega
    -- q - 1 ≤ true quotient
    have hlow : (q - 1) * V ≤ U := by
      refine qhat_bounds hX (T3 := (a * 10000 + b) * 10000 + t) (v12 := v1 * 10000 + v2) ?_ ?_ ?_ g1 hq9 (by omega) g3
      · rw [hVeq]; linarith
      · rw [hVeq]; linarith
      · rw [hUeq]; linarith
    -- true quotient ≤ q
    have hhigh : U < (q + 1) * V :=
      qhat_high hX hv2.1 ht.2 hvr0 her1 hUeq hVeq hUV g1 hV0 hq0b.2.2.2.2 g4
    by_cases hqp : q > 0
    · rw [if_pos hqp]
      have hsl : sliceM (pre ++ a :: b :: t :: er) j (0 :: v1 :: v2 :: vr).length = .ok W := by
        have := sliceM_append (pre := pre) (E := a :: b :: t :: er) (j := j) (n := m + 1) hp (by simp; omega)
        rw [← hW] at this
        exact this
      rw [hsl, bind_ok]
      have hdz : Digits (0 :: v1 :: v2 :: vr) := Digits.cons.2 ⟨by omega, hdv'⟩
      have hlz : W.length = (0 :: v1 :: v2 :: vr).length := by rw [hWl, hmr]; simp
      have hVz : dval (0 :: v1 :: v2 :: vr) = V := by rw [dval_cons, hV]; simp
      obtain ⟨W', c, bb, e, d1, d2, d3, d4, d5, d6⟩ := mulSub_spec q ⟨g1, hq9⟩ W (0 :: v1 :: v2 :: vr) hWd hdz hlz
      rw [hVz, hWl, ← hU] at d6
      -- the product carry out of the top digit is zero
      have hc0 : c = 0 := by
        rw [hWeq] at e
        unfold mulSub at e
        -- the top divisor digit is 0
        obtain ⟨W2, c2, b2, e2, f1, f2, f3, f4, f5, f6⟩ := mulSub_spec q ⟨g1, hq9⟩ (b :: t :: er.take vr.length) (v1 :: v2 :: vr)
          (by simp only [Digits.cons]; exact ⟨hb, ht, her.take _⟩) hdv' (by simp [hlt])
        rw [e2] at e
        simp only [bind_ok, NBASE] at e
        rw [i32_ok (by omega) (by omega), bind_ok, i32_ok (by omega) (by omega), bind_ok,
          i32_ok (by omega) (by omega), bind_ok, i32_ok (by omega) (by omega), bind_ok] at e
        split at e <;> (simp only [pure_ok, Except.ok.injEq, Prod.mk.injEq] at e; omega)
      subst hc0
      rw [e]
      simp only [bind_ok, dassert_true]
      have hlen1 : (0 :: v1 :: v2 :: vr).length = m + 1 := by rw [← hlz, hWl]
      have hdrop : (pre ++ a :: b :: t :: er).drop (j + (0 :: v1 :: v2 :: vr).length) = (a :: b :: t :: er).drop (m + 1) := by
        rw [hlen1, ← hp]; simp
      have htake : (pre ++ a :: b :: t :: er).take j = pre := by rw [← hp]; simp
      have hW'0 := dval_nonneg d1
      have hW'1 := dval_lt d1
      rw [d2, hWl] at hW'1
      have hBm : (10000:Int) ^ (m+1) = 10000 ^ m * 10000 := pow_succ _ _
      by_cases hbb : bb ≠ 0
      · rw [if_pos hbb]
        have hb1 : bb = -1 := by omega
        subst hb1
        obtain ⟨W2, c2, e2, f1, f2, f3, f4⟩ := addBack_spec W' (0 :: v1 :: v2 :: vr) d1 hdz (by rw [d2, hlz])
        rw [hVz, d2, hWl] at f4
        have hW20 := dval_nonneg f1
        have hW21 := dval_lt f1
        rw [f2, d2, hWl] at hW21
        have hc2 : c2 = 1 := by
          rcases f3 with h | h
          · exfalso
            subst h
            have : (q - 1) * V = q * V - V := by ring
            linarith
          · exact h
        subst hc2
        rw [e2]
        simp only [bind_ok, dassert_true, pure_ok]
        have hval2 : dval W2 = U - (q - 1) * V := by linear_combination f4 + d6
        refine finish (q - 1) W2 _ (by omega) (by omega) f1 (by rw [f2, d2, hWl]) hval2 ?_ ?_
        · rw [hval2]
          have : (q - 1) * V = q * V - V := by ring
          linarith
        · rw [htake, hdrop]
      · rw [if_neg hbb]
        have hb0 : bb = 0 := by omega
        subst hb0
        have hval : dval W' = U - q * V := by linear_combination d6
        refine finish q W' _ g1 hq9 d1 (by rw [d2, hWl]) hval ?_ ?_
        · rw [hval]
          have : (q + 1) * V = q * V + V := by ring
          linarith
        · rw [htake, hdrop]; rfl
    · rw [if_neg hqp]
      have hq00 : q = 0 := by omega
      subst hq00
      refine finish 0 W _ le_rfl (by norm_num) hWd hWl (by ring) (by rw [← hU]; linarith) (by rw [hWE]; rfl)

end PgNumeric
