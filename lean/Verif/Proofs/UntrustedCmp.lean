import Verif.Proofs.Untrusted
import Verif.Proofs.Stored
/-!
# Comparing numbers with any 16-bit digits
-/
namespace PgNumeric.Untrusted
open PgNumeric Spec

/-- Digits in 0..32767. -/
def Digits15 (ds : List Int) : Prop := ∀ d ∈ ds, 0 ≤ d ∧ d ≤ 32767

theorem Digits15.cons {d : Int} {ds : List Int} : Digits15 (d :: ds) ↔ (0 ≤ d ∧ d ≤ 32767) ∧ Digits15 ds := by
  unfold Digits15; simp

theorem sub16_ok [Build] {a b : Int} (ha : 0 ≤ a ∧ a ≤ 32767) (hb : 0 ≤ b ∧ b ≤ 32767) : sub16 a b = .ok (a - b) := by
  unfold sub16
  rw [if_pos (by omega), pure_ok]

theorem cmpDigits_ok [Build] : ∀ {d1 d2 : List Int}, Digits15 d1 → Digits15 d2 → cmpDigits d1 d2 = .ok (Var.cmpDigits d1 d2)
  | [], _, _, _ => by unfold cmpDigits Var.cmpDigits; rfl
  | _ :: _, [], _, _ => by unfold cmpDigits Var.cmpDigits; rfl
  | x :: xs, y :: ys, h1, h2 => by
    rw [Digits15.cons] at h1 h2
    unfold cmpDigits Var.cmpDigits
    rw [sub16_ok h1.1 h2.1, bind_ok]
    simp only
    by_cases h : x - y ≠ 0
    · rw [if_pos h, if_pos h, pure_ok]
    · rw [if_neg h, if_neg h, cmpDigits_ok h1.2 h2.2]

theorem cmpLead_sub : ∀ {ds : List Int} {w w' : Int} {ds1 : List Int} {w1 : Int}, Var.cmpLead ds w w' = some (ds1, w1) → ∀ d ∈ ds1, d ∈ ds
  | [], _, _, _, _, h, d, hd => by
    simp only [Var.cmpLead, Option.some.injEq, Prod.mk.injEq] at h
    rw [← h.1] at hd; exact hd
  | x :: xs, w, w', ds1, w1, h, d, hd => by
    rw [Var.cmpLead] at h
    split at h
    · split at h
      · cases h
      · exact List.mem_cons_of_mem _ (cmpLead_sub h d hd)
    · simp only [Option.some.injEq, Prod.mk.injEq] at h
      rw [← h.1] at hd; exact hd

theorem cmpAbs_ok [Build] {a b : Var} (ha : Digits15 a.digits) (hb : Digits15 b.digits) : cmpAbs a b = .ok (Var.cmpAbs a b) := by
  unfold cmpAbs Var.cmpAbs
  cases e1 : Var.cmpLead a.digits a.weight b.weight with
  | none => rfl
  | some p =>
    obtain ⟨ds1, w1⟩ := p
    simp only
    cases e2 : Var.cmpLead b.digits b.weight w1 with
    | none => rfl
    | some q =>
      obtain ⟨ds2, w2⟩ := q
      simp only
      split
      · exact cmpDigits_ok (fun d hd => ha d (cmpLead_sub e1 d hd)) (fun d hd => hb d (cmpLead_sub e2 d hd))
      · rfl

theorem cmpCommon_ok [Build] {a b : Var} (ha : Digits15 a.digits) (hb : Digits15 b.digits) : cmpCommon a b = .ok (Var.cmpCommon a b) := by
  unfold cmpCommon Var.cmpCommon
  rw [cmpAbs_ok ha hb, cmpAbs_ok hb ha]
  simp only [pure_ok]
  split
  · split
    · rfl
    · split <;> rfl
  · split
    · split <;> rfl
    · split
      · split <;> rfl
      · split <;> rfl

/-! ## The order in base 32768 -/

theorem pow32_pos (w : ℤ) : (0:ℚ) < 32768 ^ w := by positivity

theorem pow32_le {a b : ℤ} (h : a ≤ b) : (32768:ℚ) ^ a ≤ 32768 ^ b := zpow_le_zpow_right₀ (by norm_num) h

theorem mag32_nonneg : ∀ {ds : List Int} (_ : Digits15 ds) (w : Int), 0 ≤ mag32768 ds w
  | [], _, _ => le_refl _
  | d :: ds, h, w => by
    rw [Digits15.cons] at h
    have hd : (0:ℚ) ≤ d := by exact_mod_cast h.1.1
    exact add_nonneg (mul_nonneg hd (pow32_pos w).le) (mag32_nonneg h.2 (w - 1))

theorem mag32_lt : ∀ {ds : List Int} (_ : Digits15 ds) (w : Int), mag32768 ds w < 32768 ^ (w + 1)
  | [], _, w => pow32_pos (w + 1)
  | d :: ds, h, w => by
    rw [Digits15.cons] at h
    have hd : (d:ℚ) ≤ 32767 := by exact_mod_cast h.1.2
    have ih := mag32_lt h.2 (w - 1)
    rw [sub_add_cancel] at ih
    have e : (32768:ℚ) ^ (w + 1) = 32768 * 32768 ^ w := by rw [zpow_add_one₀ (by norm_num)]; ring
    show (d:ℚ) * 32768 ^ w + mag32768 ds (w - 1) < _
    have := pow32_pos w
    rw [e]
    nlinarith

theorem mag32_ge {d : Int} {ds : List Int} (h : Digits15 (d :: ds)) (hd : d ≠ 0) (w : Int) : (32768:ℚ) ^ w ≤ mag32768 (d :: ds) w := by
  rw [Digits15.cons] at h
  have h1 : (1:ℚ) ≤ d := by exact_mod_cast (by omega : 1 ≤ d)
  have := mag32_nonneg h.2 (w - 1)
  have := pow32_pos w
  show _ ≤ (d:ℚ) * 32768 ^ w + mag32768 ds (w - 1)
  nlinarith

theorem mag32_pos_iff : ∀ {ds : List Int} (_ : Digits15 ds) (w : Int), 0 < mag32768 ds w ↔ ds.any (· ≠ 0) = true
  | [], _, w => by simp [mag32768]
  | d :: ds, h, w => by
    have h' := Digits15.cons.1 h
    by_cases hd : d = 0
    · subst hd
      have ih := mag32_pos_iff h'.2 (w - 1)
      rw [List.any_cons]
      simp only [ne_eq, not_true_eq_false, decide_false, Bool.false_or]
      rw [← ih]
      show 0 < ((0:ℤ):ℚ) * 32768 ^ w + mag32768 ds (w - 1) ↔ _
      simp
    · have := mag32_ge h hd w
      have := pow32_pos w
      simp only [List.any_cons, ne_eq, hd, not_false_eq_true, decide_true, Bool.true_or, iff_true]
      linarith

theorem lead32 {ds : List Int} (h : Digits15 ds) (w w' : Int) :
    match Var.cmpLead ds w w' with
    | none => (32768:ℚ) ^ (w' + 1) ≤ mag32768 ds w
    | some (ds1, w1) => Digits15 ds1 ∧ mag32768 ds1 w1 = mag32768 ds w ∧ (ds1 = [] ∨ w1 ≤ w') ∧ (w ≤ w' → w1 = w) ∧ (w' ≤ w → w' ≤ w1) := by
  induction ds generalizing w with
  | nil => simp [Var.cmpLead, h]
  | cons d ds ih =>
    rw [Var.cmpLead]
    by_cases hw : w > w'
    · rw [if_pos hw]
      by_cases hd : d ≠ 0
      · rw [if_pos hd]
        simp only
        exact (pow32_le (by omega)).trans (mag32_ge h hd w)
      · rw [if_neg hd]
        have := ih (Digits15.cons.1 h).2 (w - 1)
        have hd0 : d = 0 := by omega
        have hm : mag32768 (d :: ds) w = mag32768 ds (w - 1) := by
          show (d:ℚ) * 32768 ^ w + mag32768 ds (w - 1) = _
          rw [hd0]; simp
        rw [hm]
        split at this
        · exact this
        · obtain ⟨g1, g2, g3, g4, g5⟩ := this
          exact ⟨g1, g2, g3, by omega, by omega⟩
    · rw [if_neg hw]
      exact ⟨h, rfl, .inr (by omega), fun _ => rfl, by omega⟩

theorem digits32 {d1 d2 : List Int} (h1 : Digits15 d1) (h2 : Digits15 d2) (w : Int) :
    Var.cmpDigits d1 d2 = cmpSign (mag32768 d1 w) (mag32768 d2 w) := by
  induction d1 generalizing d2 w with
  | nil =>
    have g := mag32_pos_iff h2 w
    have g0 := mag32_nonneg h2 w
    have hf : ¬ (([] : List Int).any (· ≠ 0) = true) := by simp
    unfold Var.cmpDigits Var.cmpRest cmpSign
    rw [if_neg hf, show mag32768 [] w = 0 from rfl]
    by_cases hp : 0 < mag32768 d2 w
    · rw [if_pos (g.1 hp), if_pos hp]
    · have hz : 0 = mag32768 d2 w := by linarith
      rw [if_neg (fun hx => hp (g.2 hx)), if_neg hp, if_pos hz]
  | cons x xs ih =>
    cases d2 with
    | nil =>
      have g := mag32_pos_iff h1 w
      have g0 := mag32_nonneg h1 w
      unfold Var.cmpDigits Var.cmpRest cmpSign
      rw [show mag32768 [] w = 0 from rfl]
      by_cases hp : 0 < mag32768 (x :: xs) w
      · have hn : ¬ (mag32768 (x :: xs) w < 0) := by linarith
        rw [if_pos (g.1 hp), if_neg hn, if_neg hp.ne']
      · have : mag32768 (x :: xs) w = 0 := by linarith
        have hx : ¬ ((x :: xs).any (· ≠ 0) = true) := fun hx => hp (g.2 hx)
        rw [if_neg hx, this]
        simp
    | cons y ys =>
      rw [Digits15.cons] at h1 h2
      unfold Var.cmpDigits
      have t1 := mag32_lt h1.2 (w - 1)
      have t2 := mag32_lt h2.2 (w - 1)
      have t3 := mag32_nonneg h1.2 (w - 1)
      have t4 := mag32_nonneg h2.2 (w - 1)
      rw [sub_add_cancel] at t1 t2
      have hw := pow32_pos w
      have mx : mag32768 (x :: xs) w = (x:ℚ) * 32768 ^ w + mag32768 xs (w - 1) := rfl
      have my : mag32768 (y :: ys) w = (y:ℚ) * 32768 ^ w + mag32768 ys (w - 1) := rfl
      simp only
      by_cases hxy : x - y ≠ 0
      · rw [if_pos hxy]
        unfold cmpSign
        rw [mx, my]
        by_cases hgt : x - y > 0
        · rw [if_pos hgt]
          have : (y : ℚ) + 1 ≤ x := by exact_mod_cast (by omega : y + 1 ≤ x)
          have hh : (y:ℚ) * 32768 ^ w + mag32768 ys (w-1) < (x:ℚ) * 32768 ^ w + mag32768 xs (w-1) := by nlinarith
          rw [if_neg (not_lt.2 hh.le), if_neg hh.ne']
        · rw [if_neg hgt]
          have : (x : ℚ) + 1 ≤ y := by exact_mod_cast (by omega : x + 1 ≤ y)
          have hh : (x:ℚ) * 32768 ^ w + mag32768 xs (w-1) < (y:ℚ) * 32768 ^ w + mag32768 ys (w-1) := by nlinarith
          rw [if_pos hh]
      · rw [if_neg hxy, ih h1.2 h2.2 (w - 1)]
        have : x = y := by omega
        subst this
        unfold cmpSign
        rw [mx, my]
        simp

theorem rest32 {d1 d2 : List Int} (h1 : Digits15 d1) (h2 : Digits15 d2) (w1 w2 : Int)
    (h : d1 = [] ∨ d2 = []) : Var.cmpRest d1 d2 = cmpSign (mag32768 d1 w1) (mag32768 d2 w2) := by
  rcases h with rfl | rfl
  · have := digits32 h1 h2 w2
    rw [show mag32768 [] w2 = 0 from rfl] at this
    rw [show mag32768 [] w1 = 0 from rfl, ← this]; unfold Var.cmpDigits; rfl
  · have := digits32 h1 h2 w1
    rw [show mag32768 [] w1 = 0 from rfl] at this
    rw [show mag32768 [] w2 = 0 from rfl, ← this]; cases d1 <;> rfl

theorem abs32 (a b : Var) (ha : Digits15 a.digits) (hb : Digits15 b.digits) :
    Var.cmpAbs a b = cmpSign (mag32768 a.digits a.weight) (mag32768 b.digits b.weight) := by
  unfold Var.cmpAbs
  have l1 := lead32 ha a.weight b.weight
  have tb := mag32_lt hb b.weight
  split at l1
  · rename_i e1
    rw [e1]
    simp only
    have := lt_of_lt_of_le tb l1
    unfold cmpSign
    rw [if_neg (not_lt.2 this.le), if_neg this.ne']
  · rename_i ds1 w1 e1
    rw [e1]
    obtain ⟨g1, g2, g3, g4, g5⟩ := l1
    simp only
    have l2 := lead32 hb b.weight w1
    split at l2
    · rename_i e2
      rw [e2]
      simp only
      have t1 := mag32_lt g1 w1
      rw [g2] at t1
      have := lt_of_lt_of_le t1 l2
      unfold cmpSign
      rw [if_pos this]
    · rename_i ds2 w2 e2
      rw [e2]
      obtain ⟨k1, k2, k3, k4, k5⟩ := l2
      simp only
      split
      · rename_i hw
        subst hw
        rw [digits32 g1 k1 w1, g2, k2]
      · rename_i hw
        rw [rest32 g1 k1 w1 w2, g2, k2]
        by_contra hc
        push Not at hc
        have q3 := g3.resolve_left hc.1
        have q4 := k3.resolve_left hc.2
        omega

/-- The value of a variable in base 32768. -/
def value32 (v : Var) : ℚ := match v.sign with
  | .neg => -mag32768 v.digits v.weight
  | _ => mag32768 v.digits v.weight

theorem common32 (a b : Var) (ha : Digits15 a.digits) (hb : Digits15 b.digits) (na : a.sign ≠ .nan) (nb : b.sign ≠ .nan)
    (za : a.digits ≠ [] → 0 < mag32768 a.digits a.weight) (zb : b.digits ≠ [] → 0 < mag32768 b.digits b.weight) :
    Var.cmpCommon a b = cmpSign (value32 a) (value32 b) := by
  have lenz : ∀ v : Var, (v.digits.length : Int) = 0 ↔ v.digits = [] := by intro v; simp
  unfold Var.cmpCommon
  simp only [Var.ndigits, lenz]
  have z0 : ∀ w, mag32768 [] w = 0 := fun _ => rfl
  by_cases ea : a.digits = []
  · rw [if_pos ea]
    have va : value32 a = 0 := by unfold value32; rw [ea]; cases a.sign <;> simp [z0]
    rw [va]
    by_cases eb : b.digits = []
    · rw [if_pos eb]
      have vb : value32 b = 0 := by unfold value32; rw [eb]; cases b.sign <;> simp [z0]
      rw [vb]; simp [cmpSign]
    · rw [if_neg eb]
      have := zb eb
      unfold value32 cmpSign
      cases hs : b.sign
      · simp only [reduceCtorEq, if_false]; rw [if_pos this]
      · simp only [if_true]; rw [if_neg (by linarith), if_neg (by linarith)]
      · exact absurd hs nb
  · rw [if_neg ea]
    have pa := za ea
    by_cases eb : b.digits = []
    · rw [if_pos eb]
      have vb : value32 b = 0 := by unfold value32; rw [eb]; cases b.sign <;> simp [z0]
      rw [vb]
      unfold value32 cmpSign
      cases hs : a.sign
      · simp only [if_true]; rw [if_neg (by linarith), if_neg (by linarith)]
      · simp only [reduceCtorEq, if_false]; rw [if_pos (by linarith)]
      · exact absurd hs na
    · rw [if_neg eb]
      have pb := zb eb
      unfold value32
      cases hs : a.sign
      · rw [if_pos rfl]
        cases ht : b.sign
        · rw [if_neg (by simp), abs32 a b ha hb]
        · rw [if_pos rfl]; unfold cmpSign; simp only; rw [if_neg (by linarith), if_neg (by linarith)]
        · exact absurd ht nb
      · rw [if_neg (by simp)]
        cases ht : b.sign
        · rw [if_pos rfl]; unfold cmpSign; simp only; rw [if_pos (by linarith)]
        · rw [if_neg (by simp), abs32 b a hb ha]
          unfold cmpSign
          simp only [neg_lt_neg_iff, neg_inj]
          by_cases h1 : mag32768 b.digits b.weight < mag32768 a.digits a.weight
          · rw [if_pos h1, if_pos h1]
          · rw [if_neg h1, if_neg h1]
            by_cases h2 : mag32768 b.digits b.weight = mag32768 a.digits a.weight
            · rw [if_pos h2, if_pos h2.symm]
            · rw [if_neg h2, if_neg (fun h => h2 h.symm)]
        · exact absurd ht nb
      · exact absurd hs na

/-! ## Any digits -/

theorem cmpDigits_self [Build] : ∀ ds : List Int, cmpDigits ds ds = .ok 0
  | [] => rfl
  | d :: ds => by
    unfold cmpDigits
    have : sub16 d d = .ok 0 := by unfold sub16; rw [if_pos (by omega), sub_self, pure_ok]
    rw [this, bind_ok, if_neg (by simp), cmpDigits_self ds]

theorem cmpLead_self : ∀ (ds : List Int) (w : Int), Var.cmpLead ds w w = some (ds, w)
  | [], w => rfl
  | d :: ds, w => by rw [Var.cmpLead, if_neg (by omega)]

theorem cmpAbs_self [Build] (v : Var) : cmpAbs v v = .ok 0 := by
  unfold cmpAbs
  simp only [cmpLead_self, if_true, cmpDigits_self]

theorem cmpCommon_self [Build] (v : Var) : cmpCommon v v = .ok 0 := by
  unfold cmpCommon
  rw [cmpAbs_self]
  by_cases h0 : v.ndigits = 0
  · simp [h0]
  · by_cases h1 : v.sign = .pos
    · rw [if_neg h0, if_neg h0, if_pos h1, if_neg (by rw [h1]; simp)]
    · rw [if_neg h0, if_neg h0, if_neg h1, if_neg h1]

theorem cmpDigits_release (e : Bool) : ∀ d1 d2 : List Int, ∃ c, @cmpDigits (rel e) d1 d2 = .ok c
  | [], _ => ⟨_, by unfold cmpDigits; rfl⟩
  | _ :: _, [] => ⟨_, by unfold cmpDigits; rfl⟩
  | x :: xs, y :: ys => by
    let _ : Build := rel e
    unfold cmpDigits
    obtain ⟨s, es⟩ : ∃ s, sub16 x y = .ok s := by
      unfold sub16
      split
      · exact ⟨_, rfl⟩
      · exact ⟨_, rfl⟩
    rw [es, bind_ok]
    split
    · exact ⟨_, rfl⟩
    · exact cmpDigits_release e xs ys

theorem cmpAbs_release (e : Bool) (a b : Var) : ∃ c, @cmpAbs (rel e) a b = .ok c := by
  unfold cmpAbs
  split
  · exact ⟨_, rfl⟩
  · split
    · exact ⟨_, rfl⟩
    · split
      · exact cmpDigits_release e _ _
      · exact ⟨_, rfl⟩

theorem cmpCommon_release (e : Bool) (a b : Var) : ∃ c, @cmpCommon (rel e) a b = .ok c := by
  obtain ⟨c1, h1⟩ := cmpAbs_release e a b
  obtain ⟨c2, h2⟩ := cmpAbs_release e b a
  unfold cmpCommon
  rw [h1, h2]
  split
  · split
    · exact ⟨_, rfl⟩
    · split <;> exact ⟨_, rfl⟩
  · split
    · split <;> exact ⟨_, rfl⟩
    · split
      · split <;> exact ⟨_, rfl⟩
      · split <;> exact ⟨_, rfl⟩

theorem cmpDigits_debug (e : Bool) : ∀ d1 d2 : List Int, @cmpDigits (dbg e) d1 d2 = @cmpDigits (rel e) d1 d2 ∨ @cmpDigits (dbg e) d1 d2 = .error .overflow
  | [], _ => .inl (by unfold cmpDigits; rfl)
  | _ :: _, [] => .inl (by unfold cmpDigits; rfl)
  | x :: xs, y :: ys => by
    unfold cmpDigits
    by_cases h : -32768 ≤ x - y ∧ x - y ≤ 32767
    · have h1 : @sub16 (dbg e) x y = .ok (x - y) := by unfold sub16; rw [if_pos h, pure_ok]
      have h2 : @sub16 (rel e) x y = .ok (x - y) := by unfold sub16; rw [if_pos h, pure_ok]
      rw [h1, h2, bind_ok, bind_ok]
      split
      · exact .inl rfl
      · exact cmpDigits_debug e xs ys
    · have h1 : @sub16 (dbg e) x y = .error .overflow := by unfold sub16; rw [if_neg h]; rfl
      rw [h1]
      exact .inr rfl

theorem cmpAbs_debug (e : Bool) (a b : Var) : @cmpAbs (dbg e) a b = @cmpAbs (rel e) a b ∨ @cmpAbs (dbg e) a b = .error .overflow := by
  unfold cmpAbs
  split
  · exact .inl rfl
  · split
    · exact .inl rfl
    · split
      · exact cmpDigits_debug e _ _
      · exact .inl rfl

theorem cmpCommon_debug (e : Bool) (a b : Var) :
    @cmpCommon (dbg e) a b = @cmpCommon (rel e) a b ∨ @cmpCommon (dbg e) a b = .error .overflow := by
  have h1 := cmpAbs_debug e a b
  have h2 := cmpAbs_debug e b a
  unfold cmpCommon
  split
  · exact .inl rfl
  · split
    · exact .inl rfl
    · split
      · split
        · exact .inl rfl
        · exact h1
      · split
        · exact .inl rfl
        · exact h2

/-! ## Hashing -/

/-- What is written to the hasher. -/
def writes (v : Var) : List Num.Write :=
  if Var.stripTrail (Var.stripLead v.digits v.weight).1 = [] then [.u8 0] else
    [.slice (Var.stripTrail (Var.stripLead v.digits v.weight).1), .i32 (Var.stripLead v.digits v.weight).2, .i8 (if v.sign = .pos then 1 else -1)]

theorem hash16 [Build] {a : Bin} {v : Var} (hv : Storable16 v) (e : a.asVar = .ok v) : Num.hash a = .ok (writes v) := by
  have h1 := hv.weight_ge
  have h2 := hv.weight_le
  have h3 := hv.length
  have hle := (List.takeWhile_prefix (p := fun x : Int => decide (x = 0)) (l := v.digits)).length_le
  unfold Num.hash writes
  rw [e, bind_ok, if_neg hv.not_nan]
  dsimp only
  rw [i32_ok (by omega) (by omega), bind_ok]
  by_cases hz : ∀ d ∈ v.digits, d = 0
  · have ht : v.digits.takeWhile (· = 0) = v.digits := List.takeWhile_eq_self_iff.2 (by simpa using hz)
    have hd : v.digits.dropWhile (· = 0) = [] := List.dropWhile_eq_nil_iff.2 (by simpa using hz)
    rw [stripLead_loose, hd, ht]
    simp [Var.ndigits, Var.stripTrail]
  · have hne : ∃ d ∈ v.digits, d ≠ 0 := by push Not at hz; exact hz
    have hstart : (v.digits.takeWhile (· = 0)).length < v.digits.length := by
      rcases lt_or_eq_of_le hle with h | h
      · exact h
      · obtain ⟨d, hd, hd0⟩ := hne
        have := (List.takeWhile_prefix (p := fun x : Int => decide (x = 0)) (l := v.digits)).eq_of_length h
        rw [← this] at hd
        exact absurd (by simpa using List.mem_takeWhile_imp hd) hd0
    have hdrop : v.digits.dropWhile (· = 0) = v.digits.drop (v.digits.takeWhile (· = 0)).length := by
      conv_rhs => rw [← List.takeWhile_append_dropWhile (p := fun x : Int => decide (x = 0)) (l := v.digits)]
      rw [List.drop_append_of_le_length (by simp), List.takeWhile_append_dropWhile]
      simp
    set m := v.digits.dropWhile (· = 0) with hm
    have hlen : m.length = v.digits.length - (v.digits.takeWhile (· = 0)).length := by rw [hdrop, List.length_drop]
    have hmne : m ≠ [] := by intro h; rw [h] at hlen; simp at hlen; omega
    have hhead : m.head? ≠ some 0 := by
      intro h
      have := List.head?_dropWhile_not (fun x : Int => decide (x = 0)) v.digits
      rw [← hm, h] at this
      simp at this
    have hrev : v.digits.reverse.takeWhile (· = 0) = m.reverse.takeWhile (· = 0) := by
      conv_lhs => rw [← List.takeWhile_append_dropWhile (p := fun x : Int => decide (x = 0)) (l := v.digits), List.reverse_append]
      rw [← hm, List.takeWhile_append, if_neg]
      intro h
      have := (List.takeWhile_prefix (p := fun x : Int => decide (x = 0)) (l := m.reverse)).eq_of_length h
      apply hhead
      cases hmm : m with
      | nil => exact absurd hmm hmne
      | cons d l =>
        have hd : d ∈ m.reverse.takeWhile (fun x : Int => decide (x = 0)) := by rw [this, hmm]; simp
        have := List.mem_takeWhile_imp hd
        simp at this
        simp [this]
    have hst : (m.reverse.takeWhile (· = 0)).length < m.length := by
      have h5 := (List.takeWhile_prefix (p := fun x : Int => decide (x = 0)) (l := m.reverse)).length_le
      rw [List.length_reverse] at h5
      rcases lt_or_eq_of_le h5 with h | h
      · exact h
      · exfalso
        have := (List.takeWhile_prefix (p := fun x : Int => decide (x = 0)) (l := m.reverse)).eq_of_length (by rw [h, List.length_reverse])
        apply hhead
        cases hmm : m with
        | nil => exact absurd hmm hmne
        | cons d l =>
          have hd : d ∈ m.reverse.takeWhile (fun x : Int => decide (x = 0)) := by rw [this, hmm]; simp
          have := List.mem_takeWhile_imp hd
          simp at this
          simp [this]
    have htr : Var.stripTrail m ≠ [] := by
      rw [stripTrail_loose]
      intro h
      have := congrArg List.length h
      simp only [List.length_take, List.length_nil] at this
      omega
    rw [if_neg (by simp only [Var.ndigits]; omega), hrev, dassert_ok (by omega), bind_ok]
    rw [stripLead_loose]
    simp only [← hm, if_neg htr]
    unfold sliceM
    rw [if_pos (by omega), ← hdrop, stripTrail_loose, hlen]
    simp only [bind_ok, pure_ok]
    rw [Nat.sub_right_comm]

theorem lead_strip : ∀ {ds : List Int} {w w' : Int} {ds1 : List Int} {w1 : Int}, Var.cmpLead ds w w' = some (ds1, w1) →
    Var.stripLead ds w = Var.stripLead ds1 w1
  | [], _, _, _, _, h => by
    simp only [Var.cmpLead, Option.some.injEq, Prod.mk.injEq] at h
    rw [← h.1, ← h.2]
  | x :: xs, w, w', ds1, w1, h => by
    rw [Var.cmpLead] at h
    split at h
    · split at h
      · cases h
      · rename_i hx
        rw [← lead_strip h, Var.stripLead, if_pos (by omega)]
    · simp only [Option.some.injEq, Prod.mk.injEq] at h
      rw [← h.1, ← h.2]

theorem trail_zero : ∀ {ds : List Int}, (∀ d ∈ ds, d = 0) → Var.stripTrail ds = []
  | [], _ => rfl
  | d :: ds, h => by
    rw [Var.stripTrail, trail_zero (fun x hx => h x (List.mem_cons_of_mem _ hx))]
    simp [h d (by simp)]

theorem rest_zero {d1 d2 : List Int} (h : Var.cmpRest d1 d2 = 0) : (∀ d ∈ d1, d = 0) ∧ ∀ d ∈ d2, d = 0 := by
  unfold Var.cmpRest at h
  split at h
  · cases h
  · split at h
    · cases h
    · rename_i h1 h2
      simpa using And.intro h1 h2

theorem sub16_zero [Build] {a b : Int} (ha : -32768 ≤ a ∧ a ≤ 32767) (hb : -32768 ≤ b ∧ b ≤ 32767) (h : sub16 a b = .ok 0) : a = b := by
  unfold sub16 at h
  split at h
  · have : a - b = 0 := by simpa using h
    omega
  · split at h
    · cases h
    · have : (a - b + 32768) % 65536 - 32768 = 0 := by simpa using h
      omega

theorem digits_zero [Build] : ∀ {d1 d2 : List Int}, (∀ d ∈ d1, -32768 ≤ d ∧ d ≤ 32767) → (∀ d ∈ d2, -32768 ≤ d ∧ d ≤ 32767) →
    cmpDigits d1 d2 = .ok 0 → Var.stripTrail d1 = Var.stripTrail d2
  | [], d2, _, _, h => by
    unfold cmpDigits at h
    have := rest_zero (d1 := []) (d2 := d2) (by simpa using h)
    rw [trail_zero this.1, trail_zero this.2]
  | x :: xs, [], _, _, h => by
    unfold cmpDigits at h
    have := rest_zero (d1 := x :: xs) (d2 := []) (by simpa using h)
    rw [trail_zero this.1, trail_zero this.2]
  | x :: xs, y :: ys, h1, h2, h => by
    unfold cmpDigits at h
    cases es : sub16 x y with
    | error f => rw [es] at h; cases h
    | ok s =>
      rw [es, bind_ok] at h
      by_cases hs : s ≠ 0
      · rw [if_pos hs] at h
        by_cases hp : s > 0
        · rw [if_pos hp] at h; simp at h
        · rw [if_neg hp] at h; simp at h
      · rw [if_neg hs] at h
        have : s = 0 := by omega
        subst this
        obtain rfl := sub16_zero (h1 x (by simp)) (h2 y (by simp)) es
        have ih := digits_zero (fun d hd => h1 d (by simp [hd])) (fun d hd => h2 d (by simp [hd])) h
        rw [Var.stripTrail, Var.stripTrail, ih]

/-- Stripping at the two ends commutes. -/
theorem strip_comm : ∀ (ds : List Int) (w : Int), Var.stripTrail (Var.stripLead ds w).1 = (Var.stripLead (Var.stripTrail ds) w).1 ∧
    (Var.stripTrail ds ≠ [] → (Var.stripLead ds w).2 = (Var.stripLead (Var.stripTrail ds) w).2)
  | [], w => ⟨rfl, fun _ => rfl⟩
  | d :: ds, w => by
    obtain ⟨i1, i2⟩ := strip_comm ds (w - 1)
    by_cases hd : d = 0
    · subst hd
      have e1 : Var.stripLead (0 :: ds) w = Var.stripLead ds (w - 1) := by rw [Var.stripLead, if_pos rfl]
      rw [e1, i1]
      cases ht : Var.stripTrail ds with
      | nil =>
        have : Var.stripTrail (0 :: ds) = [] := by rw [Var.stripTrail, ht]; simp
        rw [this]
        exact ⟨rfl, fun h => absurd rfl h⟩
      | cons t ts =>
        have : Var.stripTrail (0 :: ds) = 0 :: t :: ts := by rw [Var.stripTrail, ht]
        rw [this]
        have e2 : Var.stripLead (0 :: t :: ts) w = Var.stripLead (t :: ts) (w - 1) := by rw [Var.stripLead, if_pos rfl]
        rw [e2]
        refine ⟨rfl, fun _ => ?_⟩
        have := i2 (by rw [ht]; simp)
        rw [this, ht]
    · have e1 : Var.stripLead (d :: ds) w = (d :: ds, w) := by rw [Var.stripLead, if_neg hd]
      rw [e1]
      have : ∃ ts, Var.stripTrail (d :: ds) = d :: ts := by
        rw [Var.stripTrail]
        cases Var.stripTrail ds with
        | nil => exact ⟨[], by simp [hd]⟩
        | cons t ts => exact ⟨t :: ts, rfl⟩
      obtain ⟨ts, et⟩ := this
      simp only [et]
      have e2 : Var.stripLead (d :: ts) w = (d :: ts, w) := by rw [Var.stripLead, if_neg hd]
      rw [e2]
      exact ⟨rfl, fun _ => rfl⟩

theorem abs_zero [Build] {a b : Var} (ha : ∀ d ∈ a.digits, -32768 ≤ d ∧ d ≤ 32767) (hb : ∀ d ∈ b.digits, -32768 ≤ d ∧ d ≤ 32767)
    (h : cmpAbs a b = .ok 0) (hs : a.sign = b.sign) : writes a = writes b := by
  unfold cmpAbs at h
  cases e1 : Var.cmpLead a.digits a.weight b.weight with
  | none => rw [e1] at h; simp at h
  | some p =>
    obtain ⟨ds1, w1⟩ := p
    rw [e1] at h
    simp only at h
    cases e2 : Var.cmpLead b.digits b.weight w1 with
    | none => rw [e2] at h; simp at h
    | some q =>
      obtain ⟨ds2, w2⟩ := q
      rw [e2] at h
      simp only at h
      unfold writes
      rw [lead_strip e1, lead_strip e2, hs]
      obtain ⟨c1, c2⟩ := strip_comm ds1 w1
      obtain ⟨c3, c4⟩ := strip_comm ds2 w2
      rw [c1, c3]
      by_cases hw : w1 = w2
      · rw [if_pos hw] at h
        have ht := digits_zero (fun d hd => ha d (cmpLead_sub e1 d hd)) (fun d hd => hb d (cmpLead_sub e2 d hd)) h
        by_cases h0 : Var.stripTrail ds1 = []
        · rw [← ht, h0]
          simp [Var.stripLead]
        · rw [c2 h0, c4 (by rw [← ht]; exact h0), ht, hw]
      · rw [if_neg hw] at h
        have := rest_zero (d1 := ds1) (d2 := ds2) (by simpa using h)
        rw [trail_zero this.1, trail_zero this.2]
        simp [Var.stripLead]

theorem common_zero [Build] {a b : Var} (ha : ∀ d ∈ a.digits, -32768 ≤ d ∧ d ≤ 32767) (hb : ∀ d ∈ b.digits, -32768 ≤ d ∧ d ≤ 32767)
    (na : a.sign ≠ .nan) (nb : b.sign ≠ .nan) (h : cmpCommon a b = .ok 0) : writes a = writes b := by
  have lenz : ∀ v : Var, (v.digits.length : Int) = 0 ↔ v.digits = [] := by intro v; simp
  unfold cmpCommon at h
  simp only [Var.ndigits, lenz] at h
  by_cases ea : a.digits = []
  · rw [if_pos ea] at h
    by_cases eb : b.digits = []
    · unfold writes; rw [ea, eb]; simp [Var.stripLead, Var.stripTrail]
    · rw [if_neg eb] at h
      split at h <;> simp at h
  · rw [if_neg ea] at h
    by_cases eb : b.digits = []
    · rw [if_pos eb] at h
      split at h <;> simp at h
    · rw [if_neg eb] at h
      by_cases sa : a.sign = .pos
      · rw [if_pos sa] at h
        by_cases sb : b.sign = .neg
        · rw [if_pos sb] at h; simp at h
        · rw [if_neg sb] at h
          refine abs_zero ha hb h ?_
          cases hx : b.sign <;> simp_all
      · rw [if_neg sa] at h
        by_cases sb : b.sign = .pos
        · rw [if_pos sb] at h; simp at h
        · rw [if_neg sb] at h
          refine (abs_zero hb ha h ?_).symm
          cases hx : b.sign <;> cases hy : a.sign <;> simp_all

end PgNumeric.Untrusted
