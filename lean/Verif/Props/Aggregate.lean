import Verif.SpecAggregate
import Verif.Props.Laws
import Verif.Props.Convert
/-!
# Loops over lists of numbers (C72)
-/
namespace PgNumeric.Props
open PgNumeric Spec

theorem topScale_cons (s : ℤ) (p : ℚ × ℤ) (ps : List (ℚ × ℤ)) : topScale (max s p.2) ps = topScale s (p :: ps) := by
  unfold topScale
  simp only [List.map_cons, List.foldr_cons]
  induction ps with
  | nil => simp [max_comm]
  | cons q qs ih => simp only [List.map_cons, List.foldr_cons]; rw [ih]; omega

theorem sumOf_cons (p : ℚ × ℤ) (ps : List (ℚ × ℤ)) : sumOf (p :: ps) = p.1 + sumOf ps := by simp [sumOf]
theorem prodOf_cons (p : ℚ × ℤ) (ps : List (ℚ × ℤ)) : prodOf (p :: ps) = p.1 * prodOf ps := by simp [prodOf]

/-- C72: adding up a list never panics. It gives the exact sum, with the largest of the scales, if every running total is below 10^131072; and `None`
if some running total (the sum of the first `k` numbers and the one started from) reaches it. -/
theorem C72_total_exact [Build] {acc : Bin} {x : ℚ} {s : Int} {l : List Bin} {ps : List (ℚ × ℤ)} (ha : Holds acc x s) (hl : HoldsAll l ps) :
    ((∀ k ≤ ps.length, |x + sumOf (ps.take k)| < limit) →
      ∃ r, total acc l = .ok (some r) ∧ Holds r (x + sumOf ps) (topScale s ps)) ∧
    ((∃ k ≤ ps.length, limit ≤ |x + sumOf (ps.take k)|) → total acc l = .ok none) := by
  induction hl generalizing acc x s with
  | nil =>
    refine ⟨fun _ => ⟨acc, rfl, by simpa [sumOf, topScale] using ha⟩, ?_⟩
    rintro ⟨k, -, hk⟩
    have := ha.bounds.2.2.2
    simp only [List.take_nil, sumOf, List.map_nil, List.sum_nil, add_zero] at hk
    exact absurd this (not_lt.2 hk)
  | @cons b p l ps hb hl ih =>
    have hstep := C08_add_exact ha hb
    constructor
    · intro h
      have h1 := h 1 (by simp)
      simp only [List.take_succ_cons, List.take_zero, sumOf_cons] at h1
      obtain ⟨r, e, hr⟩ := hstep.1 (by simpa [sumOf] using h1)
      obtain ⟨r', e', hr'⟩ := (ih hr).1 (fun k hk => by
        have := h (k + 1) (by simpa using hk)
        rwa [List.take_succ_cons, sumOf_cons, ← add_assoc] at this)
      refine ⟨r', ?_, ?_⟩
      · unfold total foldChecked; rw [e]; exact e'
      · rwa [sumOf_cons, ← add_assoc, ← topScale_cons]
    · rintro ⟨k, hk, hlim⟩
      rcases lt_or_ge |x + p.1| limit with h | h
      · obtain ⟨r, e, hr⟩ := hstep.1 h
        have : total r l = .ok none := by
          refine (ih hr).2 ?_
          cases k with
          | zero =>
            have := ha.bounds.2.2.2
            simp only [List.take_zero, sumOf, List.map_nil, List.sum_nil, add_zero] at hlim
            exact absurd this (not_lt.2 hlim)
          | succ k =>
            refine ⟨k, by simpa using hk, ?_⟩
            rwa [List.take_succ_cons, sumOf_cons, ← add_assoc] at hlim
        unfold total foldChecked; rw [e]; exact this
      · unfold total foldChecked; rw [hstep.2 h]

/-- C72: whatever the loop returns is the exact sum. -/
theorem C72_total_sound [Build] {acc r : Bin} {x : ℚ} {s : Int} {l : List Bin} {ps : List (ℚ × ℤ)} (ha : Holds acc x s) (hl : HoldsAll l ps)
    (h : total acc l = .ok (some r)) : Holds r (x + sumOf ps) (topScale s ps) := by
  by_cases hk : ∀ k ≤ ps.length, |x + sumOf (ps.take k)| < limit
  · obtain ⟨r', e, hr⟩ := (C72_total_exact ha hl).1 hk
    rw [h] at e; cases e; exact hr
  · push Not at hk
    rw [(C72_total_exact ha hl).2 hk] at h; cases h

theorem HoldsAll.perm [Build] {l l' : List Bin} {ps : List (ℚ × ℤ)} (hl : HoldsAll l ps) (h : l'.Perm l) :
    ∃ ps', HoldsAll l' ps' ∧ ps'.Perm ps := by
  obtain ⟨ps', h1, h2⟩ := List.perm_comp_forall₂ h hl
  exact ⟨ps', h1, h2⟩

theorem sumOf_perm {ps ps' : List (ℚ × ℤ)} (h : ps'.Perm ps) : sumOf ps' = sumOf ps := (h.map _).sum_eq
theorem prodOf_perm {ps ps' : List (ℚ × ℤ)} (h : ps'.Perm ps) : prodOf ps' = prodOf ps := (h.map _).prod_eq
theorem topScale_perm {ps ps' : List (ℚ × ℤ)} (s : ℤ) (h : ps'.Perm ps) : topScale s ps' = topScale s ps :=
  (h.map _).foldr_eq (lcomm := ⟨fun a b c => by simp [max_left_comm]⟩) s

theorem exists_holdsAll [Build] {l : List Bin} (h : ∀ b ∈ l, ∃ x s, Holds b x s) : ∃ ps, HoldsAll l ps := by
  induction l with
  | nil => exact ⟨[], .nil⟩
  | cons b l ih =>
    obtain ⟨ps, hp⟩ := ih (fun c hc => h c (by simp [hc]))
    obtain ⟨x, s, hb⟩ := h b (by simp)
    exact ⟨(x, s) :: ps, .cons hb hp⟩

/-- C72: the order in which a list is added up does not matter: if the loop returns a number for two orders, the two numbers are the same bytes. -/
theorem C72_total_order_free [Build] {acc r r' : Bin} {l l' : List Bin} (ha : ∃ x s, Holds acc x s) (hl : ∀ b ∈ l, ∃ x s, Holds b x s)
    (hp : l'.Perm l) (h : total acc l = .ok (some r)) (h' : total acc l' = .ok (some r')) : r' = r := by
  obtain ⟨x, s, ha⟩ := ha
  obtain ⟨ps, hps⟩ := exists_holdsAll hl
  obtain ⟨ps', h1, h2⟩ := HoldsAll.perm hps hp
  have e := C72_total_sound ha hps h
  have e' := C72_total_sound ha h1 h'
  rw [sumOf_perm h2, topScale_perm s h2] at e'
  exact e'.unique e

theorem sumOf_take_le {ps : List (ℚ × ℤ)} (h : ∀ p ∈ ps, 0 ≤ p.1) (k : Nat) : 0 ≤ sumOf (ps.take k) ∧ sumOf (ps.take k) ≤ sumOf ps := by
  have hn : ∀ qs : List (ℚ × ℤ), (∀ p ∈ qs, 0 ≤ p.1) → 0 ≤ sumOf qs := by
    intro qs hq
    unfold sumOf
    exact List.sum_nonneg (by simpa using fun a b hab => hq (a, b) hab)
  have e : sumOf ps = sumOf (ps.take k) + sumOf (ps.drop k) := by
    unfold sumOf
    rw [← List.sum_append, ← List.map_append, List.take_append_drop]
  have := hn (ps.drop k) (fun p hp => h p (List.mem_of_mem_drop hp))
  exact ⟨hn _ (fun p hp => h p (List.mem_of_mem_take hp)), by linarith⟩

/-- C72: if no number is negative, the loop overflows exactly when the exact sum does not fit: in every order, with the same result. -/
theorem C72_total_nonnegative [Build] {acc : Bin} {x : ℚ} {s : Int} {l : List Bin} {ps : List (ℚ × ℤ)} (ha : Holds acc x s) (hl : HoldsAll l ps)
    (hx : 0 ≤ x) (hps : ∀ p ∈ ps, 0 ≤ p.1) :
    (x + sumOf ps < limit → ∃ r, Holds r (x + sumOf ps) (topScale s ps) ∧ ∀ l', l'.Perm l → total acc l' = .ok (some r)) ∧
    (limit ≤ x + sumOf ps → ∀ l', l'.Perm l → total acc l' = .ok none) := by
  have abs_eq : ∀ {qs : List (ℚ × ℤ)}, (∀ p ∈ qs, 0 ≤ p.1) → ∀ k, |x + sumOf (qs.take k)| = x + sumOf (qs.take k) := fun hq k =>
    abs_of_nonneg (add_nonneg hx (sumOf_take_le hq k).1)
  constructor
  · intro hlim
    have run : ∀ {l' : List Bin} {qs : List (ℚ × ℤ)}, HoldsAll l' qs → qs.Perm ps →
        ∃ r, total acc l' = .ok (some r) ∧ Holds r (x + sumOf ps) (topScale s ps) := by
      intro l' qs h1 h2
      have hq : ∀ p ∈ qs, 0 ≤ p.1 := fun p hp => hps p (h2.mem_iff.1 hp)
      obtain ⟨r, e, hr⟩ := (C72_total_exact ha h1).1 (fun k _ => by
        rw [abs_eq hq]
        have := (sumOf_take_le hq k).2
        rw [sumOf_perm h2] at this
        linarith)
      rw [sumOf_perm h2, topScale_perm s h2] at hr
      exact ⟨r, e, hr⟩
    obtain ⟨r, -, hr⟩ := run hl (.refl _)
    refine ⟨r, hr, fun l' hp => ?_⟩
    obtain ⟨qs, h1, h2⟩ := HoldsAll.perm hl hp
    obtain ⟨r', e, hr'⟩ := run h1 h2
    rw [e, hr'.unique hr]
  · intro hlim l' hp
    obtain ⟨qs, h1, h2⟩ := HoldsAll.perm hl hp
    have hq : ∀ p ∈ qs, 0 ≤ p.1 := fun p hp => hps p (h2.mem_iff.1 hp)
    refine (C72_total_exact ha h1).2 ⟨qs.length, le_rfl, ?_⟩
    rw [abs_eq hq, List.take_length, sumOf_perm h2]
    exact hlim

/-- C72: a NaN in the list makes the sum NaN, if the numbers before it can be added up. -/
theorem C72_total_nan [Build] {acc r : Bin} {l l' : List Bin} {n : Bin} (ha : Valid acc) (hl : ∀ b ∈ l ++ n :: l', Valid b)
    (hn : IsNaN n) (h : total acc l = .ok (some r)) : total acc (l ++ n :: l') = .ok (some Bin.nan) := by
  have absorb : ∀ {l : List Bin}, (∀ b ∈ l, Valid b) → total Bin.nan l = .ok (some Bin.nan) := by
    intro l hv
    induction l with
    | nil => rfl
    | cons b l ih =>
      have e := (C24_nan_binary (.inl nan_isNaN) (hv b (by simp)) (.inl nan_isNaN)).1
      unfold total foldChecked; rw [e]
      exact ih (fun c hc => hv c (by simp [hc]))
  induction l generalizing acc with
  | nil =>
    have e := (C24_nan_binary ha (hl n (by simp)) (.inr hn)).1
    simp only [List.nil_append]
    unfold total foldChecked; rw [e]
    exact absorb (fun c hc => hl c (by simp [hc]))
  | cons b l ih =>
    have hb : Valid b := hl b (by simp)
    simp only [List.cons_append]
    unfold total foldChecked
    unfold total foldChecked at h
    rcases e : Num.checkedAdd acc b with er | _ | q
    · rw [e] at h; cases h
    · rw [e] at h; cases h
    · rw [e] at h
      refine ih ?_ (fun c hc => hl c (by simp only [List.cons_append, List.mem_cons]; exact .inr hc)) h
      by_cases hnan : IsNaN acc ∨ IsNaN b
      · rw [(C24_nan_binary ha hb hnan).1] at e; cases e; exact .inl nan_isNaN
      · push Not at hnan
        obtain ⟨x, s, ha⟩ := ha.resolve_left hnan.1
        obtain ⟨y, t, hb⟩ := hb.resolve_left hnan.2
        exact .inr ⟨_, _, add_some ha hb e⟩

/-- C72: whatever the loop of multiplications returns is the exact product, and its scale is the sum of the scales. -/
theorem C72_product_sound [Build] {acc r : Bin} {x : ℚ} {s : Int} {l : List Bin} {ps : List (ℚ × ℤ)} (ha : Holds acc x s) (hl : HoldsAll l ps)
    (h : product acc l = .ok (some r)) : Holds r (x * prodOf ps) (s + (ps.map Prod.snd).sum) := by
  induction hl generalizing acc x s with
  | nil => unfold product foldChecked at h; cases h; simpa [prodOf] using ha
  | @cons b p l ps hb hl ih =>
    unfold product foldChecked at h
    rcases e : Num.checkedMul acc b with er | _ | q
    · rw [e] at h; cases h
    · rw [e] at h; cases h
    · rw [e] at h
      have := ih (C10_mul_sound ha hb e) h
      rwa [prodOf_cons, ← mul_assoc, List.map_cons, List.sum_cons, ← add_assoc]

/-- C72: and no order of the factors gives other bytes. -/
theorem C72_product_order_free [Build] {acc r r' : Bin} {l l' : List Bin} (ha : ∃ x s, Holds acc x s) (hl : ∀ b ∈ l, ∃ x s, Holds b x s)
    (hp : l'.Perm l) (h : product acc l = .ok (some r)) (h' : product acc l' = .ok (some r')) : r' = r := by
  obtain ⟨x, s, ha⟩ := ha
  obtain ⟨ps, hps⟩ := exists_holdsAll hl
  obtain ⟨ps', h1, h2⟩ := HoldsAll.perm hps hp
  have e := C72_product_sound ha hps h
  have e' := C72_product_sound ha h1 h'
  rw [prodOf_perm h2, (h2.map Prod.snd).sum_eq] at e'
  exact e'.unique e

/-- C72: the product of whole numbers is returned in every order, or overflows in every order, if none of them is 0: the loop overflows exactly when
the exact product does not fit. -/
theorem C72_product_whole [Build] {acc : Bin} {x : ℚ} {l : List Bin} {ps : List (ℚ × ℤ)} (ha : Holds acc x 0) (hl : HoldsAll l ps)
    (hx : 1 ≤ |x|) (hps : ∀ p ∈ ps, p.2 = 0 ∧ p.1 ≠ 0) :
    (|x * prodOf ps| < limit → ∃ r, product acc l = .ok (some r) ∧ Holds r (x * prodOf ps) 0) ∧
    (limit ≤ |x * prodOf ps| → product acc l = .ok none) := by
  have key : ∀ {l : List Bin} {ps : List (ℚ × ℤ)}, HoldsAll l ps → (∀ p ∈ ps, p.2 = 0 ∧ p.1 ≠ 0) → 1 ≤ |prodOf ps| := by
    intro l ps h
    induction h with
    | nil => simp [prodOf]
    | @cons b p l ps hb hl ih =>
      intro hq
      obtain ⟨h0, h1⟩ := hq p (by simp)
      rw [prodOf_cons, abs_mul]
      have h2 := ih (fun q hq' => hq q (by simp [hq']))
      have h3 : 1 ≤ |p.1| := by
        obtain ⟨n, hn⟩ := hb.bounds.1
        rw [h0, zpow_zero, mul_one] at hn
        rw [hn] at h1 ⊢
        have : n ≠ 0 := by rintro rfl; simp at h1
        exact_mod_cast Int.one_le_abs this
      nlinarith
  induction hl generalizing acc x with
  | nil =>
    refine ⟨fun _ => ⟨acc, rfl, by simpa [prodOf] using ha⟩, fun h => ?_⟩
    have := ha.bounds.2.2.2
    simp only [prodOf, List.map_nil, List.prod_nil, mul_one] at h
    exact absurd this (not_lt.2 h)
  | @cons b p l ps hb hl ih =>
    have hrest := key hl (fun q hq' => hps q (by simp [hq']))
    have hp := hps p (by simp)
    have hone := key (.cons hb .nil : HoldsAll [b] [p]) (fun q hq => by simp at hq; rw [hq]; exact hp)
    rw [prodOf_cons] at hone ⊢
    simp only [prodOf, List.map_nil, List.prod_nil, mul_one] at hone
    have hxp : 1 ≤ |x * p.1| := by rw [abs_mul]; nlinarith
    rcases lt_or_ge |x * p.1| limit with h | h
    · obtain ⟨r, e, hr⟩ := C10_mul_exact ha hb (by rw [hp.1]; norm_num) h
      rw [hp.1, add_zero] at hr
      have := ih hr hxp (fun q hq' => hps q (by simp [hq']))
      rw [mul_assoc] at this
      have e' : product acc (b :: l) = product r l := by
        show foldChecked _ _ _ = _
        unfold foldChecked; rw [e]; rfl
      rw [e']; exact this
    · constructor
      · intro h'
        rw [← mul_assoc, abs_mul] at h'
        have : |x * p.1| ≤ |x * p.1| * |prodOf ps| := le_mul_of_one_le_right (abs_nonneg _) hrest
        exact absurd (lt_of_le_of_lt this h') (not_lt.2 h)
      · intro _
        unfold product foldChecked
        rw [(Num.checkedMul_spec ha hb).2.1 (by rw [hp.1]; norm_num) h]

/-- C72: the mean (the sum divided by the count) of numbers whose sum is not at the very limit is returned, and is within half a unit in its last
place of the exact mean; a tie goes away from zero. -/
theorem C72_mean [Build] {acc t c : Bin} {x : ℚ} {s : Int} {l : List Bin} {ps : List (ℚ × ℤ)} (ha : Holds acc x s) (hl : HoldsAll l ps)
    (ht : total acc l = .ok (some t)) (hlim : |x + sumOf ps| + 1 ≤ limit) (hc : Holds c ((l.length + 1 : ℕ) : ℚ) 0) :
    ∃ m z q, Num.checkedDiv t c = .ok (some m) ∧ Holds m z q ∧ 0 ≤ q ∧ q ≤ 1000 ∧ (q < 1000 → topScale s ps ≤ q) ∧
      |z - (x + sumOf ps) / ((ps.length + 1 : ℕ) : ℚ)| * 10 ^ q ≤ 1 / 2 ∧
      (|z - (x + sumOf ps) / ((ps.length + 1 : ℕ) : ℚ)| * 10 ^ q = 1 / 2 → |(x + sumOf ps) / ((ps.length + 1 : ℕ) : ℚ)| < |z|) := by
  have hlen : l.length = ps.length := List.Forall₂.length_eq hl
  have hT := C72_total_sound ha hl ht
  rw [← hlen]
  generalize hN : ((l.length + 1 : ℕ) : ℚ) = N at *
  generalize x + sumOf ps = X at *
  have hN1 : 1 ≤ N := by rw [← hN]; exact_mod_cast Nat.succ_le_succ (Nat.zero_le _)
  have hne : N ≠ 0 := by linarith
  have h1 := (C12_div_rounded hT hc hne).1
  obtain ⟨h0, h2, h3, -⟩ := C13_quotient_scale hT hc
  generalize quotientScale X N (topScale s ps) 0 = q at *
  obtain ⟨h4, -, h5⟩ := C12_round_meaning (X / N) q
  have hq1 : (1:ℚ) ≤ 10 ^ q := one_le_zpow₀ (by norm_num) h0
  have hle : |X / N| ≤ |X| := by
    rw [abs_div, abs_of_pos (by linarith : 0 < N)]
    exact div_le_self (abs_nonneg _) hN1
  have hd : |roundHalfAway (X / N) q - X / N| ≤ 1 / 2 := le_trans (le_mul_of_one_le_right (abs_nonneg _) hq1) h4
  have hr : |roundHalfAway (X / N) q| < limit := by
    have := abs_sub_abs_le_abs_sub (roundHalfAway (X / N) q) (X / N)
    linarith
  obtain ⟨m, e, hm⟩ := h1 hr
  exact ⟨m, _, q, e, hm, h0, h2, fun h => (h3 h).1, h4, h5⟩

/-- C72: looking for the largest (NaN counts as the largest of all) never panics; it ends with a number of the list, which is at least each of them. -/
theorem C72_largest [Build] {acc : Bin} {l : List Bin} (ha : Valid acc) (hl : ∀ b ∈ l, Valid b) :
    ∃ m, largest acc l = .ok m ∧ m ∈ acc :: l ∧ ∀ b ∈ acc :: l, Num.le b m = .ok true := by
  induction l generalizing acc with
  | nil =>
    refine ⟨acc, rfl, by simp, fun b hb => ?_⟩
    simp at hb; subst hb
    obtain ⟨k, hk⟩ := Num.valid_denotes ha
    rw [Num.le_spec hk hk]; simp
  | cons b l ih =>
    have hb : Valid b := hl b (by simp)
    have hl' : ∀ c ∈ l, Valid c := fun c hc => hl c (by simp [hc])
    obtain ⟨k, hk⟩ := Num.valid_denotes ha
    obtain ⟨j, hj⟩ := Num.valid_denotes hb
    have e := Num.lt_spec hk hj
    have go : ∀ c d : Bin, Valid c → Valid d → Num.le d c = .ok true → (∀ y, y ∈ acc :: b :: l ↔ y = d ∨ y ∈ c :: l) →
        largest acc (b :: l) = largest c l →
        ∃ m, largest acc (b :: l) = .ok m ∧ m ∈ acc :: b :: l ∧ ∀ y ∈ acc :: b :: l, Num.le y m = .ok true := by
      intro c d hc hd hle hm el
      obtain ⟨m, e1, e2, e3⟩ := ih hc hl'
      refine ⟨m, el.trans e1, (hm m).2 (.inr e2), fun y hy => ?_⟩
      rcases (hm y).1 hy with rfl | hy
      · have vm : Valid m := by
          rcases List.mem_cons.1 e2 with rfl | h
          · exact hc
          · exact hl' m h
        exact (C21_total_order hd hc vm).2.2.2.1 hle (e3 c (by simp))
      · exact e3 y hy
    by_cases h : k < j
    · refine go b acc hb ha (by rw [Num.le_spec hk hj]; simpa using h.le) (fun y => by simp) ?_
      rw [largest, e, decide_eq_true h]
    · refine go acc b ha hb (by rw [Num.le_spec hj hk]; simpa using h) (fun y => by simp only [List.mem_cons]; tauto) ?_
      rw [largest, e, decide_eq_false h]

/-- C72: likewise for the smallest. -/
theorem C72_smallest [Build] {acc : Bin} {l : List Bin} (ha : Valid acc) (hl : ∀ b ∈ l, Valid b) :
    ∃ m, smallest acc l = .ok m ∧ m ∈ acc :: l ∧ ∀ b ∈ acc :: l, Num.le m b = .ok true := by
  induction l generalizing acc with
  | nil =>
    refine ⟨acc, rfl, by simp, fun b hb => ?_⟩
    simp at hb; subst hb
    obtain ⟨k, hk⟩ := Num.valid_denotes ha
    rw [Num.le_spec hk hk]; simp
  | cons b l ih =>
    have hb : Valid b := hl b (by simp)
    have hl' : ∀ c ∈ l, Valid c := fun c hc => hl c (by simp [hc])
    obtain ⟨k, hk⟩ := Num.valid_denotes ha
    obtain ⟨j, hj⟩ := Num.valid_denotes hb
    have e := Num.lt_spec hj hk
    have go : ∀ c d : Bin, Valid c → Valid d → Num.le c d = .ok true → (∀ y, y ∈ acc :: b :: l ↔ y = d ∨ y ∈ c :: l) →
        smallest acc (b :: l) = smallest c l →
        ∃ m, smallest acc (b :: l) = .ok m ∧ m ∈ acc :: b :: l ∧ ∀ y ∈ acc :: b :: l, Num.le m y = .ok true := by
      intro c d hc hd hle hm el
      obtain ⟨m, e1, e2, e3⟩ := ih hc hl'
      refine ⟨m, el.trans e1, (hm m).2 (.inr e2), fun y hy => ?_⟩
      rcases (hm y).1 hy with rfl | hy
      · have vm : Valid m := by
          rcases List.mem_cons.1 e2 with rfl | h
          · exact hc
          · exact hl' m h
        exact (C21_total_order vm hc hd).2.2.2.1 (e3 c (by simp)) hle
      · exact e3 y hy
    by_cases h : j < k
    · refine go b acc hb ha (by rw [Num.le_spec hj hk]; simpa using h.le) (fun y => by simp) ?_
      rw [smallest, e, decide_eq_true h]
    · refine go acc b ha hb (by rw [Num.le_spec hk hj]; simpa using h) (fun y => by simp only [List.mem_cons]; tauto) ?_
      rw [smallest, e, decide_eq_false h]

/-- C72: however a list is sorted (stably or not, whatever the algorithm), the sorted lists agree place by place, up to numbers that compare equal. -/
theorem C72_sorted_unique [Build] {l l' : List Bin} (hl : ∀ b ∈ l, Valid b) (hp : l'.Perm l) (h : Ascending l) (h' : Ascending l') :
    List.Forall₂ (fun a b => Num.eq a b = .ok true) l l' := by
  have hl' : ∀ b ∈ l', Valid b := fun b hb => hl b (hp.mem_iff.1 hb)
  have den : ∀ {l : List Bin}, (∀ b ∈ l, Valid b) → ∃ ks, List.Forall₂ Denotes l ks := by
    intro l
    induction l with
    | nil => exact fun _ => ⟨[], .nil⟩
    | cons b l ih =>
      intro hv
      obtain ⟨ks, hk⟩ := ih (fun c hc => hv c (by simp [hc]))
      obtain ⟨k, hb⟩ := Num.valid_denotes (hv b (by simp))
      exact ⟨k :: ks, .cons hb hk⟩
  have asc : ∀ {l : List Bin} {ks : List (WithTop ℚ)}, List.Forall₂ Denotes l ks → Ascending l → ks.Pairwise (· ≤ ·) := by
    intro l ks hk
    induction hk with
    | nil => exact fun _ => .nil
    | @cons b k l ks hb hl ih =>
      intro ha
      obtain ⟨a1, a2⟩ := List.pairwise_cons.1 ha
      refine List.pairwise_cons.2 ⟨fun j hj => ?_, ih a2⟩
      obtain ⟨i, hi, rfl⟩ := List.mem_iff_getElem.1 hj
      have hi' : i < l.length := by rw [List.Forall₂.length_eq hl]; exact hi
      have hd := hl.get hi' hi
      have := a1 _ (List.getElem_mem hi')
      simp only [List.get_eq_getElem] at hd
      rw [Num.le_spec hb hd] at this
      simpa using this
  obtain ⟨ks, hk⟩ := den hl
  obtain ⟨ks', hk', hpk⟩ := List.perm_comp_forall₂ hp hk
  have e : ks' = ks := hpk.eq_of_pairwise (fun a b _ _ h1 h2 => le_antisymm h1 h2) (asc hk' h') (asc hk h)
  subst e
  clear h h' hl hl' hp hpk
  induction hk generalizing l' with
  | nil => cases hk'; exact .nil
  | @cons b k l ks hb hl ih =>
    cases hk' with
    | cons hb' hl' =>
      refine .cons ?_ (ih hl')
      rw [Num.eq_spec hb hb']; simp

theorem zero_holds [Build] : Holds Bin.zero 0 0 := ⟨Var.zero, zero_canonical (by norm_num) (by norm_num), Bin.encode_zero.symm, by simp [value, Var.zero], rfl⟩

/-- 0.1 + 0.20 - 3 = -2.70, from zero. -/
example [Build] : ∃ l r, HoldsAll l [(1/10, 1), (2/10, 2), (-3, 0)] ∧ total Bin.zero l = .ok (some r) ∧ Holds r (-(27/10)) 2 := by
  obtain ⟨a, ha⟩ := witness (x := 1/10) (s := 1) 1 (by norm_num) (by norm_num) (by norm_num) (by norm_num [abs_lt])
  obtain ⟨b, hb⟩ := witness (x := 2/10) (s := 2) 20 (by norm_num) (by norm_num) (by norm_num) (by norm_num [abs_lt])
  obtain ⟨c, hc⟩ := witness (x := -3) (s := 0) (-3) (by norm_num) (by norm_num) (by norm_num) (by norm_num [abs_lt])
  have hl : HoldsAll [a, b, c] [(1/10, 1), (2/10, 2), (-3, 0)] := .cons ha (.cons hb (.cons hc .nil))
  obtain ⟨r, e, hr⟩ := (C72_total_exact zero_holds hl).1 (fun k hk => by
    simp only [List.length_cons, List.length_nil] at hk
    refine lt_limit ?_
    interval_cases k <;> norm_num [sumOf, abs_lt])
  refine ⟨_, r, hl, e, ?_⟩
  norm_num [sumOf, topScale] at hr
  exact hr

/-- C72: with numbers of both signs the order can decide between a result and `None`: of three numbers that can be added up in one order, another
order overflows. -/
theorem C72_order_can_overflow [Build] :
    ∃ l l' r, l'.Perm l ∧ (∀ b ∈ l, ∃ x s, Holds b x s) ∧ total Bin.zero l = .ok (some r) ∧ total Bin.zero l' = .ok none := by
  obtain ⟨M, hM⟩ : ∃ M : ℤ, (M : ℚ) * 10 = 6 * limit :=
    ⟨6 * 10 ^ (131071 : ℕ), by unfold limit; push_cast; rw [pow_succ (10:ℚ) 131071]; ring⟩
  have hpos : 0 < limit := by unfold limit; positivity
  have hab : |(M : ℚ)| < limit := by rw [abs_lt]; constructor <;> linarith
  have hsc : HasScale (M : ℚ) 0 := ⟨M, by simp⟩
  have hsc' : HasScale (-(M : ℚ)) 0 := ⟨-M, by simp⟩
  obtain ⟨a, ha⟩ := exists_holds hsc le_rfl (by norm_num) hab
  obtain ⟨b, hb⟩ := exists_holds hsc' le_rfl (by norm_num) (by rwa [abs_neg])
  have h1 : HoldsAll [a, b, a] [((M : ℚ), 0), (-(M : ℚ), 0), ((M : ℚ), 0)] := .cons ha (.cons hb (.cons ha .nil))
  have h2 : HoldsAll [a, a, b] [((M : ℚ), 0), ((M : ℚ), 0), (-(M : ℚ), 0)] := .cons ha (.cons ha (.cons hb .nil))
  obtain ⟨r, e, -⟩ := (C72_total_exact zero_holds h1).1 (fun k hk => by
    simp only [List.length_cons, List.length_nil] at hk
    clear hM ha hb
    generalize (M : ℚ) = y at *
    interval_cases k
    · simpa [sumOf] using hpos
    · simpa [sumOf] using hab
    · simpa [sumOf] using hpos
    · simpa [sumOf] using hab)
  refine ⟨[a, b, a], [a, a, b], r, ?_, ?_, e, ?_⟩
  · exact (List.Perm.swap b a []).cons a
  · intro c hc
    simp only [List.mem_cons, List.not_mem_nil, or_false] at hc
    rcases hc with rfl | rfl | rfl
    · exact ⟨_, _, ha⟩
    · exact ⟨_, _, hb⟩
    · exact ⟨_, _, ha⟩
  · refine (C72_total_exact zero_holds h2).2 ⟨2, by simp, ?_⟩
    simp only [List.take_succ_cons, List.take_zero, sumOf, List.map_cons, List.map_nil, List.sum_cons, List.sum_nil]
    rw [abs_of_pos (by linarith)]
    linarith

/-- 1.5, NaN and 1.50 in ascending order, in two ways. -/
example [Build] : ∃ l l', (∀ b ∈ l, Valid b) ∧ l'.Perm l ∧ l ≠ l' ∧ Ascending l ∧ Ascending l' := by
  obtain ⟨a, ha⟩ := witness (x := 15/10) (s := 1) 15 (by norm_num) (by norm_num) (by norm_num) (by norm_num [abs_lt])
  obtain ⟨b, hb⟩ := witness (x := 15/10) (s := 2) 150 (by norm_num) (by norm_num) (by norm_num) (by norm_num [abs_lt])
  have da : Denotes a ((15/10 : ℚ) : WithTop ℚ) := .inr ⟨_, _, ha, rfl⟩
  have db : Denotes b ((15/10 : ℚ) : WithTop ℚ) := .inr ⟨_, _, hb, rfl⟩
  have dn : Denotes Bin.nan (⊤ : WithTop ℚ) := .inl ⟨nan_isNaN, rfl⟩
  refine ⟨[a, b, Bin.nan], [b, a, Bin.nan], ?_, .swap _ _ _, ?_, ?_, ?_⟩
  · intro c hc
    simp only [List.mem_cons, List.not_mem_nil, or_false] at hc
    rcases hc with rfl | rfl | rfl
    · exact .inr ⟨_, _, ha⟩
    · exact .inr ⟨_, _, hb⟩
    · exact .inl nan_isNaN
  · intro h
    have : a = b := by injection h
    subst this
    have := (ha.inj hb).2
    norm_num at this
  · simp [Ascending, Num.le_spec da db, Num.le_spec da dn, Num.le_spec db dn]
  · simp [Ascending, Num.le_spec db da, Num.le_spec da dn, Num.le_spec db dn]

/-- The mean of 1, 2 and 4 is 2.33..., and the count is a number of the library. -/
example [Build] : ∃ a l t c, Holds a 1 0 ∧ HoldsAll l [(2, 0), (4, 0)] ∧ total a l = .ok (some t) ∧ |(1:ℚ) + sumOf [(2, 0), (4, 0)]| + 1 ≤ limit ∧
    Holds c ((l.length + 1 : ℕ) : ℚ) 0 := by
  obtain ⟨a, ha⟩ := witness (x := 1) (s := 0) 1 (by norm_num) (by norm_num) (by norm_num) (by norm_num [abs_lt])
  obtain ⟨b, hb⟩ := witness (x := 2) (s := 0) 2 (by norm_num) (by norm_num) (by norm_num) (by norm_num [abs_lt])
  obtain ⟨c, hc⟩ := witness (x := 4) (s := 0) 4 (by norm_num) (by norm_num) (by norm_num) (by norm_num [abs_lt])
  obtain ⟨d, hd⟩ := witness (x := 3) (s := 0) 3 (by norm_num) (by norm_num) (by norm_num) (by norm_num [abs_lt])
  have hl : HoldsAll [b, c] [(2, 0), (4, 0)] := .cons hb (.cons hc .nil)
  obtain ⟨r, e, hr⟩ := (C72_total_exact ha hl).1 (fun k hk => by
    simp only [List.length_cons, List.length_nil] at hk
    refine lt_limit ?_
    interval_cases k <;> norm_num [sumOf, abs_lt])
  refine ⟨a, [b, c], r, d, ha, hl, e, ?_, ?_⟩
  · have := lt_limit (x := 8) (by norm_num [abs_lt])
    norm_num [sumOf] at this ⊢
    exact this.le
  · norm_num
    exact hd

end PgNumeric.Props
