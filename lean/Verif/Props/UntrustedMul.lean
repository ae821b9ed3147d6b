import Verif.Proofs.Mul
import Verif.Proofs.Api
import Verif.Props.UntrustedTypmod
import Verif.Props.UntrustedText
/-!
# C85: multiplying numbers from arbitrary bytes
-/
namespace PgNumeric.Props
open PgNumeric Spec Untrusted

/-- The stored digits end where the declared scale ends, up to the group of four that the last place is in: nothing is hidden behind the scale. -/
def NothingHidden [Build] (bs : List (BitVec 8)) : Prop :=
  ((digitsAt bs).length : ℤ) ≤ weightAt bs + 1 + (scaleAt bs + 3) / 4

/-- C85: two numbers read from any bytes whose digits are proper (0..9999) and whose scales sum up to at most 16383 are multiplied without a panic, in either build. The product
is a valid number at the sum of the scales. It is a product rounded to that scale, half away from zero: of the exact product if no digits are hidden behind the declared scales,
and otherwise of a number that is off by less than one ten-thousandth of the last place for each digit of the shorter factor. It is missing exactly if it is out of range. -/
theorem C85_mul [Build] {xs ys : List (BitVec 8)} {a b : Bin} (hx : xs.length ≤ 100000000) (hy : ys.length ≤ 100000000)
    (ha : Untrusted.deserialize xs = .ok a) (hb : Untrusted.deserialize ys = .ok b) (h3 : kindAt xs ≠ 3) (k3 : kindAt ys ≠ 3)
    (dx : ∀ d ∈ digitsAt xs, 0 ≤ d ∧ d < 10000) (dy : ∀ d ∈ digitsAt ys, 0 ≤ d ∧ d < 10000) (hs : scaleAt xs + scaleAt ys ≤ 16383) :
    ∃ q : ℚ, (NothingHidden xs → NothingHidden ys → q = amountAt xs * amountAt ys) ∧
      |amountAt xs * amountAt ys - q| ≤ min (digitsAt xs).length (digitsAt ys).length * (1 / 10000) * 10 ^ (-(scaleAt xs + scaleAt ys : ℤ)) ∧
      (|roundHalfAway q (scaleAt xs + scaleAt ys)| < 10 ^ 131072 →
        ∃ r, Num.checkedMul a b = .ok (some r) ∧ Holds r (roundHalfAway q (scaleAt xs + scaleAt ys)) (scaleAt xs + scaleAt ys)) ∧
      (10 ^ 131072 ≤ |roundHalfAway q (scaleAt xs + scaleAt ys)| → Num.checkedMul a b = .ok none) := by
  obtain ⟨p1, p2, p3, p4, p5⟩ := untrusted_operand hx ha h3
  obtain ⟨q1, q2, q3, q4, q5⟩ := untrusted_operand hy hb k3
  have e1 : (varAt xs).dscale = scaleAt xs := rfl
  have e2 : (varAt ys).dscale = scaleAt ys := rfl
  obtain ⟨u, eu, hu⟩ := mulCommon_spec (varAt xs) (varAt ys) p5 q5 ((varAt xs).dscale + (varAt ys).dscale) (by omega) dx dy p3.not_nan q3.not_nan (by omega)
    (.inl (by omega))
  obtain ⟨q, h1, h2, h4⟩ := hu.round
  rw [amount_var, amount_var] at h2 h4
  rw [e1, e2] at h1 h4
  have hc : Num.checkedMul a b = Num.finish u := by
    unfold Num.checkedMul
    simp only [p1, q1, p2, q2, p4, q4, bind_ok, Bool.or_self, Bool.false_eq_true, if_false, eu]
  have hf := Num.finish_spec (x := roundHalfAway q (scaleAt xs + scaleAt ys)) (s := scaleAt xs + scaleAt ys)
    ⟨hu.digits, hu.not_nan, hu.stripped, by rw [hu.dscale, e1, e2], h1⟩ (by omega) (by omega) (roundHalfAway_hasScale _ _)
  refine ⟨q, fun n1 n2 => h2 ?_, ?_, ?_, ?_⟩
  · unfold NothingHidden at n1 n2
    have l1 : (varAt xs).ndigits = (digitsAt xs).length := rfl
    have l2 : (varAt ys).ndigits = (digitsAt ys).length := rfl
    have w1 : (varAt xs).weight = weightAt xs := rfl
    have w2 : (varAt ys).weight = weightAt ys := rfl
    rw [l1, l2, w1, w2, e1, e2]
    omega
  · push_cast at h4 ⊢
    exact h4
  · rw [hc]; exact hf.1
  · rw [hc]; exact hf.2

/-- C85 (a defect): the product with one is another number, if digits are hidden behind the scale: the digits 1 and 5000 at scale zero times 1 is 2. -/
theorem C85_hidden_digits (d : Bool) : ∃ a b r, @Untrusted.deserialize ⟨d, false⟩ (digitBytes2 1#8 0#8 0x88#8 0x13#8) = .ok a ∧
    @Untrusted.deserialize ⟨d, false⟩ (digitBytes1 1#8 0#8) = .ok b ∧ @digitsAt ⟨d, false⟩ (digitBytes2 1#8 0#8 0x88#8 0x13#8) = [1, 5000] ∧
    @Num.checkedMul ⟨d, false⟩ a b = .ok (some r) ∧ @digitsAt ⟨d, false⟩ r.asBytes = [2] ∧ @Untrusted.display ⟨d, false⟩ a = .ok (str "1") := by
  have e : (Except.ok ([] ++ (Text.dec 1 ++ []) ++ []) : M Str) = .ok (str "1") := by rw [dec_small (n := 1) (by omega)]; rfl
  cases d <;> exact ⟨_, _, _, rfl, rfl, rfl, rfl, rfl, Eq.trans (b := Except.ok ([] ++ (Text.dec 1 ++ []) ++ [])) rfl e⟩

/-- The hypotheses are met, with digits hidden and without. -/
example : ∃ a b, @Untrusted.deserialize (dbg false) (digitBytes2 1#8 0#8 0x88#8 0x13#8) = .ok a ∧ @Untrusted.deserialize (dbg false) (digitBytes1 1#8 0#8) = .ok b ∧
    kindAt (digitBytes2 1#8 0#8 0x88#8 0x13#8) ≠ 3 ∧ kindAt (digitBytes1 1#8 0#8) ≠ 3 ∧
    scaleAt (digitBytes2 1#8 0#8 0x88#8 0x13#8) + scaleAt (digitBytes1 1#8 0#8) ≤ 16383 ∧
    ¬ @NothingHidden (dbg false) (digitBytes2 1#8 0#8 0x88#8 0x13#8) ∧ @NothingHidden (dbg false) (digitBytes1 1#8 0#8) := by
  refine ⟨_, _, rfl, rfl, by decide, by decide, by decide, ?_, ?_⟩
  · unfold NothingHidden
    rw [show @digitsAt (dbg false) (digitBytes2 1#8 0#8 0x88#8 0x13#8) = [1, 5000] from rfl, show weightAt (digitBytes2 1#8 0#8 0x88#8 0x13#8) = 0 from rfl,
      show scaleAt (digitBytes2 1#8 0#8 0x88#8 0x13#8) = 0 from rfl]
    decide
  · unfold NothingHidden
    rw [show @digitsAt (dbg false) (digitBytes1 1#8 0#8) = [1] from rfl, show weightAt (digitBytes1 1#8 0#8) = 0 from rfl, show scaleAt (digitBytes1 1#8 0#8) = 0 from rfl]
    decide

end PgNumeric.Props
