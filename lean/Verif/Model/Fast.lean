import Verif.Model.F64
import Verif.Model.Var
/-!
# Floating-point assisted division (src/var.rs:1256-1516)

The array `div[]` is represented by the part `div[qi..=div_ndigits]` that the loop still works on; the quotient
digits already stored in `div[..qi]` are returned. All accesses of the code at step `qi` are to `div[qi + i]`
with `qi + i <= div_ndigits` and to `var2_digits[i]` with `i < var2_ndigits`.
-/
namespace PgNumeric
open F64
namespace Var

/-- The loop that approximates a digit string by its first four digits (src/var.rs:1323-1328, 1357-1362,
1406-1411, 1477-1480): `k` digits to go, `f` so far, missing digits count as zero. -/
def fapprox : Nat → ℚ → List Int → ℚ
  | 0, f, _ => f
  | k + 1, f, [] => fapprox k (F64.mul f NBASE) []
  | k + 1, f, d :: ds => fapprox k (F64.add (F64.mul f NBASE) d) ds

/-- The quotient digit from its approximation (src/var.rs:1364-1370, 1413-1419, 1481-1487). -/
def fdigit [Build] (fquotient : ℚ) : M Int :=
  if 0 ≤ fquotient then pure (toI32 fquotient) else i32 (toI32 fquotient - 1)

/-- The estimate of the current quotient digit. -/
def festimate [Build] (inv : ℚ) (x : Int) (xs : List Int) : M Int := fdigit (F64.mul (fapprox 3 x xs) inv)

/-- A carry propagation pass over signed digits, right to left; used for the periodic normalisation
(src/var.rs:1379-1392) and for the final pass (src/var.rs:1500-1513). -/
def signedCarry [Build] : List Int → M (List Int × Int)
  | [] => pure ([], 0)
  | d :: ds => do
    let (ds', carry) ← signedCarry ds
    let nd ← i32 (d + carry)
    if nd < 0 then
      let m ← i32 (-nd)
      let carry := -((m - 1) / NBASE) - 1
      let p ← i32 (carry * NBASE)
      let r ← i32 (nd - p)
      pure (r :: ds', carry)
    else if nd ≥ NBASE then pure ((nd - nd / NBASE * NBASE) :: ds', nd / NBASE)
    else pure (nd :: ds', 0)

/-- Subtract a multiple of the divisor, over the common length (src/var.rs:1432-1438). -/
def subRow [Build] (q : Int) : List Int → List Int → M (List Int)
  | d :: ds, v :: vs => do
    let p ← i32 (q * v)
    let r ← i32 (d - p)
    let rest ← subRow q ds vs
    pure (r :: rest)
  | ds, _ => pure ds

/-- The normalisation threshold (src/var.rs:1375). -/
def divMaxDig : Int := (2147483647 - 2147483647 / NBASE - 1) / (NBASE - 1)

/-- One quotient digit (src/var.rs:1355-1440): the digit, the new `div[qi..]` and the new `max_div`. -/
def fastStep [Build] (v : List Int) (inv : ℚ) (x : Int) (xs : List Int) (maxDiv : Int) : M (Int × List Int × Int) := do
  let q ← festimate inv x xs
  if q = 0 then pure (q, x :: xs, maxDiv)
  else
    let m ← i32 (maxDiv + |q|)
    if m > divMaxDig then
      let (xs, carry) ← signedCarry xs
      let x ← i32 (x + carry)
      let q ← festimate inv x xs
      let m ← i32 (1 + |q|)
      if q = 0 then pure (q, x :: xs, m)
      else
        let rest ← subRow q (x :: xs) v
        pure (q, rest, m)
    else
      let rest ← subRow q (x :: xs) v
      pure (q, rest, m)

/-- The main loop (src/var.rs:1353-1468) and the last digit (src/var.rs:1473-1488): `n` iterations remain and the
list is `div[div_ndigits - n ..= div_ndigits]`. The product `div_qi * NBASE` may overflow. -/
def fastLoop [Build] (v : List Int) (inv : ℚ) : Nat → List Int → Int → M (List Int)
  | 0, rest, _ => do
    let x ← getM rest 0
    let q ← festimate inv x []
    pure [q]
  | n + 1, rest, maxDiv => do
    let x ← getM rest 0
    let (q, rest, maxDiv) ← fastStep v inv x rest.tail maxDiv
    let x ← getM rest 0
    let d ← getM rest 1
    let p ← i32 (x * NBASE)
    let d ← i32 (d + p)
    let qs ← fastLoop v inv n (d :: rest.tail.tail) maxDiv
    pure (q :: qs)

/-- The number of quotient digits to compute (src/var.rs:1286-1300). -/
def fastDigits (resWeight rscale n1 : Int) : Int :=
  max (max (resWeight + 1 + (rscale + DEC_DIGITS - 1) / DEC_DIGITS + DIV_GUARD_DIGITS) DIV_GUARD_DIGITS) n1

/-- src/var.rs:1256-1516 `div_fast_common`. `rscale >= 0`, so that Rust's truncating division is the floor. -/
def divFastCommon [Build] (self other : Var) (rscale : Int) (round : Bool) : M (Option Var) := do
  dassert (self.sign ≠ .nan)
  dassert (other.sign ≠ .nan)
  match other.digits with
  | [] => pure none
  | v0 :: vs =>
    if v0 = 0 then pure none
    else if self.ndigits = 0 then do
      let z ← zeroScaled rscale
      pure (some z)
    else
      let resSign := if self.sign = other.sign then Sign.pos else Sign.neg
      let resWeight ← i32 (self.weight - other.weight + 1)
      fits [self.weight - other.weight, resWeight + 1, rscale + DEC_DIGITS, rscale + DEC_DIGITS - 1,
        resWeight + 1 + (rscale + DEC_DIGITS - 1) / DEC_DIGITS,
        resWeight + 1 + (rscale + DEC_DIGITS - 1) / DEC_DIGITS + DIV_GUARD_DIGITS,
        fastDigits resWeight rscale self.ndigits + 1]
      let n := fastDigits resWeight rscale self.ndigits
      let rest := 0 :: (self.digits ++ List.replicate (n.toNat - self.digits.length) 0)
      let inv := F64.div 1 (fapprox 3 v0 vs)
      let qs ← fastLoop (v0 :: vs) inv n.toNat rest 1
      let (ds, carry) ← signedCarry qs
      dassert (carry = 0)
      let r ← if round then roundCommon ⟨resWeight, 0, resSign, ds⟩ rscale
        else truncCommon ⟨resWeight, 0, resSign, ds⟩ rscale
      let r ← stripM r
      pure (some r)

end Var
end PgNumeric
