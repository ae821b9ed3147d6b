import Verif.Model.Sqrt
import Verif.Model.Convert
import Verif.Model.Text
import Verif.Model.ToFloat
/-!
# Powers, exponentials, logarithms and scientific notation

src/var.rs:1613-2098, 2176-2307, 2491-2624; src/num.rs:240-256, 776-873.

These functions use `f64::log10`, `f64::ln` and the conversion of a numeric to an `f64` (which calls `strtod`) to choose scales.
The three external functions are parameters (`Libm`); the theorems say what they assume about them. Loops without an evident bound take the number
of rounds allowed (`fuel`) and fault with `diverge` when it is exhausted.
-/
namespace PgNumeric

/-- The functions outside the crate that the code calls: `f64::log10` and `f64::ln` on positive arguments, and
`strtod::strtod`. -/
structure Libm where
  log10 : ℚ → ℚ
  ln : ℚ → ℚ
  strtod : Str → Option Convert.Float

/-- A double as a rational, as the arithmetic of `F64` takes it. Simplification: an infinity is `±2^1024`; the code only compares
it with limits below 10^4, after at most one multiplication by `LOG10_E` (src/var.rs:1938, 2570-2575, 2078), so this
makes no difference. A `strtod` that reads a decimal number as NaN is outside the model. -/
def F64.ofFloat : Convert.Float → M ℚ
  | .fin neg q => pure (if neg then -q else q)
  | .inf neg => pure (if neg then -2 ^ 1024 else 2 ^ 1024)
  | .nan => throw (.panic "strtod returned NaN")

/-- `TryFrom::try_from(v).unwrap()` for an `f64` (src/var.rs:1934, 2566, 2075). -/
def Libm.toF64 [Build] (lm : Libm) (v : Var) : M ℚ := do
  match ← Convert.toF64 lm.strtod v with
  | .ok f => F64.ofFloat f
  | .error _ => throw (.panic "called `Result::unwrap()` on an `Err` value")

namespace F64
/-- `std::f64::consts::LOG10_E` -/
def LOG10_E : ℚ := 3911776933737095 / 9007199254740992
/-- `std::f64::consts::LN_10` -/
def LN_10 : ℚ := 2592480341699211 / 1125899906842624
/-- `std::f64::consts::LOG10_2` -/
def LOG10_2 : ℚ := 5422874305198591 / 18014398509481984
/-- the `f64` nearest to `0.01` -/
def CENT : ℚ := 5764607523034235 / 576460752303423488
end F64

namespace Var

/-! ## Integer powers -/

/-- The loop over the further digits (src/var.rs:1676-1683), from digit `i` on: it stops at the first digit because
`i * 4 < 16`. -/
def powEstimate : Nat → List Int → ℚ → Int → ℚ × Int
  | _, [], f, p => (f, p)
  | i, d :: ds, f, p =>
    if i * 4 < 16 then (f, p) else powEstimate (i + 1) ds (F64.add (F64.mul f 10000) d) (p - DEC_DIGITS)

/-- The estimate of the decimal logarithm of the result (src/var.rs:1672-1687). -/
def powLog (lm : Libm) (d : Int) (ds : List Int) (weight exp : Int) : ℚ :=
  let (f, p) := powEstimate 1 ds d (weight * DEC_DIGITS)
  F64.mul exp (F64.add (lm.log10 f) p)

/-- The scale of a product in the loop (src/var.rs:1729-1731, 1736-1738): `a` and `b` are the factors. -/
def powScale [Build] (sig : Int) (a b : Var) : M Int := do
  fits [a.weight + b.weight, (a.weight + b.weight) * DEC_DIGITS]
  let s ← i32 (sig - (a.weight + b.weight) * DEC_DIGITS)
  let d ← i32 (a.dscale + b.dscale)
  pure (max (min s d) NUMERIC_MIN_DISPLAY_SCALE)

/-- The conditional multiplication of the loop (src/var.rs:1735-1741). -/
def powMul [Build] (sig mask : Int) (base result : Var) : M Var :=
  if mask % 2 ≠ 0 then do
    let s ← powScale sig base result
    mulCommon base result s
  else pure result

/-- The loop (src/var.rs:1719-1755). `none`: overflow; `(r, neg)`: the product and whether to invert it. The model
recurses on a bound for the number of bits of `mask`; 32 is enough for an `i32`. -/
def powLoop [Build] (sig : Int) : Nat → Int → Bool → Var → Var → M (Option (Var × Bool))
  | 0, _, neg, _, result => pure (some (result, neg))
  | k + 1, mask, neg, base, result => do
    let mask := mask / 2
    if mask ≤ 0 then pure (some (result, neg))
    else
      let s ← powScale sig base base
      let base ← mulCommon base base s
      let result ← powMul sig mask base result
      if base.weight > 32767 ∨ result.weight > 32767 then
        if neg then pure (some (zero, false)) else pure none
      else powLoop sig k mask neg base result

/-- The number of significant digits to carry (src/var.rs:1701-1706); `m` is `exp.abs()`, which is negative in a
release build for `i32::MIN`, whose logarithm is a NaN that is cast to 0. -/
def powSig [Build] (lm : Libm) (f : ℚ) (rscale m : Int) : M Int := do
  fits [1 + rscale, (if m < 0 then 0 else F64.toI32 (lm.ln m)) + 8]
  let s ← i32 (1 + rscale + F64.toI32 f)
  i32 (s + ((if m < 0 then 0 else F64.toI32 (lm.ln m)) + 8))

/-- src/var.rs:1619-1760 `power_int`. `exp` is the value of an `i32`. -/
def powerInt [Build] (lm : Libm) (self : Var) (exp rscale : Int) : M (Option Var) := do
  dassert (self.sign ≠ .nan)
  if exp = 0 then pure (some { one with dscale := rscale })
  else if exp = 1 then do
    let r ← roundCommon self rscale
    pure (some r)
  else if exp = -1 then do
    let q ← divCommon one self rscale true
    let q ← expect DIVIDE_BY_ZERO_MSG q
    pure (some q)
  else if exp = 2 then do
    let r ← mulCommon self self rscale
    pure (some r)
  else
    match self.digits with
    | [] =>
      if exp < 0 then throw (.panic DIVIDE_BY_ZERO_MSG)
      else do
        let z ← zeroScaled rscale
        pure (some z)
    | d :: ds => do
      fits [self.weight * DEC_DIGITS, -rscale]
      let f := powLog lm d ds self.weight exp
      if f > 393204 then pure none
      else if F64.add f 1 < ((-rscale : Int) : ℚ) ∨ F64.add f 1 < ((-NUMERIC_MAX_DISPLAY_SCALE : Int) : ℚ) then do
        let z ← zeroScaled rscale
        pure (some z)
      else do
        let m ← i32 |exp|
        let sig ← powSig lm f rscale m
        match ← powLoop sig 32 m (exp < 0) self (if m % 2 ≠ 0 then self else one) with
        | none => pure none
        | some (r, true) => do
          let q ← divFastCommon one r rscale true
          let q ← expect DIVIDE_BY_ZERO_MSG q
          pure (some q)
        | some (r, false) => do
          let r ← roundCommon r rscale
          pure (some r)

/-! ## Logarithms -/

/-- The range-reduction loops of `ln_common` (src/var.rs:1779-1790); `again` is the loop condition. -/
def lnReduce [Build] (again : Var → Bool) (rscale : Int) (sqrtFuel : Nat) : Nat → Var → Var → M (Var × Var)
  | 0, _, _ => throw .diverge
  | fuel + 1, x, fact =>
    if again x then do
      fits [x.weight * DEC_DIGITS, rscale - (x.weight * DEC_DIGITS).tdiv 2, rscale - (x.weight * DEC_DIGITS).tdiv 2 + 8]
      let l := max (rscale - (x.weight * DEC_DIGITS).tdiv 2 + 8) NUMERIC_MIN_DISPLAY_SCALE
      let x ← sqrtCommon sqrtFuel x l
      let fact ← mulCommon fact two 0
      lnReduce again rscale sqrtFuel fuel x fact
    else pure (x, fact)

/-- The series loop of `ln_common` (src/var.rs:1812-1827). -/
def lnSeries [Build] (x : Var) (l : Int) : Nat → Var → Var → Var → M Var
  | 0, _, _, _ => throw .diverge
  | fuel + 1, ni, xx, result => do
    let ni ← addCommon ni two
    let xx ← mulCommon xx x l
    let e ← divFastCommon xx ni l true
    let e ← expect DIVIDE_BY_ZERO_MSG e
    if e.ndigits = 0 then pure result
    else
      let result ← addCommon result e
      fits [l * 2, result.weight - l * 2 / DEC_DIGITS]
      if e.weight < result.weight - l * 2 / DEC_DIGITS then pure result
      else lnSeries x l fuel ni xx result

/-- src/var.rs:1764-1832 `ln_common`. -/
def lnCommon [Build] (fuel : Nat) (self : Var) (rscale : Int) : M Var := do
  dassert (self.sign ≠ .nan)
  dassert (cmpCommon self zero > 0)
  let (x, fact) ← lnReduce (fun x => cmpCommon x zeroPointNine ≤ 0) rscale fuel fuel self two
  let (x, fact) ← lnReduce (fun x => cmpCommon x onePointOne ≥ 0) rscale fuel fuel x fact
  fits [rscale + 8]
  let l := rscale + 8
  let num ← subCommon x one
  let den ← addCommon x one
  let z ← divFastCommon num den l true
  let z ← expect DIVIDE_BY_ZERO_MSG z
  let zz ← mulCommon z z l
  let sum ← lnSeries zz l fuel one z z
  mulCommon sum fact rscale

/-- src/var.rs:1840-1880 `estimate_ln_dweight`. -/
def estimateLnDweight [Build] (lm : Libm) (self : Var) : M Int := do
  dassert (self.sign ≠ .nan)
  if cmpCommon self zeroPointNine ≥ 0 ∧ cmpCommon self onePointOne ≤ 0 then do
    let x ← subCommon self one
    match x.digits with
    | [] => pure 0
    | d :: _ => do
      fits [x.weight * DEC_DIGITS]
      i32 (x.weight * DEC_DIGITS + F64.toI32 (lm.log10 d))
  else do
    fits [self.weight * DEC_DIGITS, self.weight * DEC_DIGITS - DEC_DIGITS]
    match self.digits with
    | [] => pure 0
    | [d] => pure (F64.toI32 (lm.log10 |F64.add (lm.ln d) (F64.mul ((self.weight * DEC_DIGITS : Int) : ℚ) F64.LN_10)|))
    | d :: d2 :: _ =>
      pure (F64.toI32 (lm.log10 |F64.add (lm.ln ((d * NBASE + d2 : Int) : ℚ))
        (F64.mul ((self.weight * DEC_DIGITS - DEC_DIGITS : Int) : ℚ) F64.LN_10)|))

/-- src/var.rs:1888-1922 `log_common`. -/
def logCommon [Build] (lm : Libm) (fuel : Nat) (self base : Var) : M Var := do
  dassert (self.sign ≠ .nan)
  dassert (base.sign ≠ .nan)
  dassert (cmpCommon self zero > 0)
  let bw ← estimateLnDweight lm base
  let nw ← estimateLnDweight lm self
  let rw ← i32 (nw - bw)
  let rscale := min (max (max (max (NUMERIC_MIN_SIG_DIGITS - rw) base.dscale) self.dscale) NUMERIC_MIN_DISPLAY_SCALE)
    NUMERIC_MAX_DISPLAY_SCALE
  fits [NUMERIC_MIN_SIG_DIGITS - rw, rscale + rw, rscale + rw - bw, rscale + rw - bw + 8, rscale + rw - nw,
    rscale + rw - nw + 8]
  let lnBase ← lnCommon fuel base (max (rscale + rw - bw + 8) NUMERIC_MIN_DISPLAY_SCALE)
  let lnNum ← lnCommon fuel self (max (rscale + rw - nw + 8) NUMERIC_MIN_DISPLAY_SCALE)
  let q ← divFastCommon lnNum lnBase rscale true
  expect DIVIDE_BY_ZERO_MSG q

/-- src/var.rs:2496-2512 `ln`. `assert_ne!` and `assert!` are active in every build. -/
def ln [Build] (lm : Libm) (fuel : Nat) (self : Var) : M Var := do
  dassert (self.sign ≠ .nan)
  if cmpCommon self zero = 0 then throw (.panic "cannot take logarithm of zero")
  else if ¬ cmpCommon self zero > 0 then throw (.panic "cannot take logarithm of a negative number")
  else
    let w ← estimateLnDweight lm self
    fits [NUMERIC_MIN_SIG_DIGITS - w]
    lnCommon fuel self (min (max (max (NUMERIC_MIN_SIG_DIGITS - w) self.dscale) NUMERIC_MIN_DISPLAY_SCALE)
      NUMERIC_MAX_DISPLAY_SCALE)

/-- src/var.rs:2519-2534 `log`. -/
def log [Build] (lm : Libm) (fuel : Nat) (self base : Var) : M Var := do
  dassert (self.sign ≠ .nan)
  dassert (base.sign ≠ .nan)
  if cmpCommon self zero = 0 then throw (.panic "cannot take logarithm of zero")
  else if ¬ cmpCommon self zero > 0 then throw (.panic "cannot take logarithm of a negative number")
  else if cmpCommon base zero = 0 then throw (.panic "cannot take logarithm of zero")
  else if ¬ cmpCommon base zero > 0 then throw (.panic "cannot take logarithm of a negative number")
  else logCommon lm fuel self base

/-! ## Exponential -/

/-- The halving loop of `exp_common` (src/var.rs:1949-1959): `(ndiv2, 2^ndiv2)`. -/
def expHalve [Build] : Nat → ℚ → Int → Var → M (Int × Var)
  | 0, _, _, _ => throw .diverge
  | fuel + 1, val, n, tmp =>
    if |val| > F64.CENT then do
      let tmp ← addCommon tmp tmp
      expHalve fuel (F64.div val 2) (n + 1) tmp
    else pure (n, tmp)

/-- The series loop (src/var.rs:1991-1999). -/
def expSeries [Build] (x : Var) (l : Int) : Nat → Var → Var → Var → M Var
  | 0, _, _, _ => throw .diverge
  | fuel + 1, ni, elem, result =>
    if elem.ndigits = 0 then pure result
    else do
      let result ← addCommon result elem
      let elem ← mulCommon elem x l
      let ni ← addCommon ni one
      let e ← divFastCommon elem ni l true
      let e ← expect DIVIDE_BY_ZERO_MSG e
      expSeries x l fuel ni e result

/-- The squarings (src/var.rs:2004-2008). -/
def expSquare [Build] (sig : Int) : Nat → Var → M Var
  | 0, r => pure r
  | k + 1, r => do
    fits [r.weight * 2, r.weight * 2 * DEC_DIGITS, sig - r.weight * 2 * DEC_DIGITS]
    let r ← mulCommon r r (max (sig - r.weight * 2 * DEC_DIGITS) NUMERIC_MIN_DISPLAY_SCALE)
    expSquare sig k r

/-- The range reduction of `exp_common` (src/var.rs:1949-1966): the number of halvings and the reduced argument. -/
def expReduce [Build] (fuel : Nat) (self : Var) (val : ℚ) : M (Int × Var) :=
  if |val| > F64.CENT then do
    let (n, tmp) ← expHalve fuel (F64.div val 2) 1 two
    fits [self.dscale + n]
    let x ← divFastCommon self tmp (self.dscale + n) true
    let x ← expect DIVIDE_BY_ZERO_MSG x
    pure (n, x)
  else pure (0, self)

/-- src/var.rs:1927-2012 `exp_common`. -/
def expCommon [Build] (lm : Libm) (fuel : Nat) (self : Var) (rscale : Int) : M (Option Var) := do
  dassert (self.sign ≠ .nan)
  let val ← lm.toF64 self
  if |val| ≥ 6000 then pure none
  else do
    let dweight := F64.toI32 (F64.mul val F64.LOG10_E)
    let (n, x) ← expReduce fuel self val
    fits [1 + dweight, 1 + dweight + rscale, 1 + dweight + rscale + F64.toI32 (F64.mul n F64.LOG10_2),
      max (1 + dweight + rscale + F64.toI32 (F64.mul n F64.LOG10_2)) 0 + 8]
    let sig := max (1 + dweight + rscale + F64.toI32 (F64.mul n F64.LOG10_2)) 0 + 8
    let l := sig - 1
    let r ← addCommon one x
    let e ← mulCommon x x l
    let e ← divFastCommon e two l true
    let e ← expect DIVIDE_BY_ZERO_MSG e
    let r ← expSeries x l fuel two e r
    let r ← expSquare sig n.toNat r
    let r ← roundCommon r rscale
    pure (some r)

/-- src/var.rs:2559-2584 `exp`. -/
def exp [Build] (lm : Libm) (fuel : Nat) (self : Var) : M (Option Var) := do
  dassert (self.sign ≠ .nan)
  let val ← lm.toF64 self
  let val := min (max (F64.mul val F64.LOG10_E) (-2000)) 2000
  fits [NUMERIC_MIN_SIG_DIGITS - F64.toI32 val]
  expCommon lm fuel self (min (max (max (NUMERIC_MIN_SIG_DIGITS - F64.toI32 val) self.dscale) NUMERIC_MIN_DISPLAY_SCALE)
    NUMERIC_MAX_DISPLAY_SCALE)

/-! ## Powers -/

/-- The part of `power_common` for exponents that are not an `i32` (src/var.rs:2044-2097). -/
def powerReal [Build] (lm : Libm) (fuel : Nat) (self exp : Var) : M (Option Var) := do
  if cmpCommon self zero = 0 then do
    let z ← zeroScaled NUMERIC_MIN_SIG_DIGITS
    pure (some z)
  else do
    let w ← estimateLnDweight lm self
    fits [8 - w]
    let l := min (max (8 - w) NUMERIC_MIN_DISPLAY_SCALE) NUMERIC_MAX_DISPLAY_SCALE
    let lnBase ← lnCommon fuel self l
    let lnNum ← mulCommon lnBase exp l
    let val ← lm.toF64 lnNum
    if |val| > 6020 then pure none
    else do
      let v := F64.toI32 (F64.mul val F64.LOG10_E)
      let rscale := min (max (max (max (NUMERIC_MIN_SIG_DIGITS - v) self.dscale) exp.dscale) NUMERIC_MIN_DISPLAY_SCALE)
        NUMERIC_MAX_DISPLAY_SCALE
      fits [NUMERIC_MIN_SIG_DIGITS - v, rscale + v, rscale + v - w, rscale + v - w + 8]
      let l := max (rscale + v - w + 8) NUMERIC_MIN_DISPLAY_SCALE
      let lnBase ← lnCommon fuel self l
      let lnNum ← mulCommon lnBase exp l
      expCommon lm fuel lnNum rscale

/-- src/var.rs:2026-2098 `power_common`. -/
def powerCommon [Build] (lm : Libm) (fuel : Nat) (self exp : Var) : M (Option Var) := do
  dassert (self.sign ≠ .nan)
  dassert (exp.sign ≠ .nan)
  fits [exp.weight + 1]
  if exp.ndigits = 0 ∨ exp.ndigits ≤ exp.weight + 1 then do
    match ← Convert.intoSigned .i32 exp with
    | .ok k =>
      powerInt lm self k (min (max (max NUMERIC_MIN_SIG_DIGITS self.dscale) NUMERIC_MIN_DISPLAY_SCALE)
        NUMERIC_MAX_DISPLAY_SCALE)
    | .error _ => powerReal lm fuel self exp
  else powerReal lm fuel self exp

/-- src/var.rs:2595-2624 `pow`. -/
def pow [Build] (lm : Libm) (fuel : Nat) (self exp : Var) : M (Option Var) := do
  if self.sign = .nan then
    if exp.sign ≠ .nan ∧ cmpCommon exp zero = 0 then pure (some one) else pure (some nan)
  else if exp.sign = .nan then
    if cmpCommon self one = 0 then pure (some one) else pure (some nan)
  else if cmpCommon self zero = 0 ∧ cmpCommon exp zero < 0 then
    throw (.panic "zero raised to a negative power is undefined")
  else do
    let t ← truncCommon exp 0
    if cmpCommon self zero < 0 ∧ cmpCommon exp t ≠ 0 then
      throw (.panic "a negative number raised to a non-integer power yields a complex result")
    else powerCommon lm fuel self exp

/-! ## Scientific notation -/

/-- `{:<+03}` of an integer: the sign, then the magnitude with zeros to a total width of three. -/
def expText (e : Int) : Str := (if e < 0 then 45 else 43) :: Text.pad 2 e.natAbs

/-- The exponent of the number in normalised form (src/var.rs:2202-2217). -/
def sciExponent (lm : Libm) (self : Var) : Int :=
  match self.digits with
  | [] => 0
  | d :: _ => (self.weight + 1) * DEC_DIGITS - (DEC_DIGITS - F64.toI32 (lm.log10 d))

/-- src/var.rs:2187-2236 `write_sci`. `e` is the byte `e` or `E`. -/
def writeSci [Build] (lm : Libm) (self : Var) (rscale : Int) (e : Nat) : M Str := do
  if self.sign = .nan then pure (str "NaN")
  else
    fits [self.weight + 1, (self.weight + 1) * DEC_DIGITS, (self.weight + 1) * DEC_DIGITS - sciExponent lm self,
      sciExponent lm self, -sciExponent lm self]
    let rscale := if rscale < 0 then 0 else rscale
    let exponent := sciExponent lm self
    let denom ← powerInt lm ten exponent (if exponent < 0 then -exponent else 0)
    let denom ← expect "attempt to multiply with overflow" denom
    let q ← divCommon self denom rscale true
    let q ← expect DIVIDE_BY_ZERO_MSG q
    let s ← Text.write q
    pure (s ++ e :: expText exponent)

/-- `count_zeros` (src/var.rs:2246-2270): the numbers of decimal digits before and in the trailing zeros. The first
argument is the number of rounds left. -/
def countZeros : Nat → Int → Int → Int → Int × Int
  | 0, _, n, zero => (n, zero)
  | k + 1, val, n, zero =>
    let d := val % 10
    let val := val / 10
    let (n, zero) := if d = 0 ∧ n = 0 then (n, zero + 1) else (n + 1, zero)
    if val = 0 then (n, zero) else countZeros k val n zero

/-- src/var.rs:2239-2306 `select_sci_scale`. -/
def selectSciScale [Build] (self : Var) : M Int :=
  match self.digits.findIdx? (· ≠ 0) with
  | none => pure 0
  | some i => do
    let ri := self.digits.length - 1 - (self.digits.reverse.findIdx (· ≠ 0))
    let digit ← getM self.digits i
    let rdigit ← getM self.digits ri
    dassert (i ≤ ri)
    let (n, zero) := countZeros 4 digit 0 0
    if i = ri then pure (n - 1)
    else
      let (_, rzero) := countZeros 4 rdigit 0 0
      fits [((ri : Int) - i - 1), ((ri : Int) - i - 1) * DEC_DIGITS, n + zero + (DEC_DIGITS - rzero) + ((ri : Int) - i - 1) * DEC_DIGITS]
      pure (n + zero + (DEC_DIGITS - rzero) + ((ri : Int) - i - 1) * DEC_DIGITS - 1)

end Var

namespace Num
open Var

/-- src/num.rs:781-790 `ln`. -/
def ln [Build] (lm : Libm) (fuel : Nat) (a : Bin) : M Bin := do
  asBinary a
  if a.isNan then Num.nan
  else
    let x ← a.asVar
    let u ← Var.ln lm fuel x
    finishNoOverflow u

/-- src/num.rs:796-808 `log`. -/
def log [Build] (lm : Libm) (fuel : Nat) (a base : Bin) : M Bin := do
  asBinary a
  asBinary base
  if a.isNan ∨ base.isNan then Num.nan
  else
    let x ← a.asVar
    let y ← base.asVar
    let u ← Var.log lm fuel x y
    finishNoOverflow u

/-- src/num.rs:815-824 `log2`; src/var.rs:2541-2543. -/
def log2 [Build] (lm : Libm) (fuel : Nat) (a : Bin) : M Bin := do
  asBinary a
  if a.isNan then Num.nan
  else
    let x ← a.asVar
    let u ← Var.log lm fuel x two
    finishNoOverflow u

/-- src/num.rs:830-839 `log10`; src/var.rs:2550-2552. -/
def log10 [Build] (lm : Libm) (fuel : Nat) (a : Bin) : M Bin := do
  asBinary a
  if a.isNan then Num.nan
  else
    let x ← a.asVar
    let u ← Var.log lm fuel x ten
    finishNoOverflow u

/-- src/num.rs:845-853 `exp`. -/
def exp [Build] (lm : Libm) (fuel : Nat) (a : Bin) : M (Option Bin) := do
  asBinary a
  if a.isNan then do
    let n ← Num.nan
    pure (some n)
  else
    let x ← a.asVar
    match ← Var.exp lm fuel x with
    | none => pure none
    | some u => finish u

/-- src/num.rs:864-872 `pow`. -/
def pow [Build] (lm : Libm) (fuel : Nat) (a b : Bin) : M (Option Bin) := do
  let x ← a.asVar
  let y ← b.asVar
  match ← Var.pow lm fuel x y with
  | none => pure none
  | some u =>
    if u.sign = .nan then do
      let n ← Num.nan
      pure (some n)
    else finish u

/-- src/num.rs:244-256 `LowerExp` (`e = 101`) and `UpperExp` (`e = 69`). -/
def sci [Build] (lm : Libm) (e : Nat) (a : Bin) : M Str := do
  let x ← a.asVar
  let s ← selectSciScale x
  writeSci lm x s e

end Num
end PgNumeric
