import Verif.Model.Basic
/-!
# `NumericVar`: arithmetic on digit strings (src/var.rs)

A `NumericVar` is modelled by its live digits `digits()` (src/var.rs:215), so `ndigits` is the length of the
list. Spare buffer space around the live digits is modelled separately (`Model/Data.lean`).
-/
namespace PgNumeric

/-- The sign word: `NUMERIC_POS`, `NUMERIC_NEG`, `NUMERIC_NAN` (src/binary.rs:64-68). -/
inductive Sign where
  | pos | neg | nan
  deriving DecidableEq, Repr

/-- src/var.rs:106-113 `NumericVar` (`ndigits` is `digits.length`). -/
structure Var where
  weight : Int
  dscale : Int
  sign : Sign
  digits : List Int
  deriving DecidableEq, Repr

namespace Var

/-- src/var.rs:182 -/
abbrev ndigits (v : Var) : Int := v.digits.length

/-- src/var.rs:131 `nan` -/
def nan : Var := ⟨0, 0, .nan, []⟩
/-- src/var.rs:177 `zero` -/
def zero : Var := ⟨0, 0, .pos, []⟩
/-- src/var.rs:59 `ONE` -/
def one : Var := ⟨0, 0, .pos, [1]⟩
/-- src/var.rs:61 `TWO` -/
def two : Var := ⟨0, 0, .pos, [2]⟩
/-- src/var.rs:63 `TEN` -/
def ten : Var := ⟨0, 0, .pos, [10]⟩
/-- src/var.rs:66 `ZERO_POINT_FIVE` -/
def zeroPointFive : Var := ⟨-1, 1, .pos, [5000]⟩
/-- src/var.rs:68 `ZERO_POINT_NINE` -/
def zeroPointNine : Var := ⟨-1, 1, .pos, [9000]⟩
/-- src/var.rs:70 `ONE_POINT_ONE` -/
def onePointOne : Var := ⟨0, 1, .pos, [1, 1000]⟩

/-- src/var.rs:137-140 `zero_scaled` (with its debug assertion). -/
def zeroScaled [Build] (scale : Int) : M Var := do
  dassert (scale ≥ 0 ∧ scale ≤ NUMERIC_DSCALE_MAX)
  pure ⟨0, scale, .pos, []⟩

/-! ## Rounding and truncation -/

/-- The carry loop of `round_common` (src/var.rs:300-314), right to left over the kept digits.
The loop runs only while `carry > 0`; the returned carry is what reaches the spare digit at `offset - 1`. -/
def carryUp [Build] : List Int → Int → M (List Int × Int)
  | [], c => pure ([], c)
  | d :: ds, c => do
    let (ds', c') ← carryUp ds c
    if c' > 0 then
      let s ← i32 (c' + d)
      if s ≥ NBASE then pure ((s - NBASE) :: ds', 1) else pure (s :: ds', 0)
    else pure (d :: ds', c')

/-- The rounding inside the last kept base-10000 digit (src/var.rs:280-293): returns the new digit and carry. -/
def roundDigit [Build] (digit pow10 : Int) : M (Int × Int) := do
  let extra := digit % pow10
  let digit := digit - extra
  if extra ≥ pow10 / 2 then
    let p ← i16 (pow10 + digit)
    if p ≥ NBASE then pure (p - NBASE, 1) else pure (p, 0)
  else pure (digit, 0)

/-- src/var.rs:240-329 `round_common`.
The spare digit at `offset - 1`, preset to 0, is represented by the carry returned by `carryUp`: when it is
positive the loop has stepped to index -1, stored `carry` there, and the digit is prepended (lines 316-322). -/
def roundCommon [Build] (v : Var) (rscale : Int) : M Var := do
  dassert (v.sign ≠ .nan)
  fits [v.weight + 1, (v.weight + 1) * DEC_DIGITS, (v.weight + 1) * DEC_DIGITS + rscale,
    (v.weight + 1) * DEC_DIGITS + rscale + DEC_DIGITS]
  let di := (v.weight + 1) * DEC_DIGITS + rscale
  if di < 0 then
    pure ⟨0, rscale, .pos, []⟩
  else
    let nd := (di + DEC_DIGITS - 1) / DEC_DIGITS
    let di := di % DEC_DIGITS
    if nd < v.ndigits ∨ (nd = v.ndigits ∧ di > 0) then
      let (ds, carry) ←
        if di = 0 then do
          let d ← getM v.digits nd.toNat
          carryUp (v.digits.take nd.toNat) (if d ≥ HALF_NBASE then 1 else 0)
        else do
          let d ← getM v.digits (nd.toNat - 1)
          let (d', c) ← roundDigit d (roundPower di)
          let (ds, carry) ← carryUp (v.digits.take (nd.toNat - 1)) c
          pure (ds ++ [d'], carry)
      if carry > 0 then pure ⟨v.weight + 1, rscale, v.sign, carry :: ds⟩
      else pure ⟨v.weight, rscale, v.sign, ds⟩
    else pure { v with dscale := rscale }

/-- src/var.rs:336-370 `trunc_common`. -/
def truncCommon [Build] (v : Var) (rscale : Int) : M Var := do
  dassert (v.sign ≠ .nan)
  fits [v.weight + 1, (v.weight + 1) * DEC_DIGITS, (v.weight + 1) * DEC_DIGITS + rscale,
    (v.weight + 1) * DEC_DIGITS + rscale + DEC_DIGITS]
  let di := (v.weight + 1) * DEC_DIGITS + rscale
  if di ≤ 0 then
    pure ⟨0, rscale, .pos, []⟩
  else
    let nd := (di + DEC_DIGITS - 1) / DEC_DIGITS
    if nd ≤ v.ndigits then
      let di := di % DEC_DIGITS
      if di > 0 then
        let d ← getM v.digits (nd.toNat - 1)
        let extra := d % roundPower di
        pure ⟨v.weight, rscale, v.sign, v.digits.take (nd.toNat - 1) ++ [d - extra]⟩
      else pure ⟨v.weight, rscale, v.sign, v.digits.take nd.toNat⟩
    else pure { v with dscale := rscale }

/-! ## Stripping -/

/-- Leading zero loop of `strip` (src/var.rs:413-417). -/
def stripLead : List Int → Int → List Int × Int
  | [], w => ([], w)
  | d :: ds, w => if d = 0 then stripLead ds (w - 1) else (d :: ds, w)

/-- Trailing zero loop of `strip` (src/var.rs:420-422). -/
def stripTrail : List Int → List Int
  | [] => []
  | d :: ds =>
    match stripTrail ds with
    | [] => if d = 0 then [] else [d]
    | ds' => d :: ds'

/-- src/var.rs:405-432 `strip`. -/
def strip (v : Var) : Var :=
  let (ds, w) := stripLead v.digits v.weight
  let ds := stripTrail ds
  if ds = [] then ⟨0, v.dscale, .pos, []⟩ else ⟨w, v.dscale, v.sign, ds⟩

/-- `strip` with its arithmetic `self.weight -= 1`, once for each leading zero (src/var.rs:415). -/
def stripM (v : Var) : M Var := do
  fits [(stripLead v.digits v.weight).2]
  pure (strip v)

/-! ## Addition, subtraction, comparison of absolute values -/

/-- `if i >= 0 && i < ndigits { digits[i] }`, adding nothing otherwise (src/var.rs:474-479). -/
def digitAt (ds : List Int) (i : Int) : Int :=
  if 0 ≤ i ∧ i < ds.length then ds.getD i.toNat 0 else 0

/-- The loop of `add_abs` (src/var.rs:470-489): `n` positions remain, results are consed because the loop
writes indices `res_ndigits-1, …, 0` in this order. -/
def addLoop [Build] (d1 d2 : List Int) : Nat → Int → Int → Int → List Int → M (List Int × Int)
  | 0, _, _, carry, acc => pure (acc, carry)
  | n + 1, i1, i2, carry, acc => do
    let i1 := i1 - 1
    let i2 := i2 - 1
    let carry ← i16 (carry + digitAt d1 i1)
    let carry ← i16 (carry + digitAt d2 i2)
    if carry ≥ NBASE then addLoop d1 d2 n i1 i2 1 ((carry - NBASE) :: acc)
    else addLoop d1 d2 n i1 i2 0 (carry :: acc)

/-- src/var.rs:435-499 `add_abs` (the result's sign is `NUMERIC_POS` = 0 from `with_ndigits`). -/
def addAbs [Build] (a b : Var) : M Var := do
  dassert (a.sign ≠ .nan)
  dassert (b.sign ≠ .nan)
  let resWeight := max a.weight b.weight + 1
  let resDscale := max a.dscale b.dscale
  let resRscale := max (a.ndigits - a.weight - 1) (b.ndigits - b.weight - 1)
  fits [resWeight, a.ndigits - a.weight, a.ndigits - a.weight - 1, b.ndigits - b.weight, b.ndigits - b.weight - 1,
    resRscale + resWeight, resRscale + resWeight + 1, resRscale + a.weight, resRscale + a.weight + 1,
    resRscale + b.weight, resRscale + b.weight + 1, a.weight - resWeight, b.weight - resWeight]
  let n := resRscale + resWeight + 1
  let resN := if n > 0 then n else 1
  let (ds, carry) ← addLoop a.digits b.digits resN.toNat
    (resRscale + a.weight + 1) (resRscale + b.weight + 1) 0 []
  dassert (carry = 0)
  stripM ⟨resWeight, resDscale, .pos, ds⟩

/-- The loop of `sub_abs` (src/var.rs:542-561). -/
def subLoop [Build] (d1 d2 : List Int) : Nat → Int → Int → Int → List Int → M (List Int × Int)
  | 0, _, _, borrow, acc => pure (acc, borrow)
  | n + 1, i1, i2, borrow, acc => do
    let i1 := i1 - 1
    let i2 := i2 - 1
    let borrow ← i16 (borrow + digitAt d1 i1)
    let borrow ← i16 (borrow - digitAt d2 i2)
    if borrow < 0 then subLoop d1 d2 n i1 i2 (-1) ((borrow + NBASE) :: acc)
    else subLoop d1 d2 n i1 i2 0 (borrow :: acc)

/-- src/var.rs:507-571 `sub_abs`. -/
def subAbs [Build] (a b : Var) : M Var := do
  dassert (a.sign ≠ .nan)
  dassert (b.sign ≠ .nan)
  let resWeight := a.weight
  let resDscale := max a.dscale b.dscale
  let resRscale := max (a.ndigits - a.weight - 1) (b.ndigits - b.weight - 1)
  fits [resWeight, a.ndigits - a.weight, a.ndigits - a.weight - 1, b.ndigits - b.weight, b.ndigits - b.weight - 1,
    resRscale + resWeight, resRscale + resWeight + 1, resRscale + a.weight, resRscale + a.weight + 1,
    resRscale + b.weight, resRscale + b.weight + 1, a.weight - resWeight, b.weight - resWeight]
  let n := resRscale + resWeight + 1
  let resN := if n ≤ 0 then 1 else n
  let (ds, borrow) ← subLoop a.digits b.digits resN.toNat
    (resRscale + a.weight + 1) (resRscale + b.weight + 1) 0 []
  dassert (borrow = 0)
  stripM ⟨resWeight, resDscale, .pos, ds⟩

/-- The two leading loops of `cmp_abs` (src/var.rs:597-612): skip zero digits above weight `w'`;
`none` if a non-zero digit is met. Indices are represented by list suffixes. -/
def cmpLead : List Int → Int → Int → Option (List Int × Int)
  | [], w, _ => some ([], w)
  | d :: ds, w, w' =>
    if w > w' then (if d ≠ 0 then none else cmpLead ds (w - 1) w') else some (d :: ds, w)

/-- The last two loops of `cmp_abs` (src/var.rs:633-648). -/
def cmpRest (d1 d2 : List Int) : Int :=
  if d1.any (· ≠ 0) then 1 else if d2.any (· ≠ 0) then -1 else 0

/-- The common-digit loop of `cmp_abs` (src/var.rs:617-630) followed by the remaining loops. -/
def cmpDigits : List Int → List Int → Int
  | d1 :: ds1, d2 :: ds2 =>
    let stat := d1 - d2
    if stat ≠ 0 then (if stat > 0 then 1 else -1) else cmpDigits ds1 ds2
  | ds1, ds2 => cmpRest ds1 ds2

/-- src/var.rs:580-649 `cmp_abs`. The i16 difference of two digits in `0..9999` cannot overflow. -/
def cmpAbs (a b : Var) : Int :=
  match cmpLead a.digits a.weight b.weight with
  | none => 1
  | some (ds1, w1) =>
    match cmpLead b.digits b.weight w1 with
    | none => -1
    | some (ds2, w2) => if w1 = w2 then cmpDigits ds1 ds2 else cmpRest ds1 ds2

/-- src/var.rs:1537-1566 `cmp_common` (never called on NaN). -/
def cmpCommon (a b : Var) : Int :=
  if a.ndigits = 0 then
    if b.ndigits = 0 then 0 else if b.sign = .neg then 1 else -1
  else if b.ndigits = 0 then
    if a.sign = .pos then 1 else -1
  else if a.sign = .pos then
    if b.sign = .neg then 1 else cmpAbs a b
  else if b.sign = .pos then -1
  else cmpAbs b a

/-- src/var.rs:652-722 `add_common`. -/
def addCommon [Build] (a b : Var) : M Var := do
  dassert (a.sign ≠ .nan)
  dassert (b.sign ≠ .nan)
  if a.sign = .pos then
    if b.sign = .pos then
      let r ← addAbs a b
      pure { r with sign := .pos }
    else
      let c := cmpAbs a b
      if c = 0 then zeroScaled (max a.dscale b.dscale)
      else if c = 1 then do
        let r ← subAbs a b
        pure { r with sign := .pos }
      else if c = -1 then do
        let r ← subAbs b a
        pure { r with sign := .neg }
      else throw (.panic "invalid comparison result")
  else if b.sign = .pos then
    let c := cmpAbs a b
    if c = 0 then zeroScaled (max a.dscale b.dscale)
    else if c = 1 then do
      let r ← subAbs a b
      pure { r with sign := .neg }
    else if c = -1 then do
      let r ← subAbs b a
      pure { r with sign := .pos }
    else throw (.panic "invalid comparison result")
  else
    let r ← addAbs a b
    pure { r with sign := .neg }

/-- src/var.rs:725-797 `sub_common`. -/
def subCommon [Build] (a b : Var) : M Var := do
  dassert (a.sign ≠ .nan)
  dassert (b.sign ≠ .nan)
  if a.sign = .pos then
    if b.sign = .neg then
      let r ← addAbs a b
      pure { r with sign := .pos }
    else
      let c := cmpAbs a b
      if c = 0 then zeroScaled (max a.dscale b.dscale)
      else if c = 1 then do
        let r ← subAbs a b
        pure { r with sign := .pos }
      else if c = -1 then do
        let r ← subAbs b a
        pure { r with sign := .neg }
      else throw (.panic "invalid comparison result")
  else if b.sign = .neg then
    let c := cmpAbs a b
    if c = 0 then zeroScaled (max a.dscale b.dscale)
    else if c = 1 then do
      let r ← subAbs a b
      pure { r with sign := .neg }
    else if c = -1 then do
      let r ← subAbs b a
      pure { r with sign := .pos }
    else throw (.panic "invalid comparison result")
  else
    let r ← addAbs a b
    pure { r with sign := .neg }

/-! ## Multiplication -/

/-- One carry propagation pass over the accumulator, right to left; used both for the periodic
normalisation (src/var.rs:883-894) and for the final pass storing the result (src/var.rs:923-933).
The cast to i16 on storing keeps the value, which is below NBASE. -/
def mulCarryPass [Build] : List Int → M (List Int × Int)
  | [] => pure ([], 0)
  | d :: ds => do
    let (ds', carry) ← mulCarryPass ds
    let nd ← i32 (d + carry)
    if nd ≥ NBASE then pure ((nd - nd / NBASE * NBASE) :: ds', nd / NBASE)
    else pure (nd :: ds', 0)

/-- The inner loop of `mul_common` (src/var.rs:906-912): `k` values of `i2` remain (`i2 = k-1, …, 0`) and
the accumulator index is `i1 + i2 + 2`. -/
def mulRow [Build] (v2 : List Int) (d1 : Int) (i1 : Nat) : Nat → List Int → M (List Int)
  | 0, dig => pure dig
  | k + 1, dig => do
    let x ← getM v2 k
    let old ← getM dig (i1 + k + 2)
    let p ← i32 (d1 * x)
    let s ← i32 (old + p)
    let dig ← setM dig (i1 + k + 2) s
    mulRow v2 d1 i1 k dig

/-- The normalisation threshold `(i32::MAX - i32::MAX / NBASE) / (NBASE - 1)` (src/var.rs:879). -/
def mulMaxDig : Int := (2147483647 - 2147483647 / NBASE) / (NBASE - 1)

/-- Carry propagation when the entries might overflow (src/var.rs:879-898); returns the accumulator and
the new `maxdig`. -/
def mulNormalize [Build] (dig : List Int) (maxDig d1 : Int) : M (List Int × Int) :=
  if maxDig > mulMaxDig then do
    let (dig', carry) ← mulCarryPass dig
    dassert (carry = 0)
    pure (dig', 1 + d1)
  else pure (dig, maxDig)

/-- The outer loop of `mul_common` (src/var.rs:870-914): `k` values of `i1` remain (`i1 = k-1, …, 0`). -/
def mulOuter [Build] (v1 v2 : List Int) (resN : Int) : Nat → List Int → Int → M (List Int)
  | 0, dig, _ => pure dig
  | k + 1, dig, maxDig => do
    let d1 ← getM v1 k
    if d1 = 0 then mulOuter v1 v2 resN k dig maxDig
    else
      let maxDig ← i32 (maxDig + d1)
      let (dig, maxDig) ← mulNormalize dig maxDig d1
      let bound := min ((v2.length : Int) - 1) (resN - k - 3)
      let dig ← mulRow v2 d1 k (bound + 1).toNat dig
      mulOuter v1 v2 resN k dig maxDig

/-- src/var.rs:802-955 `mul_common`.
Simplification: the accumulator is given exactly `res_ndigits` entries (the code over-allocates four times as
many, line 858), so the model faults on accesses the code would tolerate. -/
def mulCommon [Build] (self other : Var) (rscale : Int) : M Var := do
  dassert (self.sign ≠ .nan)
  dassert (other.sign ≠ .nan)
  let v1 := if self.ndigits > other.ndigits then other else self
  let v2 := if self.ndigits > other.ndigits then self else other
  if v1.ndigits = 0 ∨ v2.ndigits = 0 then zeroScaled rscale
  else
    let resSign := if v1.sign = v2.sign then Sign.pos else Sign.neg
    let resWeight := v1.weight + v2.weight + 2
    fits [v1.weight + v2.weight, resWeight, v1.ndigits + v2.ndigits, v1.ndigits + v2.ndigits + 1, resWeight + 1,
      rscale + DEC_DIGITS, rscale + DEC_DIGITS - 1, resWeight + 1 + (rscale + DEC_DIGITS - 1) / DEC_DIGITS,
      resWeight + 1 + (rscale + DEC_DIGITS - 1) / DEC_DIGITS + MUL_GUARD_DIGITS]
    let resN := min (v1.ndigits + v2.ndigits + 1)
      (resWeight + 1 + (rscale + DEC_DIGITS - 1) / DEC_DIGITS + MUL_GUARD_DIGITS)
    if resN < 3 then zeroScaled rscale
    else
      let bound := min (v1.ndigits - 1) (resN - 3)
      let dig ← mulOuter v1.digits v2.digits resN (bound + 1).toNat (List.replicate resN.toNat 0) 0
      let (ds, carry) ← mulCarryPass dig
      dassert (carry = 0)
      let r ← roundCommon ⟨resWeight, 0, resSign, ds⟩ rscale
      stripM r

/-! ## Division -/

/-- First non-zero digit and its weight, `(0, 0)` if there is none (src/var.rs:970-980). -/
def firstDigit : List Int → Int → Int × Int
  | [], _ => (0, 0)
  | d :: ds, w => if d ≠ 0 then (d, w) else firstDigit ds (w - 1)

/-- src/var.rs:960-1007 `select_div_scale`. -/
def selectDivScale (a b : Var) : Int :=
  let (fd1, w1) := firstDigit a.digits a.weight
  let (fd2, w2) := firstDigit b.digits b.weight
  let qweight := if fd1 ≤ fd2 then w1 - w2 - 1 else w1 - w2
  min (max (max (max (NUMERIC_MIN_SIG_DIGITS - qweight * DEC_DIGITS) a.dscale) b.dscale)
    NUMERIC_MIN_DISPLAY_SCALE) NUMERIC_MAX_DISPLAY_SCALE

/-- The arithmetic of `select_div_scale` (src/var.rs:974, 985, 993-1003): the weights of the first digits are between
`weight - ndigits` and `weight`. -/
def divScaleFits (a b : Var) : M Unit :=
  let (fd1, w1) := firstDigit a.digits a.weight
  let (fd2, w2) := firstDigit b.digits b.weight
  let qweight := if fd1 ≤ fd2 then w1 - w2 - 1 else w1 - w2
  fits [w1, w2, w1 - w2, w1 - w2 - 1, qweight * DEC_DIGITS, NUMERIC_MIN_SIG_DIGITS - qweight * DEC_DIGITS]

/-- Single-digit divisor loop (src/var.rs:1088-1093): `n` quotient digits remain, at index `i`. -/
def divSingle [Build] (dividend : List Int) (divisor1 : Int) : Nat → Nat → Int → M (List Int)
  | 0, _, _ => pure []
  | n + 1, i, carry => do
    let x ← getM dividend (i + 1)
    let p ← i32 (carry * NBASE)
    let c ← i32 (p + x)
    let rest ← divSingle dividend divisor1 n (i + 1) (c % divisor1)
    pure ((c / divisor1) :: rest)

/-- Multiply a digit string by the normalisation factor `d`, right to left (src/var.rs:1105-1121). -/
def scaleUp [Build] (d : Int) : List Int → M (List Int × Int)
  | [] => pure ([], 0)
  | x :: xs => do
    let (xs', carry) ← scaleUp d xs
    let p ← i32 (x * d)
    let c ← i32 (carry + p)
    pure ((c % NBASE) :: xs', c / NBASE)

/-- The `while` loop correcting the quotient digit estimate (src/var.rs:1160-1165); `fuel` bounds the
number of decrements. -/
def adjustQhat [Build] (divisor1 divisor2 next2 third : Int) : Nat → Int → M Int
  | 0, _ => throw .diverge
  | fuel + 1, qhat => do
    let lhs ← i32 (divisor2 * qhat)
    let p ← i32 (qhat * divisor1)
    let s ← i32 (next2 - p)
    let m ← i32 (s * NBASE)
    let rhs ← i32 (m + third)
    if lhs > rhs then adjustQhat divisor1 divisor2 next2 third fuel (qhat - 1) else pure qhat

/-- Multiply-and-subtract over the window `dividend[j ..= j+n]` and `divisor[0 ..= n]`, right to left
(src/var.rs:1172-1186): returns the new window, the carry and the borrow. -/
def mulSub [Build] (qhat : Int) : List Int → List Int → M (List Int × Int × Int)
  | [], [] => pure ([], 0, 0)
  | w :: ws, v :: vs => do
    let (ws', carry, borrow) ← mulSub qhat ws vs
    let p ← i32 (v * qhat)
    let carry ← i32 (carry + p)
    let borrow ← i32 (borrow - carry % NBASE)
    let borrow ← i32 (borrow + w)
    if borrow < 0 then pure ((borrow + NBASE) :: ws', carry / NBASE, -1)
    else pure (borrow :: ws', carry / NBASE, 0)
  | _, _ => throw .oob

/-- Add the divisor back over the same window (src/var.rs:1198-1208). -/
def addBack [Build] : List Int → List Int → M (List Int × Int)
  | [], [] => pure ([], 0)
  | w :: ws, v :: vs => do
    let (ws', carry) ← addBack ws vs
    let carry ← i32 (carry + (w + v))
    if carry ≥ NBASE then pure ((carry - NBASE) :: ws', 1) else pure (carry :: ws', 0)
  | _, _ => throw .oob

/-- One iteration of the main loop of Knuth's algorithm D (src/var.rs:1133-1216): returns the quotient
digit and the updated dividend. `divisor` includes its leading 0 entry. -/
def knuthStep [Build] (divisor : List Int) (j : Nat) (dividend : List Int) : M (Int × List Int) := do
  let divisor1 ← getM divisor 1
  let divisor2 ← getM divisor 2
  let a ← getM dividend j
  let b ← getM dividend (j + 1)
  let p ← i32 (a * NBASE)
  let next2 ← i32 (p + b)
  if next2 = 0 then pure (0, dividend)
  else
    let qhat := if a = divisor1 then NBASE - 1 else next2 / divisor1
    let third ← getM dividend (j + 2)
    let qhat ← adjustQhat divisor1 divisor2 next2 third (qhat.toNat + 1) qhat
    if qhat > 0 then
      let win ← sliceM dividend j divisor.length
      let (win', carry, borrow) ← mulSub qhat win divisor
      dassert (carry = 0)
      if borrow ≠ 0 then
        let (win'', carry) ← addBack win' divisor
        dassert (carry = 1)
        pure (qhat - 1, dividend.take j ++ win'' ++ dividend.drop (j + divisor.length))
      else
        pure (qhat, dividend.take j ++ win' ++ dividend.drop (j + divisor.length))
    else pure (qhat, dividend)

/-- The main loop: `n` quotient digits remain, the next one is digit `j` (src/var.rs:1133-1217). -/
def knuthLoop [Build] (divisor : List Int) : Nat → Nat → List Int → M (List Int)
  | 0, _, _ => pure []
  | n + 1, j, dividend => do
    let (q, dividend) ← knuthStep divisor j dividend
    let rest ← knuthLoop divisor n (j + 1) dividend
    pure (q :: rest)

/-- The quotient digits of `div_common` (src/var.rs:1074-1218), from loaded work space to `res_digits`. -/
def divDigits [Build] (d1 d2 : List Int) (resN divN : Nat) : M (List Int) := do
  let dividend := 0 :: (d1 ++ List.replicate (divN - d1.length) 0)
  let divisor := 0 :: d2
  if d2.length = 1 then
    let divisor1 ← getM divisor 1
    divSingle dividend divisor1 resN 0 0
  else
    let first ← getM divisor 1
    if first < HALF_NBASE then
      let d := NBASE / (first + 1)
      let (dv, c) ← scaleUp d d2
      dassert (c = 0)
      let (dd, c) ← scaleUp d (dividend.take (d1.length + 1))
      dassert (c = 0)
      dassert (dv.headD 0 ≥ HALF_NBASE)
      knuthLoop (0 :: dv) resN 0 (dd ++ dividend.drop (d1.length + 1))
    else knuthLoop divisor resN 0 dividend

/-- src/var.rs:1016-1238 `div_common`; `none` on a zero divisor. `rscale ≥ 0` at every call. -/
def divCommon [Build] (self other : Var) (rscale : Int) (round : Bool) : M (Option Var) := do
  dassert (self.sign ≠ .nan)
  dassert (other.sign ≠ .nan)
  if other.ndigits = 0 ∨ other.digits.headD 0 = 0 then pure none
  else if self.ndigits = 0 then do
    let z ← zeroScaled rscale
    pure (some z)
  else
    let resSign := if self.sign = other.sign then Sign.pos else Sign.neg
    let resWeight := self.weight - other.weight
    fits [resWeight, resWeight + 1, rscale + DEC_DIGITS, rscale + DEC_DIGITS - 1,
      resWeight + 1 + (rscale + DEC_DIGITS - 1) / DEC_DIGITS, resWeight + 2 + (rscale + DEC_DIGITS - 1) / DEC_DIGITS,
      resWeight + 2 + (rscale + DEC_DIGITS - 1) / DEC_DIGITS + other.ndigits,
      resWeight + 2 + (rscale + DEC_DIGITS - 1) / DEC_DIGITS + 2 * other.ndigits + 2, other.ndigits * 2 + 4,
      self.ndigits + other.ndigits + 2]
    let n := max (resWeight + 1 + (rscale + DEC_DIGITS - 1) / DEC_DIGITS) 1
    let resN := if round then n + 1 else n
    let divN := max (resN + other.ndigits) self.ndigits
    let ds ← divDigits self.digits other.digits resN.toNat divN.toNat
    let r : Var := ⟨resWeight, 0, resSign, ds⟩
    let r ← if round then roundCommon r rscale else truncCommon r rscale
    let r ← stripM r
    pure (some r)

/-- src/var.rs:1520-1533 `mod_common`. -/
def modCommon [Build] (self other : Var) : M (Option Var) := do
  dassert (self.sign ≠ .nan)
  dassert (other.sign ≠ .nan)
  match ← divCommon self other 0 false with
  | none => pure none
  | some q =>
    let p ← mulCommon q other other.dscale
    let r ← subCommon self p
    pure (some r)

/-- src/var.rs:2385-2393 `checked_div`. -/
def checkedDiv [Build] (self other : Var) : M (Option Var) := do
  dassert (self.sign ≠ .nan)
  dassert (other.sign ≠ .nan)
  divScaleFits self other
  divCommon self other (selectDivScale self other) true

/-- src/var.rs:2399-2404 `checked_div_trunc`. -/
def checkedDivTrunc [Build] (self other : Var) : M (Option Var) := do
  dassert (self.sign ≠ .nan)
  dassert (other.sign ≠ .nan)
  divCommon self other 0 false

/-! ## Small operations -/

/-- src/var.rs:375-386 `ceil_common`. -/
def ceilCommon [Build] (v : Var) : M Var := do
  dassert (v.sign ≠ .nan)
  let r ← truncCommon v 0
  if v.sign = .pos ∧ cmpCommon v r ≠ 0 then addCommon r one else pure r

/-- src/var.rs:391-402 `floor_common`. -/
def floorCommon [Build] (v : Var) : M Var := do
  dassert (v.sign ≠ .nan)
  let r ← truncCommon v 0
  if v.sign = .neg ∧ cmpCommon v r ≠ 0 then subCommon r one else pure r

/-- src/var.rs:2343-2353 `negate`. -/
def negate (v : Var) : Var :=
  if v.ndigits > 0 then
    match v.sign with
    | .pos => { v with sign := .neg }
    | .neg => { v with sign := .pos }
    | .nan => v
  else v

/-- src/var.rs:2361-2371 `signum`. -/
def signum (v : Var) : Var :=
  if v.ndigits = 0 then zero else { one with sign := v.sign }

/-- src/var.rs:2375-2380 `inc`. -/
def inc [Build] (v : Var) : M Var := do
  dassert (v.sign ≠ .nan)
  addCommon v one

/-- src/var.rs:2462-2468 `abs`. -/
def abs (v : Var) : Var := if v.sign = .neg then { v with sign := .pos } else v

/-- The scale limiting of `round` and `trunc` (src/var.rs:2414-2416, 2434-2436). -/
def clampScale (scale : Int) : Int :=
  min (max scale (-NUMERIC_MAX_DISPLAY_SCALE)) NUMERIC_MAX_DISPLAY_SCALE

/-- src/var.rs:2410-2424 `round`. -/
def round [Build] (v : Var) (scale : Int) : M Var := do
  dassert (v.sign ≠ .nan)
  let rscale := clampScale scale
  let r ← roundCommon v rscale
  pure (if rscale < 0 then { r with dscale := 0 } else r)

/-- src/var.rs:2430-2444 `trunc`. -/
def trunc [Build] (v : Var) (scale : Int) : M Var := do
  dassert (v.sign ≠ .nan)
  let rscale := clampScale scale
  let r ← truncCommon v rscale
  pure (if rscale < 0 then { r with dscale := 0 } else r)

/-- The range test of `make_result` (src/var.rs:2327-2337) followed by `strip`; the conversion to bytes is
`Bin.encode`. The debug assertion of `make_result_no_overflow` (lines 2312-2317) is a disjunction that is
true of every value and is omitted. -/
def makeResult [Build] (v : Var) : M (Option Var) := do
  dassert (v.sign ≠ .nan)
  dassert (v.dscale ≥ 0)
  if v.weight > NUMERIC_WEIGHT_MAX ∨ v.weight < NUMERIC_WEIGHT_MIN ∨ v.dscale > NUMERIC_DSCALE_MAX then
    pure none
  else do
    let r ← stripM v
    pure (some r)

/-- src/var.rs:2310-2322 `make_result_no_overflow`, up to the conversion to bytes. -/
def makeResultNoOverflow [Build] (v : Var) : M Var := do
  dassert (v.sign ≠ .nan)
  stripM v

end Var
end PgNumeric
