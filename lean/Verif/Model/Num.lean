import Verif.Model.Binary
/-!
# The public API on numerics (src/num.rs, src/ops.rs)

A `Numeric` / `NumericBuf` is modelled by its bytes (`Bin`). The spare buffer space of an owned value is the
subject of `Model/Data.lean`.
-/
namespace PgNumeric
open Var

namespace Num

/-- src/num.rs:409-413 `as_binary`: the debug assertion that the length word matches the slice. -/
def asBinary [Build] (b : Bin) : M Unit := dassert (b.len = b.size)

/-- src/num.rs:57-59 `NumericBuf::nan`. -/
def nan [Build] : M Bin := Bin.intoBuf Var.nan
/-- src/num.rs:63-65 `NumericBuf::zero`. -/
def zero [Build] : M Bin := Bin.intoBuf Var.zero

/-- src/var.rs:2327-2339 `make_result`: range check, strip, conversion to bytes. -/
def finish [Build] (v : Var) : M (Option Bin) := do
  match ← makeResult v with
  | none => pure none
  | some u => do
    let b ← Bin.intoBuf u
    pure (some b)

/-- src/var.rs:2310-2322 `make_result_no_overflow`. -/
def finishNoOverflow [Build] (v : Var) : M Bin := do
  let u ← makeResultNoOverflow v
  Bin.intoBuf u

/-- src/num.rs:423 `is_nan`. -/
def isNan [Build] (a : Bin) : M Bool := do asBinary a; pure a.isNan
/-- src/num.rs:429 `is_negative`. -/
def isNegative [Build] (a : Bin) : M Bool := do asBinary a; pure a.isNegative
/-- src/num.rs:435 `is_positive`. -/
def isPositive [Build] (a : Bin) : M Bool := do asBinary a; pure a.isPositive
/-- src/num.rs:443-450 `scale`. -/
def scale [Build] (a : Bin) : M (Option Int) := do
  asBinary a
  pure (if a.isNan then none else some (a.dscale.toNat : Int))

/-- src/num.rs:454-464 `negate`. -/
def negate [Build] (a : Bin) : M Bin := do
  asBinary a
  if a.isNan then nan
  else
    let v ← a.asVar
    finishNoOverflow v.negate

/-- src/num.rs:472-480 `signum`. -/
def signum [Build] (a : Bin) : M Bin := do
  asBinary a
  if a.isNan then nan
  else
    let v ← a.asVar
    finishNoOverflow v.signum

/-- src/num.rs:487-499 `inc`. -/
def inc [Build] (a : Bin) : M Bin := do
  asBinary a
  if a.isNan then nan
  else
    let v ← a.asVar
    let r ← v.inc
    let o ← finish r
    expect VALUE_OVERFLOW_MSG o

/-- src/num.rs:504-516 `checked_add`. -/
def checkedAdd [Build] (a b : Bin) : M (Option Bin) := do
  asBinary a
  asBinary b
  if a.isNan || b.isNan then
    let n ← nan
    pure (some n)
  else
    let x ← a.asVar
    let y ← b.asVar
    let r ← addCommon x y
    finish r

/-- src/num.rs:521-533 `checked_sub`. -/
def checkedSub [Build] (a b : Bin) : M (Option Bin) := do
  asBinary a
  asBinary b
  if a.isNan || b.isNan then
    let n ← nan
    pure (some n)
  else
    let x ← a.asVar
    let y ← b.asVar
    let r ← subCommon x y
    finish r

/-- src/num.rs:538-554 `checked_mul`. -/
def checkedMul [Build] (a b : Bin) : M (Option Bin) := do
  asBinary a
  asBinary b
  if a.isNan || b.isNan then
    let n ← nan
    pure (some n)
  else
    let x ← a.asVar
    let y ← b.asVar
    let r ← mulCommon x y (x.dscale + y.dscale)
    finish r

/-- src/num.rs:563-583 `overflowing_div`. -/
def overflowingDiv [Build] (a b : Bin) : M (Bin × Bool) := do
  asBinary a
  asBinary b
  if a.isNan || b.isNan then
    let n ← nan
    pure (n, false)
  else
    let x ← a.asVar
    let y ← b.asVar
    let q ← x.checkedDiv y
    let r ← expect DIVIDE_BY_ZERO_MSG q
    match ← finish r with
    | some r => pure (r, false)
    | none =>
      let n ← nan
      pure (n, true)

/-- src/num.rs:587-601 `checked_div`. -/
def checkedDiv [Build] (a b : Bin) : M (Option Bin) := do
  asBinary a
  asBinary b
  if a.isNan || b.isNan then
    let n ← nan
    pure (some n)
  else
    let x ← a.asVar
    let y ← b.asVar
    match ← x.checkedDiv y with
    | none => pure none
    | some r => finish r

/-- src/num.rs:606-620 `checked_div_trunc`. -/
def checkedDivTrunc [Build] (a b : Bin) : M (Option Bin) := do
  asBinary a
  asBinary b
  if a.isNan || b.isNan then
    let n ← nan
    pure (some n)
  else
    let x ← a.asVar
    let y ← b.asVar
    match ← x.checkedDivTrunc y with
    | none => pure none
    | some r => finish r

/-- src/num.rs:629-648 `overflowing_rem`. -/
def overflowingRem [Build] (a b : Bin) : M (Bin × Bool) := do
  asBinary a
  asBinary b
  if a.isNan || b.isNan then
    let n ← nan
    pure (n, false)
  else
    let x ← a.asVar
    let y ← b.asVar
    let q ← x.modCommon y
    let r ← expect DIVIDE_BY_ZERO_MSG q
    match ← finish r with
    | some r => pure (r, false)
    | none =>
      let z ← zero
      pure (z, true)

/-- src/num.rs:652-665 `checked_rem`. -/
def checkedRem [Build] (a b : Bin) : M (Option Bin) := do
  asBinary a
  asBinary b
  if a.isNan || b.isNan then
    let n ← nan
    pure (some n)
  else
    let x ← a.asVar
    let y ← b.asVar
    match ← x.modCommon y with
    | none => pure none
    | some r => finish r

/-- src/num.rs:673-687 `round`. -/
def round [Build] (a : Bin) (scale : Int) : M Bin := do
  asBinary a
  if a.isNan then nan
  else
    let v ← a.asVar
    let r ← v.round scale
    let o ← finish r
    expect VALUE_OVERFLOW_MSG o

/-- src/num.rs:692-703 `trunc`. -/
def trunc [Build] (a : Bin) (scale : Int) : M Bin := do
  asBinary a
  if a.isNan then nan
  else
    let v ← a.asVar
    let r ← v.trunc scale
    finishNoOverflow r

/-- src/num.rs:709-721 `ceil` (with src/var.rs:2450 `ceil`). -/
def ceil [Build] (a : Bin) : M Bin := do
  asBinary a
  if a.isNan then nan
  else
    let v ← a.asVar
    let r ← ceilCommon v
    let o ← finish r
    expect VALUE_OVERFLOW_MSG o

/-- src/num.rs:727-739 `floor` (with src/var.rs:2456 `floor`). -/
def floor [Build] (a : Bin) : M Bin := do
  asBinary a
  if a.isNan then nan
  else
    let v ← a.asVar
    let r ← floorCommon v
    let o ← finish r
    expect VALUE_OVERFLOW_MSG o

/-- src/num.rs:742-752 `abs`. -/
def abs [Build] (a : Bin) : M Bin := do
  asBinary a
  if a.isNan then nan
  else
    let v ← a.asVar
    Bin.intoBuf v.abs

/-- src/num.rs:885-908 `cmp`. -/
def cmp [Build] (a b : Bin) : M Ordering := do
  asBinary a
  asBinary b
  if a.isNan then
    if b.isNan then pure .eq else pure .gt
  else if b.isNan then pure .lt
  else
    let x ← a.asVar
    let y ← b.asVar
    let c := cmpCommon x y
    pure (if c > 0 then .gt else if c < 0 then .lt else .eq)

/-- src/num.rs:968-975 `to_owned`. -/
def toOwned [Build] (a : Bin) : M Bin := do
  let v ← a.asVar
  if v.sign = .nan then nan else Bin.intoBuf v

/-- src/num.rs:216-218 `clone`. -/
def clone [Build] (a : Bin) : M Bin := do
  let v ← a.asVar
  Bin.intoBuf v

/-! ## Hashing -/

/-- The primitive writes a `Hasher` receives. A slice of `i16` writes its length and then its elements
(`impl Hash for [T]`). -/
inductive Write where
  | u8 (n : Int)
  | i8 (n : Int)
  | i32 (n : Int)
  | slice (ds : List Int)
  deriving DecidableEq, Repr

/-- src/num.rs:911-957 `hash`: the sequence of writes. -/
def hash [Build] (a : Bin) : M (List Write) := do
  let v ← a.asVar
  if v.sign = .nan then pure []
  else
    let start := (v.digits.takeWhile (· = 0)).length
    let weight ← i32 (v.weight - start)
    if v.ndigits = start then pure [.u8 0]
    else
      let stop := (v.digits.reverse.takeWhile (· = 0)).length
      dassert (start + stop < v.digits.length)
      let ds ← sliceM v.digits start (v.digits.length - stop - start)
      pure [.slice ds, .i32 weight, .i8 (if v.sign = .pos then 1 else -1)]

/-! ## Operators (src/ops.rs)

Every owned/borrowed combination delegates to the one on `&Numeric`, and the assigning operators store its
result, so one function per operator is modelled. -/

/-- src/ops.rs:24-105 `Add`, 107-131 `AddAssign`. -/
def opAdd [Build] (a b : Bin) : M Bin := do
  let r ← checkedAdd a b
  expect VALUE_OVERFLOW_MSG r

/-- src/ops.rs:133-240 `Sub`, `SubAssign`. -/
def opSub [Build] (a b : Bin) : M Bin := do
  let r ← checkedSub a b
  expect VALUE_OVERFLOW_MSG r

/-- src/ops.rs:242-350 `Mul`, `MulAssign`. -/
def opMul [Build] (a b : Bin) : M Bin := do
  let r ← checkedMul a b
  expect VALUE_OVERFLOW_MSG r

/-- src/ops.rs:352-480 `Div`, `DivAssign`. -/
def opDiv [Build] (a b : Bin) : M Bin := do
  let (r, overflow) ← overflowingDiv a b
  if overflow then throw (.panic VALUE_OVERFLOW_MSG) else pure r

/-- src/ops.rs:482-610 `Rem`, `RemAssign`. -/
def opRem [Build] (a b : Bin) : M Bin := do
  let (r, overflow) ← overflowingRem a b
  if overflow then throw (.panic VALUE_OVERFLOW_MSG) else pure r

/-- src/ops.rs:622-638 `Neg` (`-&self`; the owned form is `negate_mut`, see `Model/Data.lean`). -/
def opNeg [Build] (a : Bin) : M Bin := negate a

/-- src/ops.rs:640-645, 663-668 `PartialEq::eq`. -/
def eq [Build] (a b : Bin) : M Bool := do
  let c ← cmp a b
  pure (c == .eq)

/-- src/ops.rs:649-654, 672-677 `PartialOrd::partial_cmp`. -/
def partialCmp [Build] (a b : Bin) : M (Option Ordering) := do
  let c ← cmp a b
  pure (some c)

/-- The default `<` of `PartialOrd`. -/
def lt [Build] (a b : Bin) : M Bool := do
  let c ← partialCmp a b
  pure (c == some .lt)

/-- The default `<=` of `PartialOrd`. -/
def le [Build] (a b : Bin) : M Bool := do
  let c ← partialCmp a b
  pure (c == some .lt || c == some .eq)

end Num
end PgNumeric
