import Verif.Model.Untrusted
/-!
# Borrowed numbers: `&Numeric` over bytes that somebody else owns

`Deserialize for &Numeric` (src/num.rs:1033-1070) hands out the bytes themselves, without a copy and without looking at them. Every method then reads the
bytes in place. The rest of the model views a number as words (`Bin`); here each method reads bytes.
-/
namespace PgNumeric.Borrowed
open Untrusted

/-- src/num.rs:1033-1070 `Deserialize for &Numeric`: text is refused, bytes are borrowed as they are. -/
def deserializeRef : Str ⊕ List (BitVec 8) → Option (List (BitVec 8))
  | .inl _ => none
  | .inr bs => some bs

/-- src/num.rs:402-404 `as_bytes`. -/
def asBytes (bs : List (BitVec 8)) : List (BitVec 8) := bs

/-- src/num.rs:407-413 `as_binary`: the debug assertion loads the length word; a release build loads nothing. -/
def asBinary [Build] (bs : List (BitVec 8)) : M Unit :=
  if Build.debug then do
    let vl ← load32 bs 0
    dassert ((Bin.decodeLen vl).toNat = bs.length)
  else pure ()

/-- The header, as a number without digits (the queries below look at the header only). -/
def header (bs : List (BitVec 8)) : M Bin := do
  let h ← load16 bs 4
  pure ⟨0#32, h, []⟩

/-- src/num.rs:423 `is_nan`. -/
def isNan [Build] (bs : List (BitVec 8)) : M Bool := do
  asBinary bs
  let h ← header bs
  pure h.isNan

/-- src/num.rs:429 `is_negative`. -/
def isNegative [Build] (bs : List (BitVec 8)) : M Bool := do
  asBinary bs
  let h ← header bs
  pure h.isNegative

/-- src/num.rs:435 `is_positive`. -/
def isPositive [Build] (bs : List (BitVec 8)) : M Bool := do
  asBinary bs
  let h ← header bs
  pure h.isPositive

/-- src/num.rs:443-450 `scale`. -/
def scale [Build] (bs : List (BitVec 8)) : M (Option Int) := do
  asBinary bs
  let h ← header bs
  pure (if h.isNan then none else some (h.dscale.toNat : Int))

/-- src/num.rs:454-464 `negate`. -/
def negate [Build] (bs : List (BitVec 8)) : M Bin := do
  asBinary bs
  let h ← header bs
  if h.isNan then Num.nan
  else
    let v ← asVar bs
    Num.finishNoOverflow v.negate

/-- src/num.rs:742-752 `abs`. -/
def abs [Build] (bs : List (BitVec 8)) : M Bin := do
  asBinary bs
  let h ← header bs
  if h.isNan then Num.nan
  else
    let v ← asVar bs
    Bin.intoBuf v.abs

/-- src/num.rs:885-908 `cmp`. -/
def cmp [Build] (bs cs : List (BitVec 8)) : M Ordering := do
  asBinary bs
  asBinary cs
  let h ← header bs
  let k ← header cs
  if h.isNan then
    if k.isNan then pure .eq else pure .gt
  else if k.isNan then pure .lt
  else
    let x ← asVar bs
    let y ← asVar cs
    let c ← cmpCommon x y
    pure (if c > 0 then .gt else if c < 0 then .lt else .eq)

/-- src/num.rs:911-957 `hash`: the sequence of writes. -/
def hash [Build] (bs : List (BitVec 8)) : M (List Num.Write) := do
  let v ← asVar bs
  if v.sign = .nan then pure []
  else
    let start := (v.digits.takeWhile (· = 0)).length
    let weight ← i32 (v.weight - start)
    if v.ndigits = start then pure [.u8 0]
    else
      let stop := (v.digits.reverse.takeWhile (· = 0)).length
      dassert (start + stop < v.digits.length)
      let ds ← sliceM v.digits start (v.digits.length - stop - start)
      pure [.slice ds, .i32 weight, .i8 (if v.sign = .pos then 1 else -1)]

/-- src/num.rs:984-989 `Display`. -/
def display [Build] (bs : List (BitVec 8)) : M Str := do
  let v ← asVar bs
  write v

end PgNumeric.Borrowed
