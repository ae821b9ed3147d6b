import Verif.Model.Typmod
/-!
# Owned buffers: `NumericData`, `NumericBuf` and the in-place operations
(src/data.rs, src/num.rs:30-210, src/var.rs:220-432)

An allocation is a list of 16-bit cells; a cell that was never written is `none`, and reading it is a fault, as is
any access outside the allocation. The allocation’s identity and its release are in `Model/Heap.lean`.
-/
namespace PgNumeric

/-- The cells of an allocation. `some x`: the cell holds the 16-bit pattern whose `i16` value is `x`. -/
abbrev Cells := List (Option Int)

/-- Read the cell at index `i`: outside the allocation or not initialised is a fault. -/
def readCell (c : Cells) (i : Nat) : M Int :=
  match c[i]? with
  | some (some x) => pure x
  | _ => throw .oob

/-- Write the cell at index `i`: outside the allocation is a fault. -/
def writeCell (c : Cells) (i : Nat) (x : Int) : M Cells :=
  if i < c.length then pure (c.set i (some x)) else throw .oob

/-- Read `n` cells from index `i` on. -/
def readCells (c : Cells) (i : Nat) : Nat → M (List Int)
  | 0 => pure []
  | n + 1 => do
    let x ← readCell c i
    let xs ← readCells c (i + 1) n
    pure (x :: xs)

/-- Write consecutive cells from index `i` on. -/
def writeCells (c : Cells) (i : Nat) : List Int → M Cells
  | [] => pure c
  | x :: xs => do
    let c ← writeCell c i x
    writeCells c (i + 1) xs

/-- src/binary.rs:60-61 `NUMERIC_HEADER_NDIGITS`: the long header takes 8 bytes, i.e. 4 cells. -/
abbrev HEADER_CELLS : Nat := 4

/-- src/data.rs:27-36 `NumericData`: `len` is `cells.length`. -/
structure Data where
  cells : Cells
  offset : Nat
  deriving DecidableEq, Repr

namespace Data

/-- src/data.rs:43-53 `with_ndigits` and 74-91 `buf_alloc`: header space, a spare digit for rounding, and the
digits, all uninitialised. -/
def withNdigits (n : Nat) : Data := ⟨List.replicate (n + HEADER_CELLS + 1) none, HEADER_CELLS + 1⟩

/-- src/data.rs:153-163 `digits`: a slice of `n` digits. The values are read when the slice is used. -/
def digits [Build] (d : Data) (n : Nat) : M (List Int) := do
  dassert (d.offset + n ≤ d.cells.length)
  readCells d.cells d.offset n

/-- src/data.rs:285-292 `NumericDigits::to_owned`: a fresh allocation with a copy of the digits. -/
def ofDigits (ds : List Int) : M Data := do
  let d := withNdigits ds.length
  let c ← writeCells d.cells d.offset ds
  pure ⟨c, d.offset⟩

/-- src/data.rs:183-197 `reserve_rounding_digit` and 106-122 `buf_copy`: move to a fresh allocation with a spare
digit if there is none. -/
def reserveRoundingDigit [Build] (d : Data) (n : Nat) : M Data := do
  dassert (n > 0)
  if d.offset ≤ HEADER_CELLS then do
    let ds ← d.digits n
    ofDigits ds
  else pure d

/-- src/data.rs:141-144 `offset_add`. -/
def offsetAdd [Build] (d : Data) (k : Nat) : M Data := do
  dassert (d.offset + k ≤ d.cells.length)
  pure { d with offset := d.offset + k }

/-- src/data.rs:147-150 `offset_sub`. -/
def offsetSub [Build] (d : Data) (k : Nat) : M Data := do
  dassert (d.offset ≥ k)
  pure { d with offset := d.offset - k }

/-- The two cells of a 32-bit word on a little-endian host. -/
def wordCells (w : BitVec 32) : List Int := [(w.extractLsb' 0 16).toInt, (w.extractLsb' 16 16).toInt]

/-- src/data.rs:200-240 `set_header`: write the header in front of the digits; returns the header offset in
bytes. -/
def setHeader [Build] (d : Data) (weight dscale sign : BitVec 16) (n : Nat) : M (Data × Nat) := do
  dassert (d.offset ≥ HEADER_CELLS)
  if Bin.canBeShort weight dscale then
    if d.offset < 3 then throw .oob
    else do
      let len := 6#32 + BitVec.ofNat 32 n * 2#32
      let c ← writeCells d.cells (d.offset - 3)
        (wordCells (Bin.encodeLen len) ++ [(Bin.shortHeader weight dscale sign).toInt])
      pure (⟨c, d.offset⟩, d.offset * 2 - 6)
  else
    if d.offset < 4 then throw .oob
    else do
      let len := 8#32 + BitVec.ofNat 32 n * 2#32
      let c ← writeCells d.cells (d.offset - 4)
        (wordCells (Bin.encodeLen len) ++ [(Bin.longHeader dscale sign).toInt, weight.toInt])
      pure (⟨c, d.offset⟩, d.offset * 2 - 8)

end Data

/-- src/var.rs:106-113 `NumericVar` with owned digits (`Cow::Owned`). -/
structure OVar where
  ndigits : Nat
  weight : Int
  dscale : Int
  sign : Sign
  data : Data
  deriving DecidableEq, Repr

/-- src/num.rs:31-38 `NumericBuf`: the allocation (`len` is twice the number of cells) and the position of the
header in bytes. A null pointer is `none : Option Buf`. -/
structure Buf where
  cells : Cells
  hoff : Nat
  deriving DecidableEq, Repr

namespace OVar

/-- src/var.rs:220-235 `into_numeric_buf` of owned digits. -/
def intoBuf [Build] (o : OVar) : M Buf := do
  let weight := BitVec.ofInt 16 o.weight
  let dscale := BitVec.ofInt 16 o.dscale
  if o.sign = .nan ∧ Bin.canBeShort weight dscale = true then
    dassert (o.weight = 0)
    dassert (o.dscale = 0)
  let (d, hoff) ← o.data.setHeader weight dscale (Bin.signWord o.sign) o.ndigits
  dassert (hoff < d.cells.length * 2)
  pure ⟨d.cells, hoff⟩

/-- `Cow::to_mut` / `Cow::into_owned` of borrowed digits (`digits` of the variable is the whole slice). -/
def ofVar (v : Var) : M OVar := do
  let d ← Data.ofDigits v.digits
  pure ⟨v.digits.length, v.weight, v.dscale, v.sign, d⟩

/-- The carry loop of `round_common` (src/var.rs:300-314). `p` is the cell index `offset + ndigits`. -/
def carryCells [Build] : Nat → Cells → Int → M (Cells × Nat)
  | 0, c, carry => if carry > 0 then throw .oob else pure (c, 0)
  | p + 1, c, carry =>
    if carry > 0 then do
      let d ← readCell c p
      let s ← i32 (carry + d)
      if s ≥ NBASE then do
        let c ← writeCell c p (s - NBASE)
        carryCells p c 1
      else do
        let c ← writeCell c p s
        carryCells p c 0
    else pure (c, p + 1)

/-- src/var.rs:240-329 `round_common`, in place. -/
def roundCommon [Build] (o : OVar) (rscale : Int) : M OVar := do
  dassert (o.sign ≠ .nan)
  fits [o.weight + 1, (o.weight + 1) * DEC_DIGITS, (o.weight + 1) * DEC_DIGITS + rscale,
    (o.weight + 1) * DEC_DIGITS + rscale + DEC_DIGITS]
  let di := (o.weight + 1) * DEC_DIGITS + rscale
  if di < 0 then pure { o with ndigits := 0, weight := 0, sign := .pos, dscale := rscale }
  else
    let nd := (di + DEC_DIGITS - 1) / DEC_DIGITS
    let di := di % DEC_DIGITS
    if nd < o.ndigits ∨ (nd = o.ndigits ∧ di > 0) then do
      let data ← if o.ndigits > 0 then o.data.reserveRoundingDigit o.ndigits else pure o.data
      dassert (data.offset > HEADER_CELLS ∨ o.ndigits = 0)
      dassert (data.offset + o.ndigits ≤ data.cells.length)
      -- `nd'` is the local `ndigits` before the carry loop
      let (c, carry, nd') ←
        if di = 0 then do
          if nd.toNat < o.ndigits then do
            let d ← readCell data.cells (data.offset + nd.toNat)
            pure (data.cells, (if d ≥ HALF_NBASE then (1 : Int) else 0), nd.toNat)
          else throw .oob
        else do
          let d ← readCell data.cells (data.offset + (nd.toNat - 1))
          let (d', c) ← Var.roundDigit d (roundPower di)
          let cells ← writeCell data.cells (data.offset + (nd.toNat - 1)) d'
          pure (cells, c, nd.toNat - 1)
      dassert (data.offset > HEADER_CELLS)
      let c ← writeCell c (data.offset - 1) 0
      let (c, p) ← carryCells (data.offset + nd') c carry
      if p < data.offset then do
        dassert (p + 1 = data.offset)
        let d ← Data.offsetSub ⟨c, data.offset⟩ 1
        pure { o with ndigits := nd.toNat + 1, weight := o.weight + 1, dscale := rscale, data := d }
      else pure { o with ndigits := nd.toNat, dscale := rscale, data := ⟨c, data.offset⟩ }
    else pure { o with dscale := rscale }

/-- src/var.rs:336-370 `trunc_common`, in place. -/
def truncCommon [Build] (o : OVar) (rscale : Int) : M OVar := do
  dassert (o.sign ≠ .nan)
  fits [o.weight + 1, (o.weight + 1) * DEC_DIGITS, (o.weight + 1) * DEC_DIGITS + rscale,
    (o.weight + 1) * DEC_DIGITS + rscale + DEC_DIGITS]
  let di := (o.weight + 1) * DEC_DIGITS + rscale
  if di ≤ 0 then pure { o with ndigits := 0, weight := 0, sign := .pos, dscale := rscale }
  else
    let nd := (di + DEC_DIGITS - 1) / DEC_DIGITS
    if nd ≤ o.ndigits then
      let di := di % DEC_DIGITS
      if di > 0 then do
        dassert (o.data.offset + nd.toNat ≤ o.data.cells.length)
        let d ← readCell o.data.cells (o.data.offset + (nd.toNat - 1))
        let c ← writeCell o.data.cells (o.data.offset + (nd.toNat - 1)) (d - d % roundPower di)
        pure { o with ndigits := nd.toNat, dscale := rscale, data := { o.data with cells := c } }
      else pure { o with ndigits := nd.toNat, dscale := rscale }
    else pure { o with dscale := rscale }

/-- src/var.rs:405-432 `strip`, in place: the leading zeros are skipped by moving the offset. -/
def strip [Build] (o : OVar) : M OVar := do
  let ds ← o.data.digits o.ndigits
  let i := (ds.takeWhile (· = 0)).length
  fits [o.weight - i]
  let n := ((ds.drop i).reverse.dropWhile (· = 0)).length
  let d ← o.data.offsetAdd i
  if n = 0 then pure ⟨0, 0, o.dscale, .pos, d⟩
  else pure ⟨n, o.weight - i, o.dscale, o.sign, d⟩

/-- src/var.rs:2410-2424 `round`. -/
def round [Build] (o : OVar) (scale : Int) : M OVar := do
  dassert (o.sign ≠ .nan)
  let rscale := Var.clampScale scale
  let r ← o.roundCommon rscale
  pure (if rscale < 0 then { r with dscale := 0 } else r)

/-- src/var.rs:2430-2444 `trunc`. -/
def trunc [Build] (o : OVar) (scale : Int) : M OVar := do
  dassert (o.sign ≠ .nan)
  let rscale := Var.clampScale scale
  let r ← o.truncCommon rscale
  pure (if rscale < 0 then { r with dscale := 0 } else r)

/-- src/var.rs:2343-2353 `negate`. -/
def negate [Build] (o : OVar) : M OVar := do
  dassert (o.sign ≠ .nan)
  pure (if o.ndigits > 0 then
    match o.sign with
    | .pos => { o with sign := .neg }
    | .neg => { o with sign := .pos }
    | .nan => o
  else o)

/-- src/var.rs:2462-2468 `abs`. -/
def abs [Build] (o : OVar) : M OVar := do
  dassert (o.sign ≠ .nan)
  pure (if o.sign = .neg then { o with sign := .pos } else o)

/-- src/var.rs:2310-2322 `make_result_no_overflow`. -/
def finishNoOverflow [Build] (o : OVar) : M Buf := do
  dassert (o.sign ≠ .nan)
  let s ← o.strip
  s.intoBuf

/-- src/var.rs:2327-2339 `make_result`. -/
def finish [Build] (o : OVar) : M (Option Buf) := do
  dassert (o.sign ≠ .nan)
  dassert (o.dscale ≥ 0)
  if o.weight > NUMERIC_WEIGHT_MAX ∨ o.weight < NUMERIC_WEIGHT_MIN ∨ o.dscale > NUMERIC_DSCALE_MAX then pure none
  else do
    let b ← o.finishNoOverflow
    pure (some b)

/-- src/var.rs:2632-2677 `apply_typmod`. -/
def applyTypmod [Build] (o : OVar) (typmod : Typmod) : M (OVar × Bool) :=
  if typmod.value.toInt < 4 then pure (o, false)
  else do
    let (precision, scale) ← typmod.extract
    let maxDigits ← i32 (precision.toInt - scale.toInt)
    let r ← o.roundCommon scale.toInt
    fits [r.weight + 1]
    let ddigits ← i32 ((r.weight + 1) * DEC_DIGITS)
    fits [ddigits - r.ndigits * DEC_DIGITS - 3]
    if ddigits > maxDigits then do
      let ds ← r.data.digits r.ndigits
      pure (r, Var.typmodScan ds ddigits maxDigits)
    else pure (r, false)

end OVar

namespace Buf

/-- Reassemble a 32-bit word from two cells (little-endian host). -/
def cellsWord (lo hi : Int) : BitVec 32 := BitVec.ofInt 16 hi ++ BitVec.ofInt 16 lo

/-- src/num.rs:156-163 `as_bytes` and 167 `as_numeric`: the numeric in the buffer. -/
def asNumeric [Build] (b : Buf) : M Bin := do
  let h := b.hoff / 2
  let lo ← readCell b.cells h
  let hi ← readCell b.cells (h + 1)
  let vl := cellsWord lo hi
  let len := (Bin.decodeLen vl).toNat
  dassert (len + b.hoff ≤ 2 * b.cells.length)
  if len < 6 then throw .oob
  else do
    let header ← readCell b.cells (h + 2)
    let rest ← readCells b.cells (h + 3) ((len - 6) / 2)
    pure ⟨vl, BitVec.ofInt 16 header, rest.map (BitVec.ofInt 16)⟩

/-- The sign field from the sign word (src/binary.rs:65-68). -/
def signOf (w : BitVec 16) : Sign := if w = Bin.NEG then .neg else if w = Bin.NAN then .nan else .pos

/-- src/num.rs:184-200 `into_var`. -/
def intoVar [Build] (b : Buf) : M OVar := do
  let a ← b.asNumeric
  Num.asBinary a
  let offset := (b.hoff + a.headerSize) / 2
  dassert (b.cells.length ≥ offset)
  if a.len < a.headerSize then throw .overflow
  else do
    let n := (a.len - a.headerSize) / 2
    let weight ← a.weight
    dassert (offset + n ≤ b.cells.length)
    pure ⟨n, weight.toInt, a.dscale.toNat, signOf a.sign, ⟨b.cells, offset⟩⟩

/-- `NumericVar::into_numeric_buf` of borrowed digits: every fresh `NumericBuf` arises this way or from owned
digits (src/var.rs:220-235). -/
def ofVar [Build] (v : Var) : M Buf := do
  let o ← OVar.ofVar v
  o.intoBuf

/-- src/num.rs:57-59 `nan`. -/
def nan [Build] : M Buf := ofVar Var.nan

/-- src/num.rs:69-78 `negate_mut`. -/
def negateMut [Build] (b : Buf) : M Buf := do
  let a ← b.asNumeric
  Num.asBinary a
  if a.isNan then pure b
  else do
    let o ← b.intoVar
    let o ← o.negate
    o.intoBuf

/-- src/num.rs:82-93 `abs_mut`. -/
def absMut [Build] (b : Buf) : M Buf := do
  let a ← b.asNumeric
  Num.asBinary a
  if a.isNan then pure b
  else if a.isNegative then do
    let o ← b.intoVar
    let o ← o.abs
    o.intoBuf
  else pure b

/-- src/num.rs:102-113 `round_mut`: `none` when it panics with the overflow message; the receiver then holds the
null pointer left by `as_var_owned`. -/
def roundMut [Build] (b : Buf) (scale : Int) : M (Option Buf) := do
  let a ← b.asNumeric
  Num.asBinary a
  if a.isNan then pure (some b)
  else do
    let o ← b.intoVar
    let o ← o.round scale
    o.finish

/-- src/num.rs:119-127 `trunc_mut`. -/
def truncMut [Build] (b : Buf) (scale : Int) : M Buf := do
  let a ← b.asNumeric
  Num.asBinary a
  if a.isNan then pure b
  else do
    let o ← b.intoVar
    let o ← o.trunc scale
    o.finishNoOverflow

/-- src/num.rs:141-152 `apply_typmod`: `none` when the receiver is left with a null pointer. -/
def applyTypmod [Build] (b : Buf) (typmod : Typmod) : M (Option Buf × Bool) := do
  let o ← b.intoVar
  let (o, overflow) ← o.applyTypmod typmod
  match ← o.finish with
  | some r => pure (some r, overflow)
  | none => pure (none, true)

end Buf
end PgNumeric
