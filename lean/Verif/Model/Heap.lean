import Verif.Model.Data
/-!
# Allocations and their owners (src/data.rs, src/num.rs:30-210, src/var.rs:220-432 and 2310-2339)

The allocator: which allocations are live, with which layout they were made, and with which layout they were released. `NumericData`,
`NumericVar` and `NumericBuf` hold a pointer into it. Reading, writing or releasing an allocation that is not live, or through the null
pointer, is the fault `oob` (undefined behaviour). What the code does inside an allocation is the model of `Model/Data.lean`, applied in
place. Simplification: the temporaries of arithmetic, which the compiler releases at the end of their scope, are not followed.
-/
namespace PgNumeric

/-- A live allocation: its cells and the alignment it was requested with. -/
structure Block where
  cells : Cells
  align : Nat

/-- A release: the allocation, the layout (bytes, alignment) it was made with, and the layout it was released with. -/
structure Release where
  ptr : Nat
  size : Nat
  align : Nat
  givenSize : Nat
  givenAlign : Nat

/-- The allocator. Allocations are numbered; `next` have been made so far. -/
structure Heap where
  live : Nat → Option Block
  next : Nat
  released : List Release

namespace Heap

/-- The allocator at the start of the program. -/
def empty : Heap := ⟨fun _ => none, 0, []⟩

/-- `Vec::<NumericDigit>::with_capacity` and `mem::forget` (src/data.rs:81-85, 110-119): a new allocation, aligned for `i16`, which is then
filled with the given cells. -/
def alloc (h : Heap) (c : Cells) : Nat × Heap :=
  (h.next, { h with live := fun q => if q = h.next then some ⟨c, 2⟩ else h.live q, next := h.next + 1 })

/-- Dropping a vector made by `Vec::from_raw_parts(p, 0, size / align)`: the allocator is told size and alignment. -/
def free (h : Heap) (p size align : Nat) : M Heap :=
  match h.live p with
  | none => throw .oob
  | some b => pure { h with
      live := fun q => if q = p then none else h.live q
      released := ⟨p, 2 * b.cells.length, b.align, size, align⟩ :: h.released }

/-- The cells behind a pointer. -/
def read (h : Heap) : Option Nat → M Cells
  | none => throw .oob
  | some p => match h.live p with
    | none => throw .oob
    | some b => pure b.cells

/-- Replace the cells behind a pointer, in place. -/
def write (h : Heap) (p : Option Nat) (c : Cells) : M Heap :=
  match p with
  | none => throw .oob
  | some p => match h.live p with
    | none => throw .oob
    | some b =>
      if c.length = b.cells.length then pure { h with live := fun q => if q = p then some ⟨c, b.align⟩ else h.live q }
      else throw .oob

end Heap

/-- src/data.rs:27-36 `NumericData`: pointer, length in digits, position of the first digit. -/
structure HData where
  ptr : Option Nat
  len : Nat
  offset : Nat

/-- src/var.rs:106-113 `NumericVar` with owned digits. -/
structure HVar where
  ndigits : Nat
  weight : Int
  dscale : Int
  sign : Sign
  data : HData

/-- src/num.rs:31-38 `NumericBuf`: pointer, length in bytes, position of the header in bytes. -/
structure HBuf where
  ptr : Option Nat
  len : Nat
  hoff : Nat

namespace HData

/-- src/data.rs:94-102 `buf_free` and 244-249 `drop`: a `Vec<NumericDigit>` is released. -/
def drop (h : Heap) (d : HData) : M Heap :=
  match d.ptr with
  | none => pure h
  | some p => h.free p (2 * d.len) 2

end HData

namespace HVar

/-- The variable with the contents of its allocation. A length field that differs from the size of the allocation is a fault. -/
def view (h : Heap) (v : HVar) : M OVar := do
  let c ← h.read v.data.ptr
  if c.length = v.data.len then pure ⟨v.ndigits, v.weight, v.dscale, v.sign, ⟨c, v.data.offset⟩⟩ else throw .oob

/-- The variable after an operation in place gave `o`. -/
def commit (h : Heap) (v : HVar) (o : OVar) : M (HVar × Heap) := do
  let h ← h.write v.data.ptr o.data.cells
  pure (⟨o.ndigits, o.weight, o.dscale, o.sign, { v.data with offset := o.data.offset }⟩, h)

/-- src/data.rs:183-197 `reserve_rounding_digit`: a copy in a new allocation if there is no room, the old one is released. -/
def reserve [Build] (h : Heap) (v : HVar) : M (HVar × Heap) := do
  dassert (v.ndigits > 0)
  if v.data.offset ≤ HEADER_CELLS then do
    let o ← v.view h
    let d ← o.data.reserveRoundingDigit v.ndigits
    let (p, h) := h.alloc d.cells
    let h ← v.data.drop h
    pure ({ v with data := ⟨some p, d.cells.length, d.offset⟩ }, h)
  else pure (v, h)

/-- src/var.rs:240-329 `round_common`: room for the carry is made first (src/var.rs:262-266), the rest is in place. -/
def roundCommon [Build] (h : Heap) (v : HVar) (rscale : Int) : M (HVar × Heap) := do
  let di := (v.weight + 1) * DEC_DIGITS + rscale
  let nd := (di + DEC_DIGITS - 1) / DEC_DIGITS
  let (v, h) ← if 0 ≤ di ∧ (nd < v.ndigits ∨ (nd = v.ndigits ∧ di % DEC_DIGITS > 0)) ∧ v.ndigits > 0 then v.reserve h else pure (v, h)
  let o ← v.view h
  let r ← o.roundCommon rscale
  v.commit h r

/-- src/var.rs:336-370 `trunc_common` and 2430-2444 `trunc`: in place. -/
def trunc [Build] (h : Heap) (v : HVar) (scale : Int) : M (HVar × Heap) := do
  let o ← v.view h
  let r ← o.trunc scale
  v.commit h r

/-- src/var.rs:2410-2424 `round`. -/
def round [Build] (h : Heap) (v : HVar) (scale : Int) : M (HVar × Heap) := do
  dassert (v.sign ≠ .nan)
  let rscale := Var.clampScale scale
  let (r, h) ← v.roundCommon h rscale
  pure (if rscale < 0 then ({ r with dscale := 0 }, h) else (r, h))

/-- src/var.rs:2343-2353 `negate`. -/
def negate [Build] (h : Heap) (v : HVar) : M (HVar × Heap) := do
  let o ← v.view h
  let r ← o.negate
  v.commit h r

/-- src/var.rs:2462-2468 `abs`. -/
def abs [Build] (h : Heap) (v : HVar) : M (HVar × Heap) := do
  let o ← v.view h
  let r ← o.abs
  v.commit h r

/-- src/var.rs:2632-2677 `apply_typmod`. -/
def applyTypmod [Build] (h : Heap) (v : HVar) (typmod : Typmod) : M (HVar × Heap × Bool) :=
  if typmod.value.toInt < 4 then pure (v, h, false)
  else do
    let (precision, scale) ← typmod.extract
    let maxDigits ← i32 (precision.toInt - scale.toInt)
    let (v, h) ← v.roundCommon h scale.toInt
    fits [v.weight + 1]
    let ddigits ← i32 ((v.weight + 1) * DEC_DIGITS)
    fits [ddigits - v.ndigits * DEC_DIGITS - 3]
    if ddigits > maxDigits then do
      let o ← v.view h
      let ds ← o.data.digits o.ndigits
      pure (v, h, Var.typmodScan ds ddigits maxDigits)
    else pure (v, h, false)

/-- src/var.rs:220-235 `into_numeric_buf`: the header is written in place and the allocation handed over (`into_raw_parts`). -/
def intoBuf [Build] (h : Heap) (v : HVar) : M (HBuf × Heap) := do
  let o ← v.view h
  let b ← o.intoBuf
  let h ← h.write v.data.ptr b.cells
  pure (⟨v.data.ptr, v.data.len * 2, b.hoff⟩, h)

/-- src/var.rs:2310-2322 `make_result_no_overflow`. -/
def finishNoOverflow [Build] (h : Heap) (v : HVar) : M (HBuf × Heap) := do
  dassert (v.sign ≠ .nan)
  let o ← v.view h
  let s ← o.strip
  let (v, h) ← v.commit h s
  v.intoBuf h

/-- src/var.rs:2327-2339 `make_result`: on overflow the variable, which was passed by value, is dropped. -/
def finish [Build] (h : Heap) (v : HVar) : M (Option HBuf × Heap) := do
  dassert (v.sign ≠ .nan)
  dassert (v.dscale ≥ 0)
  if v.weight > NUMERIC_WEIGHT_MAX ∨ v.weight < NUMERIC_WEIGHT_MIN ∨ v.dscale > NUMERIC_DSCALE_MAX then do
    let h ← v.data.drop h
    pure (none, h)
  else do
    let (b, h) ← v.finishNoOverflow h
    pure (some b, h)

end HVar

namespace HBuf

/-- src/num.rs:202-212 `drop`: the allocation is released as a `Vec<u8>`. -/
def drop (h : Heap) (b : HBuf) : M Heap :=
  match b.ptr with
  | none => pure h
  | some p => h.free p b.len 1

/-- The buffer with the contents of its allocation. -/
def view (h : Heap) (b : HBuf) : M Buf := do
  let c ← h.read b.ptr
  if 2 * c.length = b.len then pure ⟨c, b.hoff⟩ else throw .oob

/-- src/num.rs:156-163, 167 `as_numeric`. -/
def asNumeric [Build] (h : Heap) (b : HBuf) : M Bin := do
  let v ← b.view h
  v.asNumeric

/-- src/num.rs:176-200 `as_var_owned` and `into_var`: the allocation goes to the variable, a null pointer stays behind. -/
def asVarOwned [Build] (h : Heap) (b : HBuf) : M (HVar × HBuf) := do
  let c ← b.view h
  let o ← c.intoVar
  pure (⟨o.ndigits, o.weight, o.dscale, o.sign, ⟨b.ptr, b.len / 2, o.data.offset⟩⟩, { b with ptr := none })

/-- `*self = new`: the old value of `self` is dropped. -/
def assign (h : Heap) (self new : HBuf) : M (HBuf × Heap) := do
  let h ← self.drop h
  pure (new, h)

/-- src/num.rs:69-78 `negate_mut`. -/
def negateMut [Build] (h : Heap) (b : HBuf) : M (HBuf × Heap) := do
  let a ← b.asNumeric h
  Num.asBinary a
  if a.isNan then pure (b, h)
  else do
    let (v, self) ← b.asVarOwned h
    let (v, h) ← v.negate h
    let (r, h) ← v.intoBuf h
    self.assign h r

/-- src/num.rs:82-93 `abs_mut`. -/
def absMut [Build] (h : Heap) (b : HBuf) : M (HBuf × Heap) := do
  let a ← b.asNumeric h
  Num.asBinary a
  if a.isNan then pure (b, h)
  else if a.isNegative then do
    let (v, self) ← b.asVarOwned h
    let (v, h) ← v.abs h
    let (r, h) ← v.intoBuf h
    self.assign h r
  else pure (b, h)

/-- src/num.rs:102-113 `round_mut`. The flag tells whether it panicked; the buffer is what the caller is left with then. -/
def roundMut [Build] (h : Heap) (b : HBuf) (scale : Int) : M (Bool × HBuf × Heap) := do
  let a ← b.asNumeric h
  Num.asBinary a
  if a.isNan then pure (false, b, h)
  else do
    let (v, self) ← b.asVarOwned h
    let (v, h) ← v.round h scale
    match ← v.finish h with
    | (some r, h) => do
      let (b, h) ← self.assign h r
      pure (false, b, h)
    | (none, h) => pure (true, self, h)

/-- src/num.rs:119-127 `trunc_mut`. -/
def truncMut [Build] (h : Heap) (b : HBuf) (scale : Int) : M (HBuf × Heap) := do
  let a ← b.asNumeric h
  Num.asBinary a
  if a.isNan then pure (b, h)
  else do
    let (v, self) ← b.asVarOwned h
    let (v, h) ← v.trunc h scale
    let (r, h) ← v.finishNoOverflow h
    self.assign h r

/-- src/num.rs:141-152 `apply_typmod`. -/
def applyTypmod [Build] (h : Heap) (b : HBuf) (typmod : Typmod) : M (Bool × HBuf × Heap) := do
  let (v, self) ← b.asVarOwned h
  let (v, h, overflow) ← v.applyTypmod h typmod
  match ← v.finish h with
  | (some r, h) => do
    let (b, h) ← self.assign h r
    pure (overflow, b, h)
  | (none, h) => pure (true, self, h)

/-- A `NumericBuf` in a new allocation, holding what `b` holds: how every function of the library returns its result
(src/var.rs:220-235 `into_numeric_buf`). -/
def make (h : Heap) (b : Buf) : HBuf × Heap :=
  let (p, h) := h.alloc b.cells
  (⟨some p, 2 * b.cells.length, b.hoff⟩, h)

/-- src/num.rs:214-219 `clone`: borrow the digits, copy them to a new allocation, write the header. -/
def clone [Build] (h : Heap) (b : HBuf) : M (HBuf × Heap) := do
  let a ← b.asNumeric h
  Num.asBinary a
  let v ← a.asVar
  let c ← Buf.ofVar v
  pure (make h c)

end HBuf
end PgNumeric
