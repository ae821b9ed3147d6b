import Verif.Model.Heap
/-!
# References into an allocation, and `{:?}` (src/num.rs:156-163, 221-236; src/binary.rs:253-264)
-/
namespace PgNumeric

/-- A reference made by an `unsafe` cast: where it starts in the allocation, and the size and alignment of the type it refers to, in bytes. -/
structure MemRef where
  start : Nat
  size : Nat
  align : Nat

namespace HBuf

/-- src/num.rs:158-159 `&*(ptr as *const NumericBinary)`, made by `as_bytes` and so by every use of an owned number. `NumericBinary`
(src/binary.rs:253-264, `repr(C)`) is a `u32` and a `NumericChoice` (src/binary.rs:168-181, `repr(C)`: zero-sized fields and `[u16; 2]`), so it
takes 8 bytes at a multiple of 4. -/
def headerRef (b : HBuf) : MemRef := ⟨b.hoff, 8, 4⟩

/-- src/num.rs:221-236 `impl Debug for NumericBuf`: the whole allocation (if any) is printed, then the length and the offset. Simplification:
what is printed is given as the list of 16-bit cells, not as text. -/
def debug (h : Heap) (b : HBuf) : M (List Int × Nat × Nat) :=
  match b.ptr with
  | none => pure ([], b.len, b.hoff)
  | some _ => do
    let v ← b.view h
    let l ← readCells v.cells 0 v.cells.length
    pure (l, b.len, b.hoff)

end HBuf
end PgNumeric
