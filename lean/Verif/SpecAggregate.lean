import Verif.SpecApi
import Verif.Model.Num
/-!
# Independent specification: programs that go through a list of numbers

The loops a user writes over a list: add up, multiply, look for the largest, sort. Each uses only calls of the library.
-/
namespace PgNumeric.Spec

/-- `acc.checked_op(b)?` for each `b` of the list in turn: the loop stops at the first `None` and at a panic. -/
def foldChecked (op : Bin → Bin → M (Option Bin)) : Bin → List Bin → M (Option Bin)
  | acc, [] => .ok (some acc)
  | acc, b :: l =>
    match op acc b with
    | .ok (some r) => foldChecked op r l
    | .ok none => .ok none
    | .error e => .error e

/-- The sum of a list, from a first number: `acc.checked_add(b)?` for each. -/
def total [Build] (acc : Bin) (l : List Bin) : M (Option Bin) := foldChecked Num.checkedAdd acc l

/-- The product of a list, from a first number: `acc.checked_mul(b)?` for each. -/
def product [Build] (acc : Bin) (l : List Bin) : M (Option Bin) := foldChecked Num.checkedMul acc l

/-- The largest of a list, from a first number: `if acc < b { acc = b }` for each. -/
def largest [Build] : Bin → List Bin → M Bin
  | acc, [] => .ok acc
  | acc, b :: l =>
    match Num.lt acc b with
    | .ok true => largest b l
    | .ok false => largest acc l
    | .error e => .error e

/-- The smallest of a list, from a first number: `if b < acc { acc = b }` for each. -/
def smallest [Build] : Bin → List Bin → M Bin
  | acc, [] => .ok acc
  | acc, b :: l =>
    match Num.lt b acc with
    | .ok true => smallest b l
    | .ok false => smallest acc l
    | .error e => .error e

/-- The numbers of the list hold the given values with the given scales. -/
def HoldsAll [Build] (l : List Bin) (ps : List (ℚ × ℤ)) : Prop := List.Forall₂ (fun b p => Holds b p.1 p.2) l ps

/-- The exact sum of the values. -/
def sumOf (ps : List (ℚ × ℤ)) : ℚ := (ps.map Prod.fst).sum
/-- The exact product of the values. -/
def prodOf (ps : List (ℚ × ℤ)) : ℚ := (ps.map Prod.fst).prod
/-- The largest of the scales and `s`. -/
def topScale (s : ℤ) (ps : List (ℚ × ℤ)) : ℤ := (ps.map Prod.snd).foldr max s

/-- The list is in ascending order by `<=` of the library. -/
def Ascending [Build] (l : List Bin) : Prop := l.Pairwise (fun a b => Num.le a b = .ok true)

end PgNumeric.Spec
