import Verif.Model.Parse
/-!
# Text output (src/var.rs:2103-2180 `write`, 2683-2709 `normalize`)
-/
namespace PgNumeric

/-- The bytes of an ASCII string. -/
def str (s : String) : Str := s.toList.map Char.toNat

namespace Text

/-- `{}` of a non-negative integer: its decimal digits without leading zeros. -/
def dec (n : Nat) : Str := if n < 10 then [48 + n] else dec (n / 10) ++ [48 + n % 10]
  termination_by n

/-- `{:>0width$}` of a non-negative integer (the `0` flag pads with zeros on the left). -/
def pad (width n : Nat) : Str := List.replicate (width - (dec n).length) 48 ++ dec n

/-- The integer digits loop `for d in 0..=self.weight` (src/var.rs:2121-2137): `n` digits remain, the next is
`d`. -/
def intLoop [Build] (ds : List Int) : Nat → Int → M Str
  | 0, _ => pure []
  | n + 1, d => do
    let dig := Var.digitAt ds d
    dassert (dig ≥ 0)
    let rest ← intLoop ds n (d + 1)
    pure ((if d > 0 then pad 4 dig.toNat else dec dig.toNat) ++ rest)

/-- `(0..k).fold(dig, |acc, _| acc / 10)` (src/var.rs:2163). -/
def divTen : Nat → Nat → Nat
  | 0, n => n
  | k + 1, n => divTen k (n / 10)

/-- The fraction loop `for scale in (0..self.dscale).step_by(4)` (src/var.rs:2151-2169): `n` steps remain. -/
def fracLoop (ds : List Int) (dscale : Int) : Nat → Int → Int → Str
  | 0, _, _ => []
  | n + 1, d, scale =>
    let dig := Var.digitAt ds d
    (if scale + 4 ≤ dscale then pad 4 dig.toNat
     else
      let width := (dscale - scale).toNat
      pad width (divTen (4 - width) dig.toNat)) ++
    fracLoop ds dscale n (d + 1) (scale + 4)

/-- The digits before the decimal point (src/var.rs:2113-2138). -/
def intText [Build] (v : Var) : M Str :=
  if v.weight < 0 then pure (str "0") else intLoop v.digits (v.weight + 1).toNat 0

/-- src/var.rs:2103-2174 `write`. -/
def write [Build] (v : Var) : M Str := do
  if v.sign = .nan then pure (str "NaN")
  else
    fits [v.weight + 1, v.weight + 1 + (v.dscale + 3) / 4, v.dscale + 3]
    let sgn := if v.sign = .neg then str "-" else []
    let int ← intText v
    let frac := if v.dscale > 0 then str "." ++ fracLoop v.digits v.dscale ((v.dscale + 3) / 4).toNat (v.weight + 1) 0 else []
    pure (sgn ++ int ++ frac)

/-- src/var.rs:2683-2709 `normalize`. -/
def normalize [Build] (v : Var) : M Str := do
  if v.sign = .nan then pure (str "NaN")
  else
    let s ← write v
    if 46 ∈ s then
      let newLen := s.length - (s.reverse.takeWhile (· == 48)).length
      let last ← match s[newLen - 1]? with
        | some c => pure c
        | none => throw .oob
      pure (s.take (if last = 46 then newLen - 1 else newLen))
    else pure s

end Text

namespace Num

/-- src/num.rs:252-257, 984-989 `Display` (`to_string`). -/
def toString [Build] (a : Bin) : M Str := do
  let v ← a.asVar
  Text.write v

/-- src/num.rs:880-882 `normalize`. -/
def normalize [Build] (a : Bin) : M Str := do
  let v ← a.asVar
  Text.normalize v

/-- src/num.rs:310-320 `Serialize`: the text for human-readable formats, the bytes otherwise. -/
def serialize [Build] (humanReadable : Bool) (a : Bin) : M (Str ⊕ List (BitVec 8)) :=
  if humanReadable then do
    let s ← toString a
    pure (.inl s)
  else pure (.inr a.asBytes)

/-- src/num.rs:325-376 `Deserialize`: `visit_str` parses, `visit_bytes` copies the numeric behind the bytes;
`none` stands for a deserialisation error. -/
def deserialize [Build] : Str ⊕ List (BitVec 8) → M (Option Bin)
  | .inl s => do
    match ← Parse.fromStr s with
    | .ok r => pure (some r)
    | .error _ => pure none
  | .inr bs =>
    match Bin.fromBytes bs with
    | none => throw .oob
    | some b => do
      let r ← toOwned b
      pure (some r)

end Num
end PgNumeric
