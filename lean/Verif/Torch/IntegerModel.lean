import Verif.Torch.OptionsModel

/-!
# Integer options (k2/torch/csrc/parse_options.cu)

`strtoll` is the function of the C library, for base 10 and the C locale, where `isspace` holds for the characters of
`Trim`.  Integers have no bound; the casts are written out.
-/

namespace Verif.Options

/-- The number with the given digits. -/
def digitsValue (ds : Str) : Nat := ds.foldl (fun a c => 10 * a + (c.toNat - 48)) 0

/-- The sign of a number, true for a minus, and what comes after it. -/
def signSplit : Str → Bool × Str
  | [] => (false, [])
  | c :: l => if c = '-' then (true, l) else if c = '+' then (false, l) else (false, c :: l)

/-- The nearest number with 64 bits. -/
def clamp64 (v : Int) : Int :=
  if v < -9223372036854775808 then -9223372036854775808 else if 9223372036854775807 < v then 9223372036854775807 else v

/-- `strtoll`: the number, the remaining characters and whether `errno` is set; `none` if there is no number. -/
def strtoll (s : Str) : Option (Int × Str × Bool) :=
  let p := signSplit (s.dropWhile white)
  let ds := p.2.takeWhile Char.isDigit
  if ds = [] then none
  else
    let v : Int := if p.1 then -(digitsValue ds : Int) else digitsValue ds
    some (clamp64 v, p.2.dropWhile Char.isDigit, v != clamp64 v)

/-- The cast from 64 bits to `int32_t` or `uint32_t`. -/
def cast32 (signed : Bool) (i : Int) : Int :=
  if signed then (i + 2147483648) % 4294967296 - 2147483648 else i % 4294967296

/-- `ConvertStringToInteger`, lines 51-71, for `int32_t` and `uint32_t`; `ToInt` and `ToUint`, lines 701-713. -/
def convertInteger (signed : Bool) (s : Str) : Option Int :=
  match strtoll s with
  | none => none
  | some (i, rest, err) =>
    if rest.dropWhile white ≠ [] ∨ err = true then none
    else if cast32 signed i ≠ i ∨ (i < 0 ∧ signed = false) then none
    else some (cast32 signed i)

end Verif.Options
