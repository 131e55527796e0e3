import Verif.Torch.IntegerModel

/-!
# Symbol tables (k2/torch/csrc/symbol_table.cu)

A file is the list of its bytes; a character below 256 stands for a byte.  `is >> sym` and `is >> id` are the extractions of
the C++ library in the C locale.  The two maps are one list of pairs, as they are always changed together.
-/

namespace Verif.Symbols

open Verif.Options

abbrev Table := List (Str × Int)

/-- `is >> sym`; `none` if there are no more characters, which sets `eof`. -/
def readSym (l : Str) : Option (Str × Str) :=
  let t := l.dropWhile white
  if t = [] then none else some (t.takeWhile (fun c => !white c), t.dropWhile (fun c => !white c))

/-- The result of `is >> id`. -/
inductive IntRes where
  | ok (v : Int) (rest : Str)
  /-- A failure, and whether the end of the file was met. -/
  | fail (eof : Bool)

/-- `is >> id`: a number out of range is a failure after all of its digits are read. -/
def readInt (l : Str) : IntRes :=
  let p := signSplit (l.dropWhile white)
  let ds := p.2.takeWhile Char.isDigit
  let rest := p.2.dropWhile Char.isDigit
  let v : Int := if p.1 then -(digitsValue ds : Int) else digitsValue ds
  if ds = [] ∨ v < -2147483648 ∨ 2147483647 < v then .fail rest.isEmpty else .ok v rest

/-- The three bytes of U+2581 at the beginning are replaced by a blank, lines 32-39. -/
def unspace (s : Str) : Str :=
  if s.take 3 = [Char.ofNat 0xe2, Char.ofNat 0x96, Char.ofNat 0x81] then ' ' :: s.drop 3 else s

/-- The loop of the constructor, lines 31-48; every round reads at least one character, so that `fuel` is not used up.
`none` is a failed check. -/
def load : Nat → Table → Str → Option Table
  | 0, _, _ => none
  | fuel + 1, table, l =>
    match readSym l with
    | none => some table
    | some (s, l1) =>
      match readInt l1 with
      | .fail eof => if eof then some table else none
      | .ok v l2 =>
        if (table.any (fun e => e.1 = unspace s)) = true ∨ (table.any (fun e => e.2 = v)) = true then none
        else load fuel (table ++ [(unspace s, v)]) l2

/-- The constructor, lines 27-49. -/
def symbolTable (l : Str) : Option Table := load (l.length + 1) [] l

/-- `operator[]` for a symbol, lines 64-66; `none` is an exception. -/
def idOf (t : Table) (s : Str) : Option Int := (t.find? (fun e => e.1 = s)).map Prod.snd

/-- `operator[]` for a number, lines 60-62. -/
def symOf (t : Table) (v : Int) : Option Str := (t.find? (fun e => e.2 = v)).map Prod.fst

end Verif.Symbols
