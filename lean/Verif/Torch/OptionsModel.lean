import Mathlib.Data.List.Basic
import Mathlib.Logic.Function.Basic

/-!
# Command line options (k2/torch/csrc/parse_options.cu)

Strings are lists of characters.  The maps from names to variables are one function that gives the kind of an option; the
code looks into the maps one after the other, and a name is registered in one of them.  The conversions of integers and
floating point numbers are parameters.  The values of the variables are a function from names; `FATAL` and a failed check
end the program.
-/

namespace Verif.Options

abbrev Str := List Char

/-- The value of a variable. -/
inductive Value where
  | bool (b : Bool)
  | number (n : Int)
  | text (s : Str)
deriving DecidableEq

/-- The maps of lines 186-191 of parse_options.h: which type of variable an option has. -/
inductive Kind where
  | bool
  /-- Integers and floating point numbers, with the conversion; `none` is an error. -/
  | number (conv : Str → Option Int)
  | text

abbrev Vals := Str → Option Value

/-- `--`. -/
def dashes : Str := ['-', '-']

/-- `strncmp(argv[i], "--", 2) == 0`. -/
def isLong (a : Str) : Bool := a.take 2 == dashes

/-- `SplitLongArg`, lines 605-623: the name, the value and whether there is an equal sign. -/
def splitLongArg (a : Str) : Option (Str × Str × Bool) :=
  let r := a.drop 2
  if r.contains '=' then
    if r.takeWhile (· != '=') = [] then none
    else some (r.takeWhile (· != '='), (r.dropWhile (· != '=')).drop 1, true)
  else some (r, [], false)

/-- The loop of `NormalizeArgName`, lines 625-639. -/
def normalize (k : Str) : Str := k.map (fun c => if c = '_' then '-' else c.toLower)

/-- The white space of `Trim`. -/
def white (c : Char) : Bool := [' ', '\t', '\n', '\r', '\x0c', '\x0b'].contains c

/-- `Trim`, lines 641-652. -/
def trim (s : Str) : Str := ((s.reverse.dropWhile white).reverse).dropWhile white

/-- `SplitLongArg`, `NormalizeArgName` with its check, and `Trim`. -/
def parseArg (a : Str) : Option (Str × Str × Bool) :=
  match splitLongArg a with
  | none => none
  | some (k, v, e) => if k = [] then none else some (normalize k, trim v, e)

/-- `ToBool`, lines 681-699. -/
def toBool (s : Str) : Option Bool :=
  let t := s.map Char.toLower
  if t = ['t', 'r', 'u', 'e'] ∨ t = ['t'] ∨ t = ['1'] ∨ t = [] then some true
  else if t = ['f', 'a', 'l', 's', 'e'] ∨ t = ['f'] ∨ t = ['0'] then some false
  else none

/-- The value that `SetOption`, lines 654-679, stores; `none` if it ends the program or returns false. -/
def convert (kind : Str → Option Kind) (k v : Str) (e : Bool) : Option Value :=
  match kind k with
  | some .bool => if e && v.isEmpty then none else (toBool v).map Value.bool
  | some (.number conv) => (conv v).map Value.number
  | some .text => if !e then none else some (Value.text v)
  | none => none

/-- An option is parsed and set, as in lines 466-473 and 592-601. -/
def setArg (kind : Str → Option Kind) (vals : Vals) (a : Str) : Option Vals :=
  match parseArg a with
  | none => none
  | some (k, v, e) => (convert kind k v e).map (fun x => Function.update vals k (some x))

/-- `ReadConfigFile`, lines 564-603, for the lines of the file. -/
def readConfig (kind : Str → Option Kind) : Vals → List Str → Option Vals
  | vals, [] => some vals
  | vals, line :: l =>
    let t := trim (line.takeWhile (· != '#'))
    if t = [] then readConfig kind vals l
    else if isLong t then
      match setArg kind vals t with
      | none => none
      | some vals => readConfig kind vals l
    else none

/-- What `Read` comes to. -/
inductive Res where
  | ok (vals : Vals) (positional : List Str)
  | fatal
  /-- The usage is printed and the program ends. -/
  | help

/-- The result of the first pass. -/
inductive Pass where
  | ok (vals : Vals)
  | fatal
  | help

/-- The first pass, lines 435-453.  `files` gives the lines of a file, or `none` if it cannot be opened. -/
def firstPass (kind : Str → Option Kind) (files : Str → Option (List Str)) : Vals → List Str → Pass
  | vals, [] => .ok vals
  | vals, a :: l =>
    if isLong a then
      if a = dashes then .ok vals
      else
        match parseArg a with
        | none => .fatal
        | some (k, v, _) =>
          if k = ['c', 'o', 'n', 'f', 'i', 'g'] then
            match files v with
            | none => .fatal
            | some lines =>
              match readConfig kind vals lines with
              | none => .fatal
              | some vals => firstPass kind files vals l
          else if k = ['h', 'e', 'l', 'p'] then .help
          else firstPass kind files vals l
    else firstPass kind files vals l

/-- The second pass, lines 455-477: the values, the remaining arguments and `double_dash_seen`. -/
def secondPass (kind : Str → Option Kind) : Vals → List Str → Option (Vals × List Str × Bool)
  | vals, [] => some (vals, [], false)
  | vals, a :: l =>
    if isLong a then
      if a = dashes then some (vals, l, true)
      else
        match setArg kind vals a with
        | none => none
        | some vals => secondPass kind vals l
    else some (vals, a :: l, false)

/-- Lines 479-486. -/
def positional : List Str → Bool → List Str
  | [], _ => []
  | a :: l, seen => if a = dashes ∧ seen = false then positional l true else a :: positional l seen

/-- `ParseOptions::Read`, lines 429-496, for the arguments after the name of the program. -/
def read (kind : Str → Option Kind) (files : Str → Option (List Str)) (vals : Vals) (args : List Str) : Res :=
  match firstPass kind files vals args with
  | .fatal => .fatal
  | .help => .help
  | .ok vals =>
    match secondPass kind vals args with
    | none => .fatal
    | some (vals, rest, seen) => .ok vals (positional rest seen)

end Verif.Options
