import Mathlib.Data.List.Basic

/-!
# Printing command lines (k2/torch/csrc/parse_options.cu)

Strings are lists of characters.  A C string has no character 0, so that the loops up to `'\0'` go over the whole string.
`isalnum` is that of the C locale; for bytes above 127 it is taken as false.
-/

namespace Verif.Escape

/-- `ok_chars`, line 354. -/
def okChars : List Char := ['[', ']', '~', '#', '^', '_', '-', '+', '=', ':', '.', ',', '/']

/-- `MustBeQuoted`, lines 341-375. -/
def mustBeQuoted (s : List Char) : Bool :=
  s.isEmpty || s.any (fun c => !(c.isAlphanum || okChars.contains c))

/-- `QuoteAndEscape`, lines 382-422: the quote and what stands for the quote, lines 391-403. -/
def quoteOf (s : List Char) : Char × List Char :=
  if s.contains '\'' && !s.any (fun c => ['"', '`', '$', '\\'].contains c) then ('"', ['\\', '"'])
  else ('\'', ['\'', '\\', '\'', '\''])

/-- `QuoteAndEscape`, lines 382-422. -/
def quoteAndEscape (s : List Char) : List Char :=
  (quoteOf s).1 :: (s.flatMap (fun c => if c = (quoteOf s).1 then (quoteOf s).2 else [c]) ++ [(quoteOf s).1])

/-- `ParseOptions::Escape`, lines 425-427. -/
def escape (s : List Char) : List Char := if mustBeQuoted s then quoteAndEscape s else s

/-- The command line that `Read` and `PrintUsage` print, lines 491 and 529, without the newline. -/
def printed (args : List (List Char)) : List Char := args.flatMap (fun a => escape a ++ [' '])

end Verif.Escape
