import Verif.Fsa.Core
import Mathlib.Data.Rat.Defs

/-!
# `LevenshteinGraphs` (k2/csrc/fsa_algo.cu 456-575), one FSA

The score component of each arc carries the score, the aux label and the score offset, which the
code stores in three parallel arrays.  Scores are rationals.
-/

namespace Verif.Fsa.Lev
open Verif.Fsa

/-- Score, aux label, score offset. -/
abbrev Tag := ℚ × Int × ℚ

/-- `case 0`, the self-loop, fsa_algo.cu 537-543. -/
def loopArc (s : ℚ) (i : Nat) : Arc Tag := ⟨i, i, 0, (s, 0, s - (-1/2))⟩
/-- `case 1`, to the next state with label 0, fsa_algo.cu 552-557. -/
def blankArc (i : Nat) (x : Int) : Arc Tag := ⟨i, i + 1, 0, (-1/2, x, 0)⟩
/-- `case 2`, to the next state with the symbol, fsa_algo.cu 559-564. -/
def symArc (i : Nat) (x : Int) : Arc Tag := ⟨i, i + 1, x, (0, x, 0)⟩
/-- `case 1` on the last but one state, to the final state, fsa_algo.cu 545-551. -/
def finalArc (n : Nat) : Arc Tag := ⟨n, n + 1, -1, (0, -1, 0)⟩

/-- The arcs of state `i`: three, two for the last but one state, none for the final state;
fsa_algo.cu 476-488. -/
def levRow (s : ℚ) (xs : List Int) (i : Nat) : List (Arc Tag) :=
  match xs[i]? with
  | some x => [loopArc s i, blankArc i x, symArc i x]
  | none => if i = xs.length then [loopArc s i, finalArc i] else []

/-- The graph; `none` is the failing `K2_CHECK` on symbols 0 and -1, fsa_algo.cu 525-530. -/
def levenshteinGraph (s : ℚ) (xs : List Int) : Option (Fsa Tag) :=
  if (0 : Int) ∈ xs ∨ (-1 : Int) ∈ xs then none
  else some ⟨xs.length + 2, (List.range (xs.length + 2)).flatMap (levRow s xs)⟩

end Verif.Fsa.Lev
