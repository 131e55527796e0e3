import Mathlib.Data.List.Basic

/-! Specification of `Unstack`: padded rows and their columns. -/

namespace Verif.Ragged
variable {X : Type}

/-- `N` is the length of the longest of the lists. -/
def IsLongest (N : Nat) (V : List (List X)) : Prop :=
  (∀ L ∈ V, L.length ≤ N) ∧ (N = 0 ∨ ∃ L ∈ V, L.length = N)

/-- The list filled up to length `N` with gaps, on the right or on the left. -/
def padded (padRight : Bool) (N : Nat) (L : List X) : List (Option X) :=
  if padRight then L.map some ++ List.replicate (N - L.length) none
  else List.replicate (N - L.length) none ++ L.map some

/-- Entry `j` of the filled list. -/
def column (padRight : Bool) (N j : Nat) (L : List X) : Option X := ((padded padRight N L)[j]?).getD none

end Verif.Ragged
