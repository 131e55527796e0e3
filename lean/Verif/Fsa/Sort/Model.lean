import Verif.Fsa.Flags.Model

/-!
# `SortSublists` on the CPU and `ArcSort`

`none` stands for an access outside an array.
-/

namespace Verif.Fsa
variable {A W : Type}

/-- The test of a stable sort: the first element stays before the second unless the second is smaller. -/
def leOpt (lt : A → A → Bool) : Option A → Option A → Bool
  | some a, some b => !lt b a
  | _, _ => true

/-- `lambda_comp`, k2/csrc/ragged_ops_inl.h 394-396, in the form that a stable sort uses: position `i`
stays before position `j` unless the element at `j` is smaller. -/
def leAt (lt : A → A → Bool) (p : List A) (i j : Nat) : Bool := leOpt lt p[i]? p[j]?

/-- One round of the loop of `SortSublistsCpu`, ragged_ops_inl.h 399-406.  The positions are sorted by the
values as they are before the values of this sub-list are sorted. -/
def sortStep (lt : A → A → Bool) (st : List A × List Nat) (cur next : Nat) : Option (List A × List Nat) :=
  if next < cur ∨ st.1.length < next ∨ st.2.length < next then none
  else some (
    st.1.take cur ++ (((st.1.take next).drop cur).mergeSort (fun a b => !lt b a) ++ st.1.drop next),
    st.2.take cur ++ (((st.2.take next).drop cur).mergeSort (leAt lt st.1) ++ st.2.drop next))

/-- The loop of `SortSublistsCpu` over `row_splits`. -/
def sortLoop (lt : A → A → Bool) : List Nat → List A × List Nat → Option (List A × List Nat)
  | cur :: next :: rest, st => do
    let st ← sortStep lt st cur next
    sortLoop lt (next :: rest) st
  | _, st => some st

/-- `SortSublistsCpu`, ragged_ops_inl.h 387-407: the sorted values and `order`. -/
def sortSublists (lt : A → A → Bool) (splits : List Nat) (p : List A) : Option (List A × List Nat) :=
  sortLoop lt splits (p, List.range p.length)

/-- `Arc::operator<`, k2/csrc/fsa.h 56-64. -/
def arcLt (a b : RArc W) : Bool :=
  if a.label ≠ b.label then decide (u32 a.label < u32 b.label) else decide (a.dst < b.dst)

/-- `ArcSort(src, dest, arc_map)`, k2/csrc/fsa_algo.cu 857-867: `splits` are the row_splits of the last
axis. -/
def arcSort (splits : List Nat) (arcs : List (RArc W)) : Option (List (RArc W) × List Nat) :=
  sortSublists arcLt splits arcs

end Verif.Fsa
