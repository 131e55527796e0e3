import Verif.Fsa.Cover

/-!
# `Reverse` (k2/csrc/reverse.cu), one FSA of the vector

The state and arc offsets of the FSA inside the vector cancel in the code (`idx1 = idx01 - idx0x`)
and are left out here.
-/

namespace Verif.Fsa
variable {W : Type}

/-- `ConstructStateMapping`, reverse.cu 96-127: start and final state are exchanged, the other
states keep their number.  (With one state the first test wins; that case is excluded by
`K2_DCHECK_GT`, 66.) -/
def revState (n s : Nat) : Nat := if s = 0 then n - 1 else if s = n - 1 then 0 else s

/-- The reversed arc, `lambda_map_original_arcs`, reverse.cu 229-262. -/
def revArc (n : Nat) (a : Arc W) : Arc W :=
  ⟨revState n a.dst, revState n a.src, if a.label = -1 then 0 else a.label, a.score⟩

/-- `GetIncomingArcs` (k2/csrc/fsa_utils.cu 901-928) for one state: the positions of the arcs that
enter it, in increasing order (`GetTransposeReordering` is a stable sort by destination). -/
def incoming (f : Fsa W) (s : Nat) : List Nat :=
  (List.range f.arcs.length).filter (fun i => (f.arcs[i]?).any (fun a => a.dst == s))

/-- The positions of the input arcs in the order in which their images are stored:
`reversed_idx012 = reversed_row_splits2[state_old2new_map[dest]] + idx2`, reverse.cu 212-228, with
the row lengths computed by `CreateReversedArcSahpe`, 151-180: new state `t` stores the arcs that
entered the old state mapped to `t`. -/
def revOrder (f : Fsa W) : List Nat :=
  (List.range f.numStates).flatMap (fun t => incoming f (revState f.numStates t))

/-- `Reverse`, reverse.cu 309-336, for an FSA with at least two states.  The extra final arc is the
last arc (268-294), from the penultimate state to the new final state. -/
def reverse [Zero W] (f : Fsa W) : Fsa W × List Int :=
  (⟨f.numStates + 1,
    (revOrder f).filterMap (fun i => (f.arcs[i]?).map (revArc f.numStates)) ++
      [⟨f.numStates - 1, f.numStates, -1, 0⟩]⟩,
   (revOrder f).map (fun (i : Nat) => (i : Int)) ++ [-1])

end Verif.Fsa
