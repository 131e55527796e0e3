import Verif.Fsa.Cover

/-!
# `Closure` (k2/csrc/fsa_algo.cu 1396-1493) and the python `closure`
(k2/python/k2/fsa_algo.py 826-883)
-/

namespace Verif.Fsa
variable {W : Type}

/-- `fsa.row_splits(1)[1]`: the number of arcs that leave the start state.  Only meaningful for
an FSA whose arcs are grouped by source. -/
def startArcs (f : Fsa W) : Nat := f.arcs.countP (fun a => a.src == 0)

/-- The change made to an arc, fsa_algo.cu 1436-1444: an arc into the final state goes to the
start state with label 0. -/
def closureArc (f : Fsa W) (a : Arc W) : Arc W :=
  if a.dst = f.numStates - 1 then ⟨a.src, 0, 0, a.score⟩ else a

/-- `Arc new_arc(0, fsa_final_state, -1, 0.0f)`, fsa_algo.cu 1457, 1466. -/
def closureNewArc [Zero W] (f : Fsa W) : Arc W := ⟨0, f.numStates - 1, -1, 0⟩

/-- `Closure`, fsa_algo.cu 1396-1493, on FSAs with at least two states: arcs of the start state
keep their position, the new arc follows them (1452-1460; position 0 if there are none,
1464-1469), all other arcs move by one (1447-1450).  The second component is the arc map.
`none` stands for undefined behaviour: the new arc is written by the threads that handle the
input arcs, so it is never written if there are no arcs. -/
def closure [Zero W] (f : Fsa W) : Option (Fsa W × List Int) :=
  if f.numStates < 2 then
    if f.numStates = 0 then some (f, []) else none   -- K2_CHECK_EQ(num_states, 0)
  else if f.arcs.isEmpty then none
  else
    some (⟨f.numStates,
      (f.arcs.take (startArcs f)).map (closureArc f) ++ closureNewArc f ::
        (f.arcs.drop (startArcs f)).map (closureArc f)⟩,
      (List.range (startArcs f)).map (fun (k : Nat) => (k : Int)) ++ (-1) ::
        (List.range (f.arcs.length - startArcs f)).map
          (fun (k : Nat) => ((startArcs f + k : Nat) : Int)))

/-- `index_select(src, arc_map)` with default value 0 for index -1 (k2/python/k2/ops.py). -/
def indexSelect (src : List Int) (m : List Int) : List Int :=
  m.map (fun j => if j < 0 then 0 else src.getD j.toNat 0)

/-- `fix_aux_labels`, fsa_algo.py 839-867: `minus_one_index` are the positions of -1 in the old
aux labels; those greater than `k = row_splits1[1]` are incremented; these positions of the
result are set to 0 and position `k` is set to -1. -/
def fixAuxLabels (aux : List Int) (k : Nat) (m : List Int) : List Int :=
  let minusOne := (List.range aux.length).filter (fun i => aux.getD i 0 == -1)
  let moved := minusOne.map (fun i => if i > k then i + 1 else i)
  ((moved.foldl (fun l i => l.set i 0) (indexSelect aux m)).set k (-1))

end Verif.Fsa
