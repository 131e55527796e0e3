import Verif.Fsa.Rows
import Verif.Fsa.Cover

/-!
# `AddEpsilonSelfLoops` (k2/csrc/fsa_algo.cu 1146-1303) and `RemoveEpsilonSelfLoops` (2152-2181)

Single FSAs (`NumAxes() == 2`) are modelled with the index arithmetic of the kernels.
-/

namespace Verif.Fsa
open Verif.Util
variable {W : Type}

/-- `Arc(state_idx0, state_idx0, 0, 0.0)`, fsa_algo.cu 1201-1202. -/
def loopArc [Zero W] (s : Nat) : Arc W := ⟨s, s, 0, 0⟩

/-- The writes of `lambda_copy_data`, fsa_algo.cu 1180-1188: arc `arc_idx01` of state `state_idx0`
goes to `arc_idx01 + 1 + state_idx0`.  The value is the arc and its arc-map entry. -/
def copyWrites (f : Fsa W) : List (Nat × (Arc W × Int)) :=
  f.arcs.mapIdx (fun i a => (i + 1 + a.src, (a, (i : Int))))

/-- The writes of `lambda_set_new_data`, fsa_algo.cu 1192-1209: the self-loop of a non-final state
goes to `old_row_splits[state_idx0] + state_idx0`. -/
def loopWrites [Zero W] (f : Fsa W) : List (Nat × (Arc W × Int)) :=
  ((List.range f.numStates).filter (fun s => s + 1 < f.numStates)).map
    (fun s => (splits f.rows s + s, (loopArc s, -1)))

/-- `AddEpsilonSelfLoops` for a single FSA, fsa_algo.cu 1152-1214. -/
def addLoops [Zero W] (f : Fsa W) : Option (Fsa W × List Int) :=
  if f.numStates < 2 then
    if f.numStates = 0 then some (f, []) else none
  else
    (scatter (f.arcs.length + (f.numStates - 1)) (copyWrites f ++ loopWrites f)).map
      (fun l => (⟨f.numStates, l.map Prod.fst⟩, l.map Prod.snd))

/-- `keep_list_data[i]`, fsa_algo.cu 2169-2177. -/
def keepArc (a : Arc W) : Bool := !(a.label == 0 && a.src == a.dst)

/-- `RemoveEpsilonSelfLoops`, fsa_algo.cu 2152-2181: keep the arcs that are not epsilon
self-loops; the arc map lists the kept positions. -/
def removeLoops (f : Fsa W) : Fsa W × List Int :=
  let kept := (f.arcs.mapIdx (fun i a => (a, (i : Int)))).filter
    (fun x => keepArc x.1)
  (⟨f.numStates, kept.map Prod.fst⟩, kept.map Prod.snd)

end Verif.Fsa
