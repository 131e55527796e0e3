import Verif.Fsa.Cover

/-!
# `Union` (k2/csrc/fsa_algo.cu 1305-1394)

An `FsaVec` is modelled by the list of its FSAs.  State numbers `idx01` of the code are the
position of the FSA's first state (`fsas_row_splits1[fsa_idx0]`, here `stateOffset`) plus the
state number inside the FSA.
-/

namespace Verif.Fsa
variable {W : Type}

/-- `fsas_row_splits1_data[i]`: number of states of the FSAs before the `i`-th. -/
def stateOffset (fs : List (Fsa W)) (i : Nat) : Nat := ((fs.take i).map Fsa.numStates).sum

/-- `num_out_states = num_states + 2 - num_fsas`, fsa_algo.cu 1318-1320.  (Computed in `int32`
in the code; it cannot be negative when every FSA has at least one state.) -/
def unionNumStates (fs : List (Fsa W)) : Nat :=
  (fs.map Fsa.numStates).sum + 2 - fs.length

/-- `state_idx0x + state_offset` with `state_offset = 1 - fsa_idx0`, fsa_algo.cu 1349-1350. -/
def unionBase (fs : List (Fsa W)) (i : Nat) : Nat := stateOffset fs i + 1 - i

/-- The arc from the new start state to the old start state of the `i`-th FSA,
fsa_algo.cu 1375-1382. -/
def unionStartArc [Zero W] (fs : List (Fsa W)) (i : Nat) : Arc W :=
  ⟨0, unionBase fs i, 0, 0⟩

/-- The image of an arc of the `i`-th FSA (which has `n` states), fsa_algo.cu 1352-1373:
`out_state_idx0 = state_idx01 + state_offset`, an arc to the final state goes to the new
final state, any other keeps `dest_state - src_state` (here the subtraction and the addition
of `src` have cancelled). -/
def unionArc (fs : List (Fsa W)) (i n : Nat) (a : Arc W) : Arc W :=
  ⟨unionBase fs i + a.src,
   if a.dst = n - 1 then unionNumStates fs - 1 else unionBase fs i + a.dst,
   a.label, a.score⟩

/-- The arc map, fsa_algo.cu 1332, 1373: `-1` for the new arcs, then the old arcs in order. -/
def unionArcMap (fs : List (Fsa W)) : List Int :=
  List.replicate fs.length (-1) ++
    (List.range (fs.map (fun f => f.arcs.length)).sum).map (fun (k : Nat) => (k : Int))

/-- `Union`, fsa_algo.cu 1305-1394.  `none` stands for undefined behaviour: the new arc of an
FSA is written by the thread that handles that FSA's first arc (1375), so the new arc of an
FSA without arcs is never written. -/
def union [Zero W] (fs : List (Fsa W)) : Option (Fsa W × List Int) :=
  if fs.all (fun f => !f.arcs.isEmpty) then
    some (⟨unionNumStates fs,
      (List.range fs.length).map (unionStartArc fs) ++
        (fs.mapIdx (fun i f => f.arcs.map (unionArc fs i f.numStates))).flatten⟩,
      unionArcMap fs)
  else none

end Verif.Fsa
