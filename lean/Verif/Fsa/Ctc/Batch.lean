import Verif.Fsa.Ctc.Model
import Verif.Fsa.Vec.Model
import Verif.Util.Ragged

/-!
# `LinearFsas` and `CtcGraphs` for a batch (k2/csrc/fsa_algo.cu 388-454 and 577-730)

The transcripts are a ragged array: `spl` are its row_splits and `vals` its values.  A state of the whole
batch is `g` (`state_idx01`), an arc `i` (`arc_idx012`), the FSA they belong to `r` (`fsa_idx0`).  `none`
stands for a failed check, an access outside an array or an element that is never written.  Subtractions are
those of natural numbers; that no result is negative is part of what is proved.
-/

namespace Verif.Fsa.CtcB
open Verif.Ragged Verif.Util
variable {W : Type} [Zero W]

/-- `lambda_set_num_states`, fsa_algo.cu 591-597. -/
def numStates (spl : List Nat) (r : Nat) : Option Nat := do
  let b ← spl[r]?
  let e ← spl[r + 1]?
  some ((e - b) * 2 + 2)

/-- `final_state ? -1 : symbol_data[...]`, fsa_algo.cu 631-632, 679-680, 687-688. -/
def symOr (vals : List Int) (fin y : Nat) : Option Int := if y = fin then some (-1) else vals[y]?

/-- The number of arcs of a symbol state that is not final, fsa_algo.cu 624-643. -/
def numArcsSym (modified : Bool) (vals : List Int) (fin y : Nat) : Option Nat :=
  if modified then some 3
  else do
    let cur ← vals[y]?
    let next ← symOr vals fin (y + 1)
    if cur = -1 then none else if cur ≠ next then some 3 else some 2

/-- `lambda_set_num_arcs`, fsa_algo.cu 612-647. -/
def numArcs (modified : Bool) (spl : List Nat) (vals : List Int) (id1 : List Nat) (g : Nat) : Option Nat := do
  let r ← id1[g]?
  if g % 2 = 0 then some 2
  else do
    let fin ← spl[r + 1]?
    if g / 2 - r = fin then some 0 else numArcsSym modified vals fin (g / 2 - r)

/-- The arc of a symbol state, fsa_algo.cu 685-715; `q` is the state in its FSA, `k` the number of the arc. -/
def symArc (modified : Bool) (vals : List Int) (fin y q k : Nat) : Option (Arc W × Int) := do
  if y = fin then none
  else do
    let cur ← vals[y]?
    let next ← symOr vals fin (y + 1)
    if cur = next ∧ modified = false then
      if k = 0 then some (⟨q, q + 1, 0, 0⟩, 0) else if k = 1 then some (⟨q, q, cur, 0⟩, 0) else none
    else if k = 0 then some (⟨q, q + 1, 0, 0⟩, 0)
    else if k = 1 then some (⟨q, q, cur, 0⟩, 0)
    else if k = 2 then some (⟨q, q + 2, next, 0⟩, if y + 1 = fin then -1 else next)
    else none

/-- The arc of a blank state, fsa_algo.cu 716-722. -/
def blankArc (vals : List Int) (fin y q k : Nat) : Option (Arc W × Int) := do
  let cur ← symOr vals fin y
  if k = 0 then some (⟨q, q, 0, 0⟩, 0)
  else if k = 1 then some (⟨q, q + 1, cur, 0⟩, if y = fin then -1 else cur)
  else none

/-- `lambda_set_arcs`, fsa_algo.cu 667-725. -/
def arcAt (modified : Bool) (spl : List Nat) (vals : List Int) (sp1 id1 sp2 id2 : List Nat) (i : Nat) :
    Option (Arc W × Int) := do
  let g ← id2[i]?
  let r ← id1[g]?
  let s0 ← sp1[r]?
  let a0 ← sp2[g]?
  let fin ← spl[r + 1]?
  if g % 2 = 1 then symArc modified vals fin (g / 2 - r) (g - s0) (i - a0)
  else blankArc vals fin (g / 2 - r) (g - s0) (i - a0)

/-- `CtcGraphs`, fsa_algo.cu 577-730: the FSAs and the aux labels. -/
def ctcGraphs (modified : Bool) (spl : List Nat) (vals : List Int) : Option (FsaVec W × List Int) := do
  let ns ← (List.range (spl.length - 1)).mapM (numStates spl)
  let id1 ← rowSplitsToRowIds (psum ns) ns.sum
  let na ← (List.range ns.sum).mapM (numArcs modified spl vals id1)
  let id2 ← rowSplitsToRowIds (psum na) na.sum
  let as ← (List.range na.sum).mapM (arcAt modified spl vals (psum ns) id1 (psum na) id2)
  some (⟨psum ns, id1, psum na, id2, as.map Prod.fst⟩, as.map Prod.snd)

/-- The symbol of an arc, fsa_algo.cu 433-435. -/
def linearSym (vals : List Int) (r i next : Nat) : Option Int := if i + 1 < next then vals[i - r]? else some (-1)

/-- What the kernel of `LinearFsas` does for state `g`, fsa_algo.cu 413-448: the arc with its position and
its row id, if the state has one; and the elements of `row_splits2` that it sets. -/
def linearWrites (spl : List Nat) (vals : List Int) (sp1 id1 : List Nat) (g : Nat) :
    Option (List (Nat × Arc W) × List (Nat × Nat) × List (Nat × Nat)) := do
  let r ← id1[g]?
  let s0 ← sp1[r]?
  let s1 ← sp1[r + 1]?
  let i := s0 - r + (g - s0)
  if i < s1 - (r + 1) then do
    let sym ← linearSym vals r i (s1 - (r + 1))
    some ([(i, ⟨g - s0, g - s0 + 1, sym, 0⟩)], [(i, g)], [(g, i)])
  else some ([], [], [(g + 1, i), (g, i)])

/-- `LinearFsas`, fsa_algo.cu 388-454.  `ChangeSublistSize(symbols.shape, 2)` adds 2 to each row. -/
def linearBatch (spl : List Nat) (vals : List Int) : Option (FsaVec W) := do
  let ns ← (List.range (spl.length - 1)).mapM (fun r => do
    let b ← spl[r]?
    let e ← spl[r + 1]?
    some (e - b + 2))
  let id1 ← rowSplitsToRowIds (psum ns) ns.sum
  let n := vals.length + (spl.length - 1)
  let ws ← (List.range ns.sum).mapM (linearWrites spl vals (psum ns) id1)
  let arcs ← scatter n (ws.flatMap (fun w => w.1))
  let id2 ← scatter n (ws.flatMap (fun w => w.2.1))
  let sp2 ← scatter (ns.sum + 1) (if ns.sum = 0 then [(0, 0)] else ws.flatMap (fun w => w.2.2))
  some ⟨psum ns, id1, sp2, id2, arcs⟩

end Verif.Fsa.CtcB
