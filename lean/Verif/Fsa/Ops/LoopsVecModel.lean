import Verif.Fsa.Vec.Model
import Verif.Ragged.UnstackModel

/-!
# `AddEpsilonSelfLoops` of a vector of FSAs (k2/csrc/fsa_algo.cu 1214-1301)

The kernels are the lists of their writes; `none` stands for an access outside an array or an array element that
is never written.  `new_row_ids2`, `new_arcs` and `arc_map` are written at the same positions, so they are one
array here.
-/

namespace Verif.Fsa.Lpv
open Verif.Ragged Verif.Util
variable {W : Type}

/-- An element of `new_row_ids2`, `new_arcs` and `arc_map`. -/
abbrev Elem (W : Type) := Nat × Arc W × Int

/-- `lambda_set_fsa_nonempty`, lines 1223-1227. -/
def nonempty (v : FsaVec W) (r : Nat) : Option Nat := do
  let b ← v.sp1[r]?
  let e ← v.sp1[r + 1]?
  some (if b < e then 1 else 0)

/-- `lambda_copy_data`, lines 1254-1266. -/
def copyThread (v : FsaVec W) (mods : List Nat) (i : Nat) : Option (Nat × Elem W) := do
  let g ← v.id2[i]?
  let r ← v.id1[g]?
  let m ← mods[r]?
  let a ← v.arcs[i]?
  some (i + 1 + g - m, (g, a, (i : Int)))

/-- `lambda_set_new_data`, lines 1271-1298: the writes to the arcs and those to `new_row_splits2`. -/
def loopThread [Zero W] (v : FsaVec W) (mods : List Nat) (g : Nat) :
    Option (List (Nat × Elem W) × List (Nat × Nat)) := do
  let r ← v.id1[g]?
  let m ← mods[r]?
  let b ← v.sp1[r]?
  let e ← v.sp1[r + 1]?
  let x ← v.sp2[g]?
  let pos := x + g - m
  if g + 1 < e then some ([(pos, (g, ⟨g - b, g - b, 0, 0⟩, -1))], [(g, pos)])
  else if g + 1 = v.id1.length then some ([], [(g, pos), (v.id1.length, pos)])
  else some ([], [(g, pos)])

/-- `AddEpsilonSelfLoops` with three axes, lines 1214-1301.  The last element of `fsa_nonempty` is not
initialized before `ExclusiveSum`, which does not use it. -/
def addLoopsVec [Zero W] (v : FsaVec W) : Option (FsaVec W × List Int) :=
  if v.id1.length = 0 then some (v, [])
  else do
    let ne ← (List.range (v.sp1.length - 1)).mapM (nonempty v)
    let total ← (psum ne)[v.sp1.length - 1]?
    let n := v.arcs.length + v.id1.length - total
    let cw ← (List.range v.arcs.length).mapM (copyThread v (psum ne))
    let lw ← (List.range v.id1.length).mapM (loopThread v (psum ne))
    let ws := cw ++ lw.flatMap Prod.fst
    let out ← scatter n ws
    let sp2 ← scatter (v.id1.length + 1) (lw.flatMap Prod.snd)
    if ∀ w ∈ ws, w.1 < n then
      some (⟨v.sp1, v.id1, sp2, out.map Prod.fst, out.map (fun x => x.2.1)⟩, out.map (fun x => x.2.2))
    else none

end Verif.Fsa.Lpv
