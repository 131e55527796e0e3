import Verif.Fsa.Sort.Model
import Verif.Fsa.Ops.LoopsVecModel
import Verif.Fsa.Device.Model
import Verif.Fsa.Shortest.Model

/-!
# `Nbest.intersect` (k2/python/k2/nbest.py 200-239)

`none` stands for a failed check, an access outside an array and a data race.
-/

namespace Verif.Fsa.Nbi
open Verif.Fsa.Best Verif.Fsa.Lpv Verif.Fsa.Idv
variable {W K : Type}

/-- `Arc::operator<`, k2/csrc/fsa.h 56-64. -/
def arcLess (a b : Arc W) : Bool :=
  if a.label ≠ b.label then decide (u32 a.label < u32 b.label) else decide (a.dst < b.dst)

/-- `arc_sort` of a vector, k2/csrc/fsa_algo.cu 857-867 with `SortSublists` on the CPU.  The test for a vector
that is sorted already is left out; sorting such a vector changes nothing. -/
def arcSortVec (v : FsaVec W) : Option (FsaVec W) :=
  (sortSublists arcLess v.sp2 v.arcs).map (fun r => { v with arcs := r.1 })

/-- `Nbest.intersect` up to `shortest_path`, nbest.py 217-235.  `utts` is `self.shape.dim0()`, `utt` is
`self.shape.row_ids(1)`, `fsas` is `self.fsa`.  `order` says in which order the threads of `intersect_device`
enter states into the hash.  The call of `remove_epsilon`, which works on each FSA separately, is not part of
this function. -/
def intersectBest [Add W] [Zero W] [LinearOrder K] (gpu : Bool) (lp0 jm : Nat) (order : Nat → Nat → List Nat)
    (mul : K → W → K) (bot one : K) (lats fsas : FsaVec W) (utts : Nat) (utt : List Nat) :
    Option (FsaVec W × List (Option Nat)) :=
  if lats.sp1.length - 1 ≠ utts then none else do
  let sorted ← arcSortVec lats
  let loops ← addLoopsVec fsas
  let ans ← intersectDevice ⟨sorted, loops.1, utt, true, gpu⟩ order
  shortestPathFsas lp0 jm mul bot one ans.1

end Verif.Fsa.Nbi
