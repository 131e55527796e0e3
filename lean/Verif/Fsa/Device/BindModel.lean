import Verif.Fsa.Device.Model
import Verif.Fsa.Intersect.Model

/-!
# `_k2.intersect` (k2/python/csrc/torch/fsa_algo.cu 95-150)

Both arguments have three axes (`FsaToFsaVec` turns one FSA into a vector of one FSA).  The check of the
properties in `Intersect` is up to the caller.
-/

namespace Verif.Fsa.Idv
variable {W : Type}

/-- Lines 117-123. -/
def bToA (numA numB : Nat) : List Nat := if numA = 1 then List.replicate numB 0 else List.range numB

/-- Lines 105-138: `gpu` says where the FSAs are, `sortedA` whether `properties_a` says that `a` is arc-sorted.
`Intersect` checks that the FSAs are on the CPU (fsa_algo.cu 130). -/
def intersectAny [Add W] (gpu eps sortedA : Bool) (a b : FsaVec W) (order : Nat → Nat → List Nat) :
    Option (FsaVec W × List Int × List Int) :=
  if eps = false ∧ gpu = true then
    (intersectDevice ⟨a, b, bToA (a.sp1.length - 1) (b.sp1.length - 1), sortedA, true⟩ order).map
      (fun r => (r.1, r.2.1.map (fun n : Nat => (n : Int)), r.2.2.map (fun n : Nat => (n : Int))))
  else if gpu = true then none
  else Isect.intersect a b eps

end Verif.Fsa.Idv
