import Verif.Fsa.RmEps.DevModel
import Verif.Fsa.RmEps.Model

/-!
# `RemoveEpsilon`: the choice of the algorithm
-/

namespace Verif.Fsa.Rmd
open Verif.Fsa.Rme (Num removeEpsilonHost)
variable {W : Type} [AddCommGroup W] [LinearOrder W]

/-- The bits `kFsaPropertiesTopSortedAndAcyclic`, k2/csrc/fsa.cu 111-118. -/
def topSortedAndAcyclic (f : Fsa W) : Bool := f.arcs.all (fun a => !decide (a.dst ≤ a.src))

/-- `Num.fin` on all arcs: the host algorithm may return scores that are not numbers. -/
def toNum (g : Fsa W) : Fsa (Num W) := ⟨g.numStates, g.arcs.map fun a => ⟨a.src, a.dst, a.label, .fin a.score⟩⟩

/-- `RemoveEpsilon`, k2/csrc/fsa_algo.cu 281-292, with correct properties. -/
def removeEpsilon (cpu : Bool) (f : Fsa W) : Option (Outcome (Fsa (Num W) × List (List Nat))) :=
  if topSortedAndAcyclic f && cpu then (removeEpsilonHost f).map .done
  else
    match removeEpsilonDevice f with
    | none => none
    | some .aborted => some .aborted
    | some (.done (g, d)) => some (.done (toNum g, d))

end Verif.Fsa.Rmd
