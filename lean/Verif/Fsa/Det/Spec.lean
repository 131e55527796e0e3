import Mathlib.Algebra.Group.Defs
import Verif.Fsa.Core

/-!
# What it means to determinize an FSA
-/

namespace Verif.Fsa.Det
variable {W : Type}

/-- No state has two arcs with the same label (nor the same arc twice). -/
def Deterministic (g : Fsa W) : Prop :=
  ∀ (i j : Nat) (a b : Arc W), g.arcs[i]? = some a → g.arcs[j]? = some b →
    a.src = b.src → a.label = b.label → i = j

/-- The arcs of the input that the arcs at positions `ks` of the result stand for. -/
def derivPath (d : List (List Nat)) (ks : List Nat) : List Nat := (ks.map fun k => (d[k]?).getD []).flatten

/-- `p` is an accepting path that is at least as good as all accepting paths with the same labels. -/
def BestAccepting [Add W] [Zero W] [LE W] (f : Fsa W) (p : List (Arc W)) : Prop :=
  Accepting f p ∧ ∀ q, Accepting f q → labels q = labels p → score q ≤ score p

/-- `g`, with the arc derivatives `d`, is a determinization of `f`. -/
structure IsDeterminization [Add W] [Zero W] [LE W] (f g : Fsa W) (d : List (List Nat)) : Prop where
  /-- The result is an FSA, empty only if nothing is accepted. -/
  valid : g.Valid ∨ (g = ⟨0, []⟩ ∧ ∀ p, ¬ Accepting f p)
  deterministic : Deterministic g
  /-- One list of arcs per arc. -/
  length_eq : d.length = g.arcs.length
  /-- The derivatives along an accepting path are a best path with its labels and its score. -/
  sound : ∀ ks q, ks.map (fun k => g.arcs[k]?) = q.map some → Accepting g q →
    ∃ p, (derivPath d ks).map (fun j => f.arcs[j]?) = p.map some ∧ BestAccepting f p ∧
      labels p = labels q ∧ score p = score q
  /-- Nothing is lost. -/
  complete : ∀ p, Accepting f p → ∃ q, Accepting g q ∧ labels q = labels p

/-- No path comes back to a state. -/
def Acyclic (f : Fsa W) : Prop := ∀ s p, p ≠ [] → ¬ Path f.arcs s p s

/-- From every state that can be reached, the final state can be reached. -/
def NoDeadEnd (f : Fsa W) : Prop := ∀ p s, Path f.arcs 0 p s → ∃ q, Path f.arcs s q f.final

end Verif.Fsa.Det
