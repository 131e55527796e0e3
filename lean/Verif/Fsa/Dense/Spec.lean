import Verif.Fsa.Vec.Model
import Verif.Fsa.Connect.Props
import Mathlib.Algebra.Order.Monoid.Unbundled.WithTop
import Mathlib.Algebra.Order.Monoid.WithTop
import Mathlib.Algebra.Order.Group.Defs

/-!
# What the intersection of an FSA with the output of a network is

`f` is an FSA (the arcs of each state) and `fr` a list of frames; a frame holds a score for each label,
starting with label -1.
-/

namespace Verif.Fsa.Dn
open Verif.Ragged
variable {S : Type} [Add S] [Zero S] [Bot S]

/-- The score of a label in a frame. -/
def labScore (row : List S) (l : Int) : S := row.getD (l + 1).toNat ⊥

/-- The score of a sequence of arcs aligned with frames: arc `t` is scored by frame `t`. -/
def alignScore : List (Arc S) → List (List S) → S
  | a :: p, row :: fr => a.score + labScore row a.label + alignScore p fr
  | _, _ => 0

/-- The arcs `p`, at the positions `js`, form a path from the start to the final state with one arc for
each frame. -/
structure IsAlign (f : List (List (Arc S))) (fr : List (List S)) (js : List Nat) (p : List (Arc S)) :
    Prop where
  pos : 0 < f.length
  chain : Chain 0 p (f.length - 1)
  arcs : js.map (fun j => f.flatten[j]?) = p.map some
  len : p.length = fr.length

/-- A score is closer to the best alignment than the beam; `neg` is minus the beam. -/
def InBeam [LT S] (f : List (List (Arc S))) (fr : List (List S)) (neg w : S) : Prop :=
  ∀ js p, IsAlign f fr js p → alignScore p fr + neg < w

/-- `g` with its arc maps `ma` and `mb` is the pruned intersection of `f` and `fr`.  `base` is where the
first frame starts in the memory of the scores and `stride` the distance of two frames. -/
structure Lattice [LT S] (f : List (List (Arc S))) (fr : List (List S)) (neg : S) (base stride : Nat)
    (g : List (List (Arc S))) (ma mb : List Nat) : Prop where
  rows : RowsOk g
  /-- The states are sorted topologically. -/
  top : ∀ a ∈ g.flatten, a.src < a.dst
  lengthA : ma.length = g.flatten.length
  lengthB : mb.length = g.flatten.length
  /-- Every accepting path is an alignment, with the same labels and the same score; the arc of the path
  that belongs to frame `t` is mapped to the score of its label in frame `t`. -/
  sound : ∀ (is : List Nat) (q : List (Arc S)), 0 < g.length → Chain 0 q (g.length - 1) →
    is.map (fun i => g.flatten[i]?) = q.map some →
    ∃ js p, is.map (fun i => ma[i]?) = js.map some ∧ IsAlign f fr js p ∧ labels q = labels p ∧
      score q = alignScore p fr ∧
      ∀ (t i : Nat) (a : Arc S), is[t]? = some i → q[t]? = some a →
        mb[i]? = some (base + stride * t + (a.label + 1).toNat)
  /-- Every alignment in the beam is exactly one accepting path. -/
  complete : ∀ js p, IsAlign f fr js p → InBeam f fr neg (alignScore p fr) →
    ∃! is : List Nat, is.map (fun i => ma[i]?) = js.map some ∧ IAccepting (rowsFsa g) is
  /-- Every arc is on an accepting path that is an alignment in the beam. -/
  arcsUsed : ∀ i < g.flatten.length, ∃ is js p, i ∈ is ∧ IAccepting (rowsFsa g) is ∧
    is.map (fun i => ma[i]?) = js.map some ∧ IsAlign f fr js p ∧ InBeam f fr neg (alignScore p fr)
  /-- Every state is on an accepting path that is an alignment in the beam. -/
  statesUsed : ∀ x < g.length, ∃ is is' js p, IPath g.flatten 0 is x ∧ IPath g.flatten x is' (g.length - 1) ∧
    (is ++ is').map (fun i => ma[i]?) = js.map some ∧ IsAlign f fr js p ∧
    InBeam f fr neg (alignScore p fr)
  /-- The labels of the arcs of a state are some of those of a state of `f`, in the same order. -/
  order : ∀ (x : Nat) (row : List (Arc S)), g[x]? = some row → ∃ (s : Nat) (frow : List (Arc S)),
    f[s]? = some frow ∧ (labels row).Sublist (labels frow)
  /-- Different accepting paths are different alignments. -/
  unique : ∀ is is' : List Nat, IAccepting (rowsFsa g) is → IAccepting (rowsFsa g) is' →
    is.map (fun i => ma[i]?) = is'.map (fun i => ma[i]?) → is = is'

end Verif.Fsa.Dn
