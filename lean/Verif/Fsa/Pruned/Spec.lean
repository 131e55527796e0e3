import Verif.Fsa.Dense.Spec
import Mathlib.Algebra.Field.Defs
import Mathlib.Algebra.Order.Ring.Defs

/-!
# What decoding with pruning promises

`f` is a decoding graph and `fr` the frames of a network.  `aoff` is the number of the first arc of `f` in
the whole vector, `base` the number of the first frame of `fr`, and `cols` the number of scores in a frame.
-/

namespace Verif.Fsa.Dp
open Verif.Ragged Verif.Fsa.Dn

section
variable {K : Type} [Field K] [LinearOrder K]

local notation "S" => WithBot K

/-- After each frame but the last, the arcs so far are less than the beam `β` worse than any path with
as many arcs. -/
def OnBeam (f : List (List (Arc S))) (fr : List (List S)) (β : Nat → K) (pth : List (Arc S)) : Prop :=
  ∀ t, 0 < t → t < fr.length → ∀ (other : List (Arc S)) (e : Nat), Path f.flatten 0 other e →
    other.length = t → alignScore other fr + ((-β t : K) : S) < alignScore (pth.take t) fr

/-- The score is at most the beam worse than that of any alignment. -/
def InOutput (f : List (List (Arc S))) (fr : List (List S)) (beam : K) (w : S) : Prop :=
  ∀ js pth, IsAlign f fr js pth → alignScore pth fr + ((-beam : K) : S) ≤ w

/-- One arc for each frame, from the start to any state; the last arc does not have label -1. -/
structure IsPartial (f : List (List (Arc S))) (fr : List (List S)) (js : List Nat) (pth : List (Arc S)) (j : Nat)
    (a : Arc S) : Prop where
  chain : ∃ e, Chain 0 (pth ++ [a]) e
  arcs : (js ++ [j]).map (fun j => f.flatten[j]?) = (pth ++ [a]).map some
  len : pth.length + 1 = fr.length
  label : a.label ≠ -1

/-- The accepting path of `g` with the arcs `q` at the positions `is`. -/
structure IsOut (g : List (List (Arc S))) (is : List Nat) (q : List (Arc S)) : Prop where
  pos : 0 < g.length
  chain : Chain 0 q (g.length - 1)
  arcs : is.map (fun i => g.flatten[i]?) = q.map some

/-- `g` with the arc maps `ma` and `mb` is a decoding result for `f` and `fr`; `part` tells whether it
consists of partial alignments. -/
structure Decoded (f : List (List (Arc S))) (fr : List (List S)) (aoff base cols : Nat) (outBeam : K)
    (β : Nat → K) (part : Bool) (g : List (List (Arc S))) (ma : List Int) (mb : List Nat) : Prop where
  rows : RowsOk g
  /-- The states are sorted topologically. -/
  top : ∀ a ∈ g.flatten, a.src < a.dst
  lengthA : ma.length = g.flatten.length
  lengthB : mb.length = g.flatten.length
  /-- There is a result exactly if there is a graph. -/
  some : 0 < g.length ↔ 0 < f.length
  /-- An accepting path is an alignment, with the same labels and score; the arc for frame `t` is mapped to
  the arc of the alignment and to the score of its label in frame `t`. -/
  sound : part = false → ∀ is q, IsOut g is q → ∃ js pth, IsAlign f fr js pth ∧
    is.map (fun i => ma[i]?) = js.map (fun j => Option.some ((aoff + j : Nat) : Int)) ∧ labels q = labels pth ∧
    score q = alignScore pth fr ∧ score q ≠ ⊥ ∧
    ∀ (t i : Nat) (a : Arc S), is[t]? = Option.some i → pth[t]? = Option.some a →
      mb[i]? = Option.some ((base + t) * cols + (a.label + 1).toNat)
  /-- With partial results, the last arc of an accepting path has label -1 and the score of any arc of the
  graph, without a score of a frame, and is mapped to no arc of the graph. -/
  soundPart : part = true → ∀ is q, IsOut g is q → ∃ js pth j a, IsPartial f fr js pth j a ∧
    is.map (fun i => ma[i]?) = js.map (fun j => Option.some ((aoff + j : Nat) : Int)) ++ [Option.some (-1)] ∧
    labels q = labels pth ++ [-1] ∧ score q = alignScore pth fr + a.score ∧ score q ≠ ⊥ ∧
    ∀ (t i : Nat) (b : Arc S), is[t]? = Option.some i → (pth ++ [a])[t]? = Option.some b →
      mb[i]? = Option.some ((base + t) * cols + (b.label + 1).toNat)
  /-- An alignment that stays in the search beam and is in the output beam is exactly one accepting path. -/
  complete : ∀ js pth, IsAlign f fr js pth → alignScore pth fr ≠ ⊥ → OnBeam f fr β pth →
    InOutput f fr outBeam (alignScore pth fr) → part = false ∧
    ∃! is : List Nat, is.map (fun i => ma[i]?) = js.map (fun j => Option.some ((aoff + j : Nat) : Int)) ∧
      IAccepting (rowsFsa g) is
  /-- The same for partial alignments. -/
  completePart : part = true → ∀ js pth j a, IsPartial f fr js pth j a → alignScore pth fr + a.score ≠ ⊥ →
    OnBeam f fr β pth →
    (∀ js' pth' j' a', IsPartial f fr js' pth' j' a' →
      alignScore pth' fr + a'.score + ((-outBeam : K) : S) ≤ alignScore pth fr + a.score) →
    ∃ is q, IsOut g is q ∧ score q = alignScore pth fr + a.score ∧ labels q = labels pth ++ [-1] ∧
      is.map (fun i => ma[i]?) = js.map (fun j => Option.some ((aoff + j : Nat) : Int)) ++ [Option.some (-1)]
  /-- Every state, but perhaps the final one, can be reached. -/
  reached : ∀ x, x + 1 < g.length → ∃ is, IPath g.flatten 0 is x
  /-- A state that has no arc is the final state, the start, or is reached after 10, 30, 50, ... arcs. -/
  alive : ∀ is x, IPath g.flatten 0 is x → 0 < is.length → is.length < fr.length → is.length % 20 ≠ 10 →
    ∃ a ∈ g.flatten, a.src = x
  /-- Every arc, useful or not, is mapped to an arc of the graph with its label. -/
  origin : part = false → ∀ (i : Nat) (b : Arc S), g.flatten[i]? = Option.some b → ∃ j a,
    f.flatten[j]? = Option.some a ∧ ma[i]? = Option.some ((aoff + j : Nat) : Int) ∧ b.label = a.label

end

end Verif.Fsa.Dp
