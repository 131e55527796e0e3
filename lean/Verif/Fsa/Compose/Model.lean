import Verif.Fsa.Intersect.Model
import Verif.Fsa.Attr.Model
import Verif.Fsa.Ops.InvertTensor

/-!
# `k2.compose`

k2/python/k2/fsa_algo.py 416-499, on the CPU, for aux labels that are tensors.  `none` stands for an exception
and for a failed `K2_CHECK`.

* A transducer is a list of states, a state a list of arcs with their aux labels.  An `FsaVec` is a list of
  transducers; `flat` lays out its arcs.  A single FSA is treated as a vector with one FSA.
* Symbol tables and further attributes are not modelled here (`Attr/Model`).
-/

namespace Verif.Fsa.Comp
open Verif.Fsa Verif.Fsa.Isect Verif.Fsa.Att
variable {W : Type}

/-- The arcs of the states of a transducer with their aux labels. -/
abbrev TRows (W : Type) := List (List (Arc W × Int))

/-- The arcs without the aux labels. -/
def arcsOf {X : Type} (f : List (List (Arc W × X))) : List (List (Arc W)) := f.map (List.map Prod.fst)

/-- `invert_` for one arc of an FSA with `n` states, k2/python/k2/fsa.py 945-948 with `FixFinalLabels`,
k2/csrc/fsa_utils.cu 2746-2765.  Line 953 checks that the result is valid; labels below -1 are not. -/
def invertArc (n : Nat) (x : Arc W × Int) : Option (Arc W × Int) :=
  (fixLabel n x.1.dst x.2).bind (fun l => if l < -1 then none else some ({ x.1 with label := l }, x.1.label))

/-- `invert`, fsa.py 983-994. -/
def invertRows (f : TRows W) : Option (TRows W) := f.mapM (fun row => row.mapM (invertArc f.length))

/-- `Arc::operator<`, k2/csrc/fsa.h 56-64. -/
def arcLess (a b : Arc W) : Bool :=
  if a.label ≠ b.label then decide (u32 a.label < u32 b.label) else decide (a.dst < b.dst)

/-- `arc_sort`, fsa_algo.py 532-600: `SortSublists` sorts the arcs of each state (`sortSublists_eq`) and the
attributes follow the arc map.  If the FSA is sorted already it is returned as it is, which is the same. -/
def sortRows (f : TRows W) : TRows W := f.map (fun row => row.mergeSort (fun x y => !arcLess y.1 x.1))

/-- `b_fsa.properties & ARC_SORTED`, fsa_algo.py 474: every arc of a state and the one before it,
k2/csrc/fsa.cu 146-158. -/
def isSorted (f : List (List (Arc W))) : Bool :=
  f.all (fun row => (row.zip row.tail).all (fun x => !arcLess x.2 x.1))

/-- An attribute of one of the inputs in `fsa_from_binary_function_tensor`, k2/python/k2/utils.py 602-628, with
the filler 0: the result is assigned, for which it needs as many entries as there are arcs. -/
def gather {A : Type} (l : List A) (m : List Int) (d : A) (n : Nat) : Option (List A) := do
  let r ← indexSelect l m d
  if r.length = n then some r else none

/-- The result: its arcs, its aux labels and the attribute `inner_labels`. -/
structure Result (W : Type) where
  fsa : FsaVec W
  aux : List Int
  inner : Option (List Int)
  deriving DecidableEq

/-- The attribute of all arcs of a vector. -/
def attrOf {A : Type} (f : Arc W × Int → A) (T : List (TRows W)) : List A := T.flatten.flatten.map f

/-- Setting labels and scores of an arc. -/
def setArc (z : Arc W) (l : Int) (s : W) : Arc W := { z with label := l, score := s }

/-- The aux labels of the result: those of `b_fsa`, or the labels that were matched, fsa_algo.py 489-492. -/
def outAttr (hasAux : Bool) (aux mb matched : List Int) : Option (List Int) :=
  if hasAux then gather aux mb 0 matched.length else some matched

/-- `compose`, fsa_algo.py 416-499.  `hasAux` says that `b_fsa` has aux labels; without them those of `Tb` are
ignored.  `inner` says that `inner_labels` is given. -/
def compose [Add W] [Zero W] (eps hasAux inner : Bool) (Ta Tb : List (TRows W)) : Option (Result W) := do
  -- 470-471
  let a ← (Ta.mapM invertRows).map (fun l => l.map sortRows)
  -- 472-474
  if Tb.all (fun g => isSorted (arcsOf g)) = false then none
  else do
    -- 482-484; scores and left_labels come from fsa_from_binary_function_tensor
    let (v, ma, mb) ← intersect (flat (a.map arcsOf)) (flat (Tb.map arcsOf)) eps
    let sa ← gather (attrOf (fun x => x.1.score) a) ma 0 v.arcs.length
    let sb ← gather (attrOf (fun x => x.1.score) Tb) mb 0 v.arcs.length
    let left ← gather (attrOf Prod.snd a) ma 0 v.arcs.length
    let aux ← outAttr hasAux (attrOf Prod.snd Tb) mb (v.arcs.map Arc.label)
    -- 489-492
    if hasAux = false ∧ inner = true then none
    else
      -- 486-487 and 493-495
      some ⟨{ v with arcs := List.zipWith (fun z q => setArc z q.1 (q.2.1 + q.2.2)) v.arcs (left.zip (sa.zip sb)) },
        aux, if inner then some (v.arcs.map Arc.label) else none⟩

end Verif.Fsa.Comp
