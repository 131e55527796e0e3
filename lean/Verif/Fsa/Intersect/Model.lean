import Verif.Fsa.Vec.Model
import Verif.Fsa.Flags.Model

/-!
# `Intersect` on the CPU

Modelled code: `k2host::Intersection` (k2/csrc/host/intersect.cc 20-200), the views and the creator
of k2/csrc/host_shim.cu 41-146, and `Intersect` (k2/csrc/fsa_algo.cu 123-218).

`none` stands for an access outside an array and for a failed `K2_CHECK`.  The hash map from pairs
of states to states is an association list.  `std::equal_range` is a linear search: on a range that
is sorted by the comparison it returns the same range as the search of the library, and on other
ranges the library's result is unspecified.  Floats are replaced by any type with an addition.
-/

namespace Verif.Fsa.Isect
open Verif.Ragged
variable {W : Type}

/-- `k2host::Fsa`, k2/csrc/host/array.h: `size1`, `indexes` and `data`. -/
structure HostFsa (W : Type) where
  size1 : Nat
  indexes : List Nat
  data : List (Arc W)

/-- `FsaVecToHostFsa`, k2/csrc/host_shim.cu 41-66: `data` is the array of all arcs, `indexes` begins
in the middle of the row_splits of the vector. -/
def hostView (v : FsaVec W) (i : Nat) : Option (HostFsa W) := do
  let b ← v.sp1[i]?
  let e ← v.sp1[i + 1]?
  let _ ← v.sp2[b]?
  let _ ← v.sp2[e]?
  some ⟨e - b, v.sp2.drop b, v.arcs⟩

/-- The arcs from `arc_begin + indexes[s]` to `arc_begin + indexes[s + 1]` with their positions,
intersect.cc 93-98 for `a`. -/
def leaving (a : HostFsa W) (s : Nat) : Option (List (Nat × Arc W)) := do
  let b ← a.indexes[s]?
  let e ← a.indexes[s + 1]?
  (List.range' b (e - b)).mapM (fun j => (a.data[j]?).map (fun x => (j, x)))

/-- What one iteration of one of the loops of intersect.cc 100-161 adds: the pair of states the new
arc enters, its label and score, and its entries of the arc maps. -/
structure Emit (W : Type) where
  next : Nat × Nat
  label : Int
  score : W
  ma : Int
  mb : Int

/-- intersect.cc 102-113: epsilon arcs of `a`; `oa` is the position of the first arc of `a`. -/
def epsA (oa sb : Nat) (la : List (Nat × Arc W)) : List (Emit W) :=
  (la.takeWhile (fun x => x.2.label == 0)).map
    (fun x => ⟨(x.2.dst, sb), 0, x.2.score, (x.1 : Int) - oa, -1⟩)

/-- intersect.cc 114-124: epsilon arcs of `b`. -/
def epsB (ob sa : Nat) (lb : List (Nat × Arc W)) : List (Emit W) :=
  (lb.takeWhile (fun x => x.2.label == 0)).map
    (fun x => ⟨(sa, x.2.dst), 0, x.2.score, -1, (x.1 : Int) - ob⟩)

/-- Where the iterators stand after the loops of intersect.cc 102-124. -/
def afterEps (l : List (Nat × Arc W)) : List (Nat × Arc W) := l.dropWhile (fun x => x.2.label == 0)

/-- `std::equal_range` with the comparison of intersect.cc 138-141. -/
def equalRange (x : Arc W) (l : List (Nat × Arc W)) : List (Nat × Arc W) :=
  (l.dropWhile (fun y => decide (u32 y.2.label < u32 x.label))).takeWhile
    (fun y => !decide (u32 x.label < u32 y.2.label))

/-- intersect.cc 143-159, for one pair of arcs (with `swapped` undone). -/
def joint [Add W] (oa ob : Nat) (x y : Nat × Arc W) : Emit W :=
  ⟨(x.2.dst, y.2.dst), x.2.label, x.2.score + y.2.score, (x.1 : Int) - oa, (y.1 : Int) - ob⟩

/-- intersect.cc 126-161: the loops run over the state with fewer arcs. -/
def pairs [Add W] (oa ob : Nat) (la lb : List (Nat × Arc W)) : List (Emit W) :=
  if la.length > lb.length then
    lb.flatMap (fun y => (equalRange y.2 la).map (fun x => joint oa ob x y))
  else
    la.flatMap (fun x => (equalRange x.2 lb).map (fun y => joint oa ob x y))

/-- Everything the loops of intersect.cc 100-161 add for one pair of states. -/
def emits [Add W] (eps : Bool) (oa ob sa sb : Nat) (la lb : List (Nat × Arc W)) : List (Emit W) :=
  if eps then epsA oa sb la ++ epsB ob sa lb ++ pairs oa ob (afterEps la) (afterEps lb)
  else pairs oa ob la lb

/-- An arc under construction: the state it enters may be the placeholder -1. -/
structure Draft (W : Type) where
  src : Int
  dst : Int
  label : Int
  score : W

/-- The local variables of `GetSizes`. -/
structure St (W : Type) where
  /-- `state_pair_map` -/
  map : List ((Nat × Nat) × Int)
  /-- `qstates` -/
  queue : List (Nat × Nat)
  /-- `state_index_c` -/
  last : Nat
  arcs : List (Draft W)
  ma : List Int
  mb : List Int
  /-- `arc_indexes_` -/
  starts : List Nat

/-- Reading the hash map. -/
def lookup (m : List ((Nat × Nat) × Int)) (p : Nat × Nat) : Option Int :=
  (m.find? (fun x => decide (x.1 = p))).map Prod.snd

/-- `InsertIntersectionState`, intersect.cc 25-36. -/
def insertState (st : St W) (p : Nat × Nat) : St W × Int :=
  match lookup st.map p with
  | some i => (st, i)
  | none =>
    ({ st with map := st.map ++ [(p, (st.last : Int) + 1)], queue := st.queue ++ [p],
               last := st.last + 1 }, (st.last : Int) + 1)

/-- Adding one arc, e.g. intersect.cc 106-112, for the current state `cur`. -/
def addArc (st : St W) (cur i : Int) (e : Emit W) : St W :=
  { st with arcs := st.arcs ++ [⟨cur, i, e.label, e.score⟩], ma := st.ma ++ [e.ma],
            mb := st.mb ++ [e.mb] }

/-- One iteration of one of the loops. -/
def emit (cur : Int) (st : St W) (e : Emit W) : St W :=
  addArc (insertState st e.next).1 cur (insertState st e.next).2 e

/-- One iteration of the loop of intersect.cc 85-162 for the pair `p` at the front of the queue. -/
def visit [Add W] (a b : HostFsa W) (eps : Bool) (st : St W) (p : Nat × Nat)
    (q : List (Nat × Nat)) : Option (St W) := do
  let oa ← a.indexes[0]?
  let ob ← b.indexes[0]?
  let cur ← lookup st.map p
  let la ← leaving a p.1
  let lb ← leaving b p.2
  some ((emits eps oa ob p.1 p.2 la lb).foldl (emit cur)
    { st with starts := st.starts ++ [st.arcs.length], queue := q })

/-- The loop of intersect.cc 85-162; `none` if the fuel does not suffice. -/
def loop [Add W] (a b : HostFsa W) (eps : Bool) : Nat → St W → Option (St W)
  | 0, _ => none
  | fuel + 1, st =>
    match st.queue with
    | [] => some st
    | p :: q => (visit a b eps st p q).bind (loop a b eps fuel)

/-- intersect.cc 79-84. -/
def startSt (fa fb : Nat) : St W :=
  ⟨[((0, 0), 0), ((fa, fb), -1)], [(0, 0)], 0, [], [], [], []⟩

/-- One output FSA with its arc maps. -/
structure Out (W : Type) where
  numStates : Nat
  /-- `c->indexes` -/
  starts : List Nat
  arcs : List (Arc W)
  ma : List Int
  mb : List Int

/-- intersect.cc 167-170 for one arc, and its copy into the output. -/
def closeArc (final : Nat) (d : Draft W) : Option (Arc W) :=
  if d.src < 0 then none
  else if d.dst = -1 then some ⟨d.src.toNat, final, d.label, d.score⟩
  else if d.dst < 0 then none
  else some ⟨d.src.toNat, d.dst.toNat, d.label, d.score⟩

/-- intersect.cc 164-176 and `GetOutput`, intersect.cc 178-200. -/
def finishOut (st : St W) : Option (Out W) := do
  let arcs ← st.arcs.mapM (closeArc (st.last + 1))
  if st.last + 1 + 2 = (st.starts ++ [st.arcs.length, st.arcs.length]).length then
    some ⟨st.last + 1 + 1, st.starts ++ [st.arcs.length, st.arcs.length], arcs, st.ma, st.mb⟩
  else none

/-- `Intersection(a, b, eps, false)` with `GetSizes` and `GetOutput`. -/
def intersectHost [Add W] (a b : HostFsa W) (eps : Bool) : Option (Out W) :=
  if a.size1 = 0 ∨ b.size1 = 0 then some ⟨0, [0], [], [], []⟩
  else if a.size1 < 2 ∨ b.size1 < 2 then none
  else (loop a b eps (a.size1 * b.size1 + 1) (startSt (a.size1 - 1) (b.size1 - 1))).bind finishOut

/-! ### Vectors of FSAs -/

/-- `GetOutput` writes `c->indexes`, which is the array `row_splits2_` from `row_splits1_[i]`,
intersect.cc 180-190. -/
def writeStarts (sp1 : List Nat) (sp2 : List (Option Nat)) (i : Nat) (starts : List Nat) :
    Option (List (Option Nat)) := do
  let b ← sp1[i]?
  if b + starts.length ≤ sp2.length then
    some (sp2.take b ++ starts.map some ++ sp2.drop (b + starts.length))
  else none

/-- `FinalizeRowSplits2`, host_shim.cu 99-122, for the FSA `i` of `n`. -/
def shiftStarts (sp1 sp12 : List Nat) (n : Nat) (sp2 : List (Option Nat)) (i : Nat) :
    Option (List (Option Nat)) := do
  let b ← sp1[i]?
  let e ← sp1[i + 1]?
  let o ← sp12[i]?
  let x ← sp2[b]?
  if x = some 0 ∨ e - b = 0 then
    some (sp2.mapIdx (fun j x =>
      if b ≤ j ∧ j < b + (if i + 1 = n then e - b + 1 else e - b) then x.map (· + o) else x))
  else none

/-- `FsaVecCreator`: the vector of the output FSAs, host_shim.cu 68-146. -/
def createVec (outs : List (Out W)) : Option (FsaVec W) := do
  if outs = [] then none
  else do
    let sp1 := psum (outs.map Out.numStates)
    let sp12 := psum (outs.map (fun o => o.arcs.length))
    let tot ← sp1[outs.length]?
    let sp2 ← (outs.zipIdx).foldlM (fun sp2 x => writeStarts sp1 sp2 x.2 x.1.starts)
      (List.replicate (tot + 1) none)
    let sp2 ← (List.range outs.length).foldlM (shiftStarts sp1 sp12 outs.length) sp2
    let sp2 ← sp2.mapM id
    let id1 ← rowSplitsToRowIds sp1 tot
    let id2 ← rowSplitsToRowIds sp2 (outs.map Out.arcs).flatten.length
    some ⟨sp1, id1, sp2, id2, (outs.map Out.arcs).flatten⟩

/-- fsa_algo.cu 202-211: the arcs of the FSA used are counted from the beginning of its vector. -/
def offsetMap (v : FsaVec W) (i : Nat) (m : List Int) : Option (List Int) := do
  let s ← v.sp1[i]?
  let o ← v.sp2[s]?
  some (m.map (fun x => if x ≠ -1 then x + o else x))

/-- fsa_algo.cu 147-156. -/
def strides (na nb : Nat) : Option (Nat × Nat) :=
  if na = nb then some (1, 1)
  else if na = 1 then some (0, 1)
  else if nb = 1 then some (1, 0)
  else none

/-- fsa_algo.cu 172-179 for one FSA. -/
def intersectAt [Add W] (va vb : FsaVec W) (eps : Bool) (ia ib : Nat) : Option (Out W) := do
  let a ← hostView va ia
  let b ← hostView vb ib
  intersectHost a b eps

/-- `Intersect`, fsa_algo.cu 123-218, with three axes and `properties` that say that both vectors are
arc-sorted: the output and the two arc maps. -/
def intersect [Add W] (va vb : FsaVec W) (eps : Bool) :
    Option (FsaVec W × List Int × List Int) := do
  let na := va.sp1.length - 1
  let nb := vb.sp1.length - 1
  if na = 0 ∨ nb = 0 then none
  else do
    let st ← strides na nb
    let outs ← (List.range (max na nb)).mapM
      (fun i => intersectAt va vb eps (i * st.1) (i * st.2))
    let v ← createVec outs
    let ma ← (outs.zipIdx).mapM (fun x => offsetMap va (x.2 * st.1) x.1.ma)
    let mb ← (outs.zipIdx).mapM (fun x => offsetMap vb (x.2 * st.2) x.1.mb)
    some (v, ma.flatten, mb.flatten)

end Verif.Fsa.Isect
