import Verif.Ragged.AxisModel

/-!
# `GetFsaVecBasicProperties` (k2/csrc/fsa.cu 54-218)

The property bits of an FSA (k2/csrc/fsa.h 68-103) are a record of booleans.  Arcs are *raw*: the
three integers of an arc may be any integers (in the code, any `int32_t`), as nothing is known about
them before the properties have been computed.  `none` stands for an access outside an array.
-/

namespace Verif.Fsa
open Verif.Ragged

/-- `struct Arc`, k2/csrc/fsa.h 30-36, with arbitrary integers. -/
structure RArc (W : Type) where
  src : Int
  dst : Int
  label : Int
  score : W
  deriving DecidableEq, Repr

variable {W : Type}

/-- `enum FsaBasicProperties`, k2/csrc/fsa.h 74-103, one field per bit. -/
structure Flags where
  valid : Bool
  nonempty : Bool
  topSorted : Bool
  acyclic : Bool
  arcSorted : Bool
  deterministic : Bool
  epsilonFree : Bool
  accessible : Bool
  coaccessible : Bool
  deriving DecidableEq, Repr

/-- `kFsaAllProperties`. -/
def Flags.all : Flags := ⟨true, true, true, true, true, true, true, true, true⟩

/-- `&` on property bits. -/
def Flags.and (a b : Flags) : Flags :=
  ⟨a.valid && b.valid, a.nonempty && b.nonempty, a.topSorted && b.topSorted, a.acyclic && b.acyclic,
    a.arcSorted && b.arcSorted, a.deterministic && b.deterministic, a.epsilonFree && b.epsilonFree,
    a.accessible && b.accessible, a.coaccessible && b.coaccessible⟩

/-- `static_cast<uint32_t>(label)`. -/
def u32 (x : Int) : Int := x % 4294967296

/-- The index variables of `lambda_get_properties`, fsa.cu 104-109. -/
structure ArcIdx where
  idx2 : Nat
  idx01 : Nat
  idx1 : Nat
  idx0x : Nat
  idx0xNext : Nat
  idx0xx : Nat

/-- fsa.cu 104-110. -/
def arcIdx (sp1 id1 sp2 id2 : List Nat) (i : Nat) : Option ArcIdx := do
  let idx01 ← id2[i]?
  let idx01x ← sp2[idx01]?
  let idx0 ← id1[idx01]?
  let idx0x ← sp1[idx0]?
  let idx0xNext ← sp1[idx0 + 1]?
  let idx0xx ← sp2[idx0x]?
  some ⟨i - idx01x, idx01, idx01 - idx0x, idx0x, idx0xNext, idx0xx⟩

/-- `this_fsa_num_states`, fsa.cu 110. -/
def ArcIdx.n (x : ArcIdx) : Int := (x.idx0xNext : Int) - x.idx0x

/-- `~neg_property` of `lambda_get_properties`, fsa.cu 111-158, where `idx1` is the state the arc
leaves, `n` the number of states of the FSA and `prev` the previous arc if it leaves the same state
(`idx2 != 0`). -/
def arcFlags (n : Int) (idx1 : Nat) (prev : Option (RArc W)) (a : RArc W) : Flags where
  valid := !(decide (a.src ≠ idx1) || decide (a.label < 0 ∧ a.label ≠ -1) ||
    decide (a.label = -1 ∧ a.dst ≠ n - 1) || decide (a.label ≠ -1 ∧ a.dst = n - 1) ||
    decide (a.dst < 0 ∨ n ≤ a.dst))
  nonempty := true
  topSorted := !decide (a.dst < a.src)
  acyclic := !decide (a.dst ≤ a.src)
  arcSorted := match prev with
    | none => true
    | some b => !(decide (u32 a.label < u32 b.label) || decide (a.label = b.label ∧ a.dst < b.dst))
  deterministic := match prev with
    | none => true
    | some b => !decide (u32 a.label ≤ u32 b.label)
  epsilonFree := !decide (a.label = 0)
  accessible := true
  coaccessible := true

/-- The positions of `reachable` that the kernel sets for an arc, fsa.cu 132-141. -/
def reachWrites (x : ArcIdx) (i : Nat) (a : RArc W) : List Nat :=
  (if a.dst < 0 ∨ x.n ≤ a.dst then [] else if a.dst ≠ a.src then [x.idx0x + a.dst.toNat] else []) ++
    (if x.idx0xx = i then [x.idx0x] else [])

/-- The positions of `co_reachable` that the kernel sets for an arc, fsa.cu 137-147. -/
def coreachWrites (x : ArcIdx) (i : Nat) (a : RArc W) : List Nat :=
  (if x.idx0xx = i then [x.idx0xNext - 1] else []) ++ (if a.dst ≠ a.src then [x.idx01] else [])

/-- `AndPerSublist` (k2/csrc/ragged_ops_inl.h) with the given initial value. -/
def andPerSublist {α : Type} (op : α → α → α) (init : α) (splits : List Nat) (vals : List α) :
    Option (List α) :=
  (List.range (splits.length - 1)).mapM (fun r => do
    let b ← splits[r]?
    let e ← splits[r + 1]?
    if vals.length < e then none
    else some (((vals.drop b).take (e - b)).foldl op init))

/-- `lambda_finalize_properties`, fsa.cu 199-210. -/
def finalizeFlags (p : Flags) (reach coreach noArcs : Bool) : Flags :=
  { p with accessible := p.accessible && reach, coaccessible := p.coaccessible && coreach,
           nonempty := p.nonempty && !noArcs }

/-- A kernel over the arcs. -/
def arcKernel {α : Type} (idxs : List ArcIdx) (arcs : List (RArc W))
    (w : ArcIdx → Nat → RArc W → α) : Option (List α) :=
  (List.range arcs.length).mapM (fun i => do
    let a ← arcs[i]?
    let x ← idxs[i]?
    some (w x i a))

/-- The reductions over the arcs and the states of each FSA and `lambda_finalize_properties`, fsa.cu
162-210. -/
def finishProperties (sp1 sp12 : List Nat) (props : List Flags) (reachable coReachable : List Bool) :
    Option (List Flags) := do
  let perFsa ← andPerSublist Flags.and Flags.all sp12 props
  let reach ← andPerSublist (· && ·) true sp1 reachable
  let coreach ← andPerSublist (· && ·) true sp1 coReachable
  (List.range (sp1.length - 1)).mapM (fun i => do
    let p ← perFsa[i]?
    let r ← reach[i]?
    let c ← coreach[i]?
    let b ← sp12[i]?
    let e ← sp12[i + 1]?
    some (finalizeFlags p r c (decide (b = e))))

/-- An array of `n` zeros after the kernels have written 1 at the given positions. -/
def marks (n : Nat) (writes : List Nat) : List Bool := (List.range n).map (fun g => writes.contains g)

/-- `GetFsaVecBasicProperties`: the properties of each FSA, fsa.cu 54-218.  The kernels that set
`reachable` and `co_reachable` only ever write 1, so the order in which they run does not matter. -/
def fsaVecProperties (sp1 id1 sp2 id2 : List Nat) (arcs : List (RArc W)) : Option (List Flags) := do
  let idxs ← (List.range arcs.length).mapM (arcIdx sp1 id1 sp2 id2)
  let props ← arcKernel idxs arcs (fun x i a =>
    arcFlags x.n x.idx1 (if x.idx2 ≠ 0 then arcs[i - 1]? else none) a)
  let reachW ← arcKernel idxs arcs reachWrites
  let coreachW ← arcKernel idxs arcs coreachWrites
  let sp12 ← gather sp2 sp1
  finishProperties sp1 sp12 props (marks id1.length reachW.flatten) (marks id1.length coreachW.flatten)

/-- `tot_properties_out`, fsa.cu 212-214. -/
def totProperties (l : List Flags) : Flags := l.foldl Flags.and Flags.all

end Verif.Fsa
