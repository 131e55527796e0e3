import Verif.Fsa.Flags.Model
import Verif.Ragged.LayerProps

/-!
# FSAs as tensors (k2/csrc/fsa.cu 235-498)

An array of `int32_t` is a list of integers; the score of an arc is one of them (its bits).  `none`
stands for the error flag, a failed check or an access outside an array; these are not told apart.
Not modelled: the data type and the number of axes of the tensor, `ToContiguous`, and integers that wrap
around.
-/

namespace Verif.Fsa.Ten
open Verif.Ragged

/-- The four integers of an arc (`Array2<int32_t> arcs_as_ints`, fsa.cu 349, and `arcs_linearized`, 479). -/
def arcInts (a : RArc Int) : List Int := [a.src, a.dst, a.label, a.score]

/-- `Array1<Arc>` on the memory of integers whose number is divisible by four, fsa.cu 407-417. -/
def intsArcs : List Int → Option (List (RArc Int))
  | [] => some []
  | s :: d :: l :: w :: rest => do
    let as ← intsArcs rest
    some (⟨s, d, l, w⟩ :: as)
  | _ => none

/-- An `FsaVec` whose arcs may hold any integers. -/
structure RawVec where
  sp1 : List Nat
  id1 : List Nat
  sp2 : List Nat
  id2 : List Nat
  arcs : List (RArc Int)
  deriving DecidableEq

/-- The layout of a list of FSAs. -/
def rawFlat (T : List (List (List (RArc Int)))) : RawVec :=
  ⟨psum (T.map List.length), idsFrom 0 (T.map List.length), psum (T.flatten.map List.length),
    idsFrom 0 (T.flatten.map List.length), T.flatten.flatten⟩

/-! ## `FsaVecToTensor` -/

/-- Indexes as integers. -/
def ints (l : List Nat) : List Int := l.map (fun x : Nat => (x : Int))

/-- `Cat` of the four arrays, fsa.cu 470-473 and 494-497. -/
def slowInts (v : RawVec) (sp12 : List Nat) : List Int :=
  [((v.sp1.length - 1 : Nat) : Int), 0] ++ ints v.sp1 ++ ints sp12 ++
    (v.arcs.map arcInts).flatten

/-- An `FsaVec` in memory: the region of its arcs (as integers), where in it they begin, and where in its
own region row_splits1 begins (in units of an `int32_t`). -/
structure Stored where
  v : RawVec
  region : List Int
  arcsOff : Nat
  sp1Off : Nat

/-- The test whether the FSAs were read from a tensor, fsa.cu 482-488. -/
def Stored.wasTensor (s : Stored) (sp12 : List Nat) : Bool :=
  decide (s.arcsOff = 2 + s.v.sp1.length * 2 ∧ s.sp1Off = 2 ∧
    s.region.take 2 = [((s.v.sp1.length - 1 : Nat) : Int), 0] ∧
    (s.region.drop (2 + s.v.sp1.length)).take s.v.sp1.length = ints sp12)

/-- `FsaVecToTensor`, fsa.cu 465-498. -/
def toTensor (s : Stored) : Option (List Int) := do
  let sp12 ← gather s.v.sp2 s.v.sp1
  if s.wasTensor sp12 then some (s.region.take (2 + s.v.sp1.length * 2 + s.v.arcs.length * 4))
  else some (slowInts s.v sp12)

/-- An `FsaVec` whose arcs have a region of their own. -/
def fresh (v : RawVec) : Stored := ⟨v, (v.arcs.map arcInts).flatten, 0, 0⟩

/-! ## `FsaVecFromTensor` -/

/-- Integers that must not be negative. -/
def nats (l : List Int) : Option (List Nat) := l.mapM (fun x => if x < 0 then none else some x.toNat)

/-- `ValidateRowSplits` on a part of the tensor, fsa.cu 425.  It rejects negative integers, as they are
either first or follow a larger one. -/
def splitsOf (l : List Int) : Option (List Nat) := do
  let rs ← nats l
  if validRowSplits rs = true then some rs else none

/-- `lambda_make_row_ids2`, fsa.cu 440-449.  A negative index makes `ValidateRowSplitsAndIds` fail
(array_ops.cu 231) if `RowIdsToRowSplits` has not failed already. -/
def rowId2 (sp1 id12 : List Nat) (arcs : List (RArc Int)) (i : Nat) : Option Nat := do
  let r ← id12[i]?
  let x ← sp1[r]?
  let a ← arcs[i]?
  if (x : Int) + a.src < 0 then none else some ((x : Int) + a.src).toNat

/-- `RowIdsToRowSplits` on arrays, k2/csrc/array_ops.cu 283-294. -/
def idsToSplits (ids : List Nat) (numRows : Nat) : Option (List Nat) :=
  match ids.getLast? with
  | none => rowIdsToRowSplits ids numRows
  | some x => if x < numRows then rowIdsToRowSplits ids numRows else none

/-- The body of `lambda_check_row_ids`, k2/csrc/array_ops.cu 250-267: `true` unless it sets the flag. -/
def checkAt (sp ids : List Nat) (i : Nat) : Bool :=
  (match sp[i]?, sp[i + 1]? with
    | some x, some y => decide (x ≤ y)
    | _, _ => true) &&
  (match ids[i]?, ids[i + 1]? with
    | some x, some y => decide (x ≤ y)
    | _, _ => true) &&
  (match ids[i]? with
    | none => true
    | some r => match sp[r]?, sp[r + 1]? with
      | some b, some e => decide (b ≤ i ∧ i < e)
      | _, _ => false)

/-- `ValidateRowSplitsAndIds`, k2/csrc/array_ops.cu 223-269. -/
def validSplitsAndIds (sp ids : List Nat) : Bool :=
  decide (sp ≠ []) && decide (sp[0]? = some 0) && decide (sp[sp.length - 1]? = some ids.length) &&
    (List.range (max ids.length (sp.length - 1))).all (checkAt sp ids)

/-- fsa.cu 432-462. -/
def finish (n : Nat) (sp1 sp12 : List Nat) (arcs : List (RArc Int)) : Option RawVec := do
  let numStates ← sp1[n]?
  let id1 ← rowSplitsToRowIds sp1 numStates
  let id12 ← rowSplitsToRowIds sp12 arcs.length
  let id2 ← (List.range arcs.length).mapM (rowId2 sp1 id12 arcs)
  let sp2 ← idsToSplits id2 numStates
  if validSplitsAndIds sp2 id2 = true then some ⟨sp1, id1, sp2, id2, arcs⟩ else none

/-- fsa.cu 403-431. -/
def decode (n : Nat) (t : List Int) : Option RawVec := do
  let arcs ← intsArcs (t.drop (2 + (n + 1) * 2))
  let sp1 ← splitsOf ((t.drop 2).take (n + 1))
  let sp12 ← splitsOf ((t.drop (2 + (n + 1))).take (n + 1))
  if sp12[n]? = some arcs.length then finish n sp1 sp12 arcs else none

/-- `FsaVecFromTensor`, fsa.cu 373-463. -/
def fromTensor (t : List Int) : Option RawVec := do
  let n ← t[0]?
  if n < 0 ∨ (t.length : Int) < 2 + (n + 1) * 2 then none else decode n.toNat t

/-- The result of `FsaVecFromTensor` in memory: its arcs and row_splits1 are parts of the tensor. -/
def readBack (t : List Int) : Option Stored := do
  let v ← fromTensor t
  some ⟨v, t, 2 + v.sp1.length * 2, 2⟩

/-! ## `FsaToTensor` and `FsaFromTensor` -/

/-- `FsaToTensor`, fsa.cu 346-352: a matrix with four columns. -/
def oneToTensor (f : List (List (RArc Int))) : List (List Int) := f.flatten.map arcInts

/-- A row of the matrix as an arc. -/
def rowArc : List Int → Option (RArc Int)
  | [s, d, l, w] => some ⟨s, d, l, w⟩
  | _ => none

/-- `lambda_misc`, fsa.cu 272-283, on the CPU: the final state so far and the error flag. -/
def finalLoop : List (RArc Int) → Int × Bool → Int × Bool
  | [], st => st
  | a :: as, st =>
    if a.label = -1 then finalLoop as (a.dst, st.2 || decide (0 ≤ st.1 ∧ st.1 ≠ a.dst))
    else finalLoop as st

/-- `ValidateRowIds`, k2/csrc/array_ops.cu 164-192, of the source states. -/
def srcIds (arcs : List (RArc Int)) : Option (List Nat) := do
  let ids ← nats (arcs.map RArc.src)
  if (ids.zip ids.tail).all (fun p => decide (p.1 ≤ p.2)) = true then some ids else none

/-- The row_splits and row_ids of a single FSA, and its arcs. -/
structure RawFsa where
  sp : List Nat
  ids : List Nat
  arcs : List (RArc Int)
  deriving DecidableEq

/-- The layout of one FSA. -/
def rawOne (f : List (List (RArc Int))) : RawFsa :=
  ⟨psum (f.map List.length), idsFrom 0 (f.map List.length), f.flatten⟩

/-- `GetFsaBasicProperties`, fsa.cu 226-234: `Unsqueeze` adds an axis with one row. -/
def oneProperties (f : RawFsa) : Option Flags := do
  let l ← fsaVecProperties [0, f.sp.length - 1] (List.replicate (f.sp.length - 1) 0) f.sp f.ids f.arcs
  some (totProperties l)

/-- fsa.cu 318-344, where `final` is the final state. -/
def build (arcs : List (RArc Int)) (final : Nat) : Option RawFsa := do
  let ids ← srcIds arcs
  let sp ← rowIdsToRowSplits ids (final + 1)
  let p ← oneProperties ⟨sp, ids, arcs⟩
  if p.valid = true ∧ p.nonempty = true then some ⟨sp, ids, arcs⟩ else none

/-- `FsaFromArray1` with `final_state` -1 (the only case that the tensor functions use), fsa.cu 236-344.
A row of row_splits past `final_state` is written outside the array: `none`. -/
def fromArcs (arcs : List (RArc Int)) : Option RawFsa :=
  if arcs = [] then none
  else if (finalLoop arcs (-1, false)).2 = true then none
  else if (finalLoop arcs (-1, false)).1 ≤ 0 then none
  else build arcs (finalLoop arcs (-1, false)).1.toNat

/-- `FsaFromTensor`, fsa.cu 354-371. -/
def oneFromTensor (t : List (List Int)) : Option RawFsa := do
  let arcs ← t.mapM rowArc
  fromArcs arcs

end Verif.Fsa.Ten
