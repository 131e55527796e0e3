import Verif.Ragged.EditModel

/-!
# `GetNew2OldAndRowIds` (k2/csrc/algorithms.h 266-362)

The renumbering of the elements of a ragged array that a predicate keeps, together with the rows of the
kept elements, computed in pieces of about `max_array_size` elements.  `none` stands for an access
outside an array or a failed check.
-/

namespace Verif.Ragged
open Verif.Util

/-- The number of pieces and the number of rows of a piece, algorithms.h 284-290. -/
def chunkPlan (maxSize numElems numRows : Nat) : Nat × Nat :=
  let numArrays := (numElems + maxSize - 1) / maxSize
  let part := (numRows + numArrays - 1) / numArrays
  if (numArrays - 1) * part ≥ numRows then (numArrays - 1, part) else (numArrays, part)

/-- One piece: `n` elements from element `e0` on, in rows from row `r0` on; `sp` is its part of the
row_splits, algorithms.h 327-345. -/
def chunkOne (sp : List Nat) (keep : Nat → Nat → Option Bool) (r0 e0 n : Nat) :
    Option (List Nat × List Nat) := do
  let b ← sp[0]?
  let ids ← rowSplitsToRowIds (sp.map (fun x => x - b)) n
  let flags ← (List.range n).mapM (fun i => do
    let r ← ids[i]?
    keep (i + e0) (r + r0))
  let n2o ← new2old flags
  let rows ← gather ids n2o
  some (n2o, rows)

/-- Where piece `i` ends, algorithms.h 320-322. -/
def chunkEnd (starts : List Nat) (numElems num i : Nat) : Option Nat :=
  if i + 1 < num then starts[i + 1]? else some numElems

/-- The loop over several pieces with `CatWithOffsets`, algorithms.h 296-361. -/
def chunksSeveral (splits : List Nat) (numElems num part : Nat) (keep : Nat → Nat → Option Bool) :
    Option (List Nat × List Nat) := do
  let starts ← (List.range num).mapM (fun i => splits[i * part]?)
  let rs ← (List.range num).mapM (fun i => do
    let e0 ← starts[i]?
    let e1 ← chunkEnd starts numElems num i
    let sp ← arangeL splits (i * part) (i * part + min (splits.length - 1 - i * part) part + 1)
    let c ← chunkOne sp keep (i * part) e0 (e1 - e0)
    some (c.1.map (fun x => x + e0), c.2.map (fun x => x + i * part)))
  some ((rs.map Prod.fst).flatten, (rs.map Prod.snd).flatten)

/-- `GetNew2OldAndRowIds`. -/
def newToOldRows (maxSize : Nat) (splits : List Nat) (numElems : Nat) (keep : Nat → Nat → Option Bool) :
    Option (List Nat × List Nat) :=
  if numElems = 0 then some ([], []) else
  match chunkPlan maxSize numElems (splits.length - 1) with
  | (num, part) =>
    if num = 1 then chunkOne splits keep 0 0 numElems
    else chunksSeveral splits numElems num part keep

end Verif.Ragged
