import Verif.Ragged.UnstackModel

/-!
# `PadRagged` (`RaggedTensor.pad`)

Model of `PadRagged`, k2/csrc/ragged_ops_inl.h 797-866, called by `RaggedAny::Pad`
(k2/python/csrc/torch/v2/ragged_any.cu 626-641).  `none` stands for a failed check or a read outside an array.
-/

namespace Verif.Ragged
variable {X : Type}

/-- One entry in mode `constant`, ragged_ops_inl.h 822-838.  `cols` is `col_num`. -/
def padConstant (splits : List Nat) (vals : List X) (pv : X) (padLeft : Bool) (cols i j : Nat) : Option X := do
  let b ← splits[i]?
  let e ← splits[i + 1]?
  let len := e - b
  let extra := cols - len
  if padLeft then
    if j < extra then some pv else vals[b + j - extra]?
  else
    if len ≤ j then some pv else vals[b + j]?

/-- One entry in mode `replicate`, ragged_ops_inl.h 841-863. -/
def padReplicate (splits : List Nat) (vals : List X) (pv : X) (padLeft : Bool) (cols i j : Nat) : Option X := do
  let b ← splits[i]?
  let e ← splits[i + 1]?
  let len := e - b
  let extra := cols - len
  if len = 0 then some pv
  else if padLeft then
    if j < extra then vals[b]? else vals[b + j - extra]?
  else
    if len ≤ j then vals[e - 1]? else vals[b + j]?

/-- `PadRagged`: the rows of the array.  The shape must have two axes (line 801) and the mode must be one of two
(lines 803-811). -/
def padRagged (shape : Shape) (vals : List X) (mode : String) (pv : X) (padLeft : Bool) :
    Option (List (List X)) :=
  match shape with
  | [l] =>
    if mode = "constant" ∨ mode = "replicate" then do
      let cols ← maxSize shape 1
      (List.range (l.1.length - 1)).mapM (fun i => (List.range cols).mapM (fun j =>
        if mode = "constant" then padConstant l.1 vals pv padLeft cols i j
        else padReplicate l.1 vals pv padLeft cols i j))
    else none
  | _ => none

end Verif.Ragged
