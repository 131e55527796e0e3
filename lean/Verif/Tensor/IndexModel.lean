import Verif.Tensor.Model

/-!
# `index_select`, `index_add` and `simple_ragged_index_select`

k2/python/csrc/torch/index_select.cu, index_add.cu, k2/csrc/tensor_ops.cu, k2/csrc/array_ops_inl.h and
k2/python/k2/ops.py.  Numbers are elements of any type with the operations that are needed; additions are exact.
Indexes that the code requires to be in range are not checked when it is compiled for release; the model reads at the
address that the code reads at.
-/

namespace Verif.Tensor

/-- The stride of an axis. -/
def strideAt (s : Shape) (axis : Nat) : Int := s.strides.getD axis 0

/-- The dimension of an axis. -/
def dimAt (s : Shape) (axis : Nat) : Nat := s.dims.getD axis 0

/-- `IndexSelect1D`, index_select.cu 56-91, with `Index1DImpl`, tensor_ops.cu 146-157, and `Index`, array_ops_inl.h
823-863, for `allow_minus_one`: every thread writes its own element of the result. -/
def select1 {α : Type} (src : Tensor α) (index : List Int) (dflt : α) : Option (List α) :=
  if index.length = 0 ∨ numElements src.shape.dims = 0 then some []
  else index.mapM (fun k => if k < 0 then some dflt else readAt src.data (src.offset + k * strideAt src.shape 0))

/-- `IndexSelect2D`, index_select.cu 110-133, with `IndexRows`, array_ops_inl.h 865-912, for `allow_minus_one`. -/
def select2 {α : Type} [Zero α] (src : Tensor α) (index : List Int) : Option (List (List α)) :=
  if strideAt src.shape 1 ≠ 1 then none
  else if index.length = 0 ∨ dimAt src.shape 0 = 0 then some []
  else index.mapM (fun k => (List.range (dimAt src.shape 1)).mapM (fun (j : Nat) =>
    if k < 0 then some 0 else readAt src.data (src.offset + (k * strideAt src.shape 0 + j))))

/-- `AtomicAdd`, as one step. -/
def atomicAdd {α : Type} [Add α] (data : List α) (p : Int) (x : α) : Option (List α) :=
  match readAt data p with
  | none => none
  | some y => writeAt data p (y + x)

/-- Thread `i` of `IndexAdd1DImpl`, tensor_ops.cu 311-323. -/
def addThread1 {α : Type} [Add α] (src : Tensor α) (index : List Int) (dest : Tensor α) (i : Nat) (data : List α) :
    Option (List α) :=
  match index[i]? with
  | none => none
  | some k =>
    if k ≠ -1 then
      match readAt src.data (src.offset + i * strideAt src.shape 0) with
      | none => none
      | some x => atomicAdd data (dest.offset + k * strideAt dest.shape 0) x
    else some data

/-- `IndexAdd1D`, tensor_ops.cu 367-394; the threads add in the order `order`. -/
def indexAdd1 {α : Type} [Add α] (src : Tensor α) (index : List Int) (dest : Tensor α) (order : List Nat) :
    Option (Tensor α) :=
  if dimAt src.shape 0 ≠ index.length then none
  else (order.foldlM (fun data i => addThread1 src index dest i data) dest.data).map (fun data => { dest with data := data })

/-- Thread `(i, j)` of `IndexAdd2DImpl`, tensor_ops.cu 344-355. -/
def addThread2 {α : Type} [Add α] (src : Tensor α) (index : List Int) (dest : Tensor α) (ij : Nat × Nat) (data : List α) :
    Option (List α) :=
  match index[ij.1]? with
  | none => none
  | some k =>
    if k ≠ -1 then
      match readAt src.data (src.offset + (ij.1 * strideAt src.shape 0 + ij.2 * strideAt src.shape 1)) with
      | none => none
      | some x => atomicAdd data (dest.offset + (k * strideAt dest.shape 0 + ij.2 * strideAt dest.shape 1)) x
    else some data

/-- `IndexAdd2D`, tensor_ops.cu 396-425. -/
def indexAdd2 {α : Type} [Add α] (src : Tensor α) (index : List Int) (dest : Tensor α) (order : List (Nat × Nat)) :
    Option (Tensor α) :=
  if dimAt dest.shape 1 ≠ dimAt src.shape 1 ∨ dimAt src.shape 0 ≠ index.length then none
  else (order.foldlM (fun data ij => addThread2 src index dest ij data) dest.data).map
    (fun data => { dest with data := data })

/-- A contiguous tensor with one axis. -/
def vec {α : Type} (l : List α) : Tensor α := ⟨ofDims [l.length], 0, l⟩

/-- `backward` of `_IndexSelectFunction` for one axis, ops.py 66-79. -/
def selectBackward {α : Type} [Add α] [Zero α] (src : Tensor α) (index : List Int) (outGrad : Tensor α)
    (order : List Nat) : Option (Tensor α) :=
  indexAdd1 outGrad index (vec (List.replicate (dimAt src.shape 0) 0)) order

/-- The same for two axes. -/
def selectBackward2 {α : Type} [Add α] [Zero α] (src : Tensor α) (index : List Int) (outGrad : Tensor α)
    (order : List (Nat × Nat)) : Option (Tensor α) :=
  indexAdd2 outGrad index
    ⟨ofDims [dimAt src.shape 0, dimAt src.shape 1], 0, List.replicate (dimAt src.shape 0 * dimAt src.shape 1) 0⟩ order

/-- `compose_arc_maps`, ops.py 248-276. -/
def composeArcMaps (step1 step2 : List Int) : Option (List Int) := select1 (vec step1) step2 (-1)

/-! ## `simple_ragged_index_select` -/

/-- Writes to an array, one after the other. -/
def writes {α : Type} (l : List (Nat × α)) (a : List α) : List α := l.foldl (fun a w => a.set w.1 w.2) a

/-- The values that the indexes select, tensor_ops.cu 462-465, with the checks. -/
def selected {α : Type} (src : Tensor α) (indexes : List Int) : Option (List α) :=
  indexes.mapM (fun (k : Int) => if 0 ≤ k ∧ k < dimAt src.shape 0 then readAt src.data (src.offset + k * strideAt src.shape 0)
    else none)

/-- What the threads of `lambda_set_ans_data` write to `non_zero_indexes` and to `ans`, lines 467-470, as triples of
the sub-list, the number of the thread and the value. -/
def nonZero {α : Type} [Zero α] [DecidableEq α] (values : List α) (rowIds : List Nat) : List (Nat × Nat × α) :=
  (List.range values.length).filterMap (fun i => match rowIds[i]?, values[i]? with
    | some r, some v => if v ≠ 0 then some (r, i, v) else none
    | _, _ => none)

/-- What the threads of `lambda_check_status` write to `status`, lines 477-484. -/
def badRows {α : Type} [Zero α] [DecidableEq α] (values : List α) (rowIds : List Nat) (nz : List Int) : List Nat :=
  (nonZero values rowIds).filterMap (fun w => if nz[w.1]? ≠ some (w.2.1 : Int) then some (1 + w.1) else none)

/-- `non_zero_indexes` after the first kernel, lines 458-471. -/
def nzAfter (dim0 : Nat) (l1 : List (Nat × Int)) : List Int := writes l1 (List.replicate dim0 (-1))

/-- An execution of `SimpleRaggedIndexSelect1DImpl`, tensor_ops.cu 443-500: the writes of the kernels to
`non_zero_indexes`, `ans` and `status`, which are different memory, each in some order. -/
structure SimpleRun {α : Type} [Zero α] [DecidableEq α] (values : List α) (rowIds : List Nat) (dim0 : Nat) where
  l1 : List (Nat × Int)
  l2 : List (Nat × α)
  l3 : List Nat
  h1 : l1.Perm ((nonZero values rowIds).map (fun w => (w.1, (w.2.1 : Int))))
  h2 : l2.Perm ((nonZero values rowIds).map (fun w => (w.1, w.2.2)))
  h3 : l3.Perm (badRows values rowIds (nzAfter dim0 l1))

/-- The status at the end, line 485. -/
def SimpleRun.status {α : Type} [Zero α] [DecidableEq α] {values : List α} {rowIds : List Nat} {dim0 : Nat}
    (r : SimpleRun values rowIds dim0) : Nat := r.l3.foldl (fun _ s => s) 0

/-- `ans` at the end. -/
def SimpleRun.ans {α : Type} [Zero α] [DecidableEq α] {values : List α} {rowIds : List Nat} {dim0 : Nat}
    (r : SimpleRun values rowIds dim0) : List α := writes r.l2 (List.replicate dim0 0)

end Verif.Tensor
