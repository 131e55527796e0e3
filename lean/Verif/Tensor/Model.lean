/-!
# `Shape` and `Tensor` (k2/csrc/tensor.h, tensor.cu) and copying (k2/csrc/tensor_ops.cu)

A tensor is a view of a region of memory: dimensions, strides and the offset of the first element.  Offsets and
sizes are counted in elements instead of bytes (all elements of a tensor have the same size), and numbers are
unbounded.  A region is the list of its elements.  The `is_contiguous_` of a shape is a member of its own, as in
the code: `SetStride` does not change it.
-/

namespace Verif.Tensor

structure Shape where
  dims : List Nat
  strides : List Int
  contig : Bool
  deriving DecidableEq

/-- The strides that the constructor computes from dims, tensor.cu 41-45. -/
def mkStrides : List Nat → List Int
  | [] => []
  | [_] => [1]
  | _ :: d :: ds => match mkStrides (d :: ds) with
    | [] => []
    | s :: ss => s * d :: s :: ss

/-- `Shape(dims)`, tensor.cu 34-49. -/
def ofDims (dims : List Nat) : Shape := ⟨dims, mkStrides dims, true⟩

/-- `ComputeNumElements`, tensor.cu 62-70. -/
def numElements (dims : List Nat) : Nat := dims.foldl (· * ·) 1

/-- The loop of `ComputeIsContiguous` from the last axis, tensor.cu 99-108; the value is `none` after
`return false`, and else `z`. -/
def contigLoop : List Nat → List Int → Option Int
  | d :: ds, s :: ss =>
    match contigLoop ds ss with
    | none => none
    | some z => if d ≠ 1 then (if s ≠ z then none else some (z * d)) else some z
  | _, _ => some 1

def isContig (dims : List Nat) (strides : List Int) : Bool := (contigLoop dims strides).isSome

/-- `Shape(dims, strides)`, tensor.cu 51-60. -/
def ofStrides (dims : List Nat) (strides : List Int) : Shape := ⟨dims, strides, isContig dims strides⟩

/-- `GetReachableElems`, tensor.cu 72-90. -/
def reachLoop : List Nat → List Int → Int → Int → Int × Int
  | d :: ds, s :: ss, b, e =>
    if d = 0 then (0, 0)
    else if s > 0 then reachLoop ds ss b (e + ((d : Int) - 1) * s)
    else reachLoop ds ss (b + ((d : Int) - 1) * s) e
  | _, _, b, e => (b, e)

def reach (s : Shape) : Int × Int := reachLoop s.dims s.strides 0 1

/-- `SetStride`, tensor.cu 110-114: the value of `ComputeIsContiguous` is not used. -/
def setStride (s : Shape) (axis : Nat) (stride : Int) : Option Shape :=
  if axis < s.dims.length then some { s with strides := s.strides.set axis stride } else none

structure Tensor (α : Type) where
  shape : Shape
  offset : Int
  data : List α
  deriving DecidableEq

/-- The offset and the size of the new region in `Init`, tensor.cu 187-195. -/
def initSize (s : Shape) : Int × Int := (-(reach s).1, -(reach s).1 + (reach s).2)

/-- `Tensor(c, type, shape)`, tensor.cu 135-147; `mem` is what is in the new memory. -/
def create {α : Type} (s : Shape) (mem : List α) : Tensor α := ⟨s, (initSize s).1, mem⟩

/-- `Tensor(type, shape, region, byte_offset)` with its checks, tensor.cu 149-170. -/
def ofRegion {α : Type} (s : Shape) (data : List α) (offset : Int) : Option (Tensor α) :=
  if 0 ≤ offset + (reach s).1 ∧ offset + (reach s).2 ≤ data.length then some ⟨s, offset, data⟩ else none

/-- `Tensor::Index`, tensor.cu 172-185 (`axis` is not negative here). -/
def index {α : Type} (t : Tensor α) (axis : Nat) (i : Int) : Option (Tensor α) :=
  match t.shape.dims[axis]?, t.shape.strides[axis]? with
  | some d, some s =>
    if i < d then
      ofRegion (ofStrides (t.shape.dims.eraseIdx axis) (t.shape.strides.eraseIdx axis)) t.data (t.offset + i * s)
    else none
  | _, _ => none

/-- `Flip`, tensor_ops.cu 523-538; `axis` is not negative here. -/
def flip {α : Type} (t : Tensor α) (axis : Nat) : Option (Tensor α) :=
  match t.shape.dims[axis]?, t.shape.strides[axis]? with
  | some d, some s =>
    if d ≤ 1 then some t
    else match setStride t.shape axis (-s) with
      | none => none
      | some sh => some ⟨sh, t.offset + s * ((d : Int) - 1), t.data⟩
  | _, _ => none

/-! ## Copying -/

/-- The assignments of `CopyTensorElements`, as pairs of the position of the destination and the position of the
source, tensor_ops.cu 22-97: more than two axes are copied part by part (`Index`), two by two loops, one by one
loop, and without axes there is one element.  (The checks of the tensors that `Index` makes on the way are those of
`index`, which pass when there are elements.) -/
def copyPairs : List Nat → List Int → List Int → Int → Int → List (Int × Int)
  | [], _, _, d, s => [(d, s)]
  | [n], [ds], [ss], d, s => (List.range n).map (fun (i : Nat) => (d + i * ds, s + i * ss))
  | [n, m], [ds, ds'], [ss, ss'], d, s =>
    (List.range n).flatMap (fun (i : Nat) => (List.range m).map (fun (j : Nat) => (d + (i * ds + j * ds'), s + (i * ss + j * ss'))))
  | n :: dims, ds :: dst, ss :: src, d, s =>
    (List.range n).flatMap (fun (i : Nat) => copyPairs dims dst src (d + i * ds) (s + i * ss))
  | _, _, _, _, _ => []

/-- The element at a position of a region; `none` outside. -/
def readAt {α : Type} (data : List α) (p : Int) : Option α := if 0 ≤ p then data[p.toNat]? else none

/-- Writing to a region; `none` outside. -/
def writeAt {α : Type} (data : List α) (p : Int) (x : α) : Option (List α) :=
  if 0 ≤ p ∧ p < data.length then some (data.set p.toNat x) else none

/-- The assignments in an order; `conv` is the cast of an element. -/
def assign {α β : Type} (conv : α → β) (src : List α) : List (Int × Int) → List β → Option (List β)
  | [], dst => some dst
  | (d, s) :: l, dst => do
    let x ← readAt src s
    let dst ← writeAt dst d (conv x)
    assign conv src l dst

/-- `ToContiguous`, tensor_ops.cu 99-105.  `mem` is what is in the new memory; the assignments, which are done by
loops on the CPU and by threads on the GPU, happen in the order `l`. -/
def toContiguous {α : Type} (t : Tensor α) (mem : List α) (l : List (Int × Int)) : Option (Tensor α) :=
  let ans := create (ofDims t.shape.dims) mem
  match assign id t.data l ans.data with
  | none => none
  | some data => some { ans with data := data }

/-- The assignments of `ToContiguous`. -/
def contigPairs {α : Type} (t : Tensor α) : List (Int × Int) :=
  copyPairs t.shape.dims (mkStrides t.shape.dims) t.shape.strides (initSize (ofDims t.shape.dims)).1 t.offset

/-- `Cast` of a tensor whose `IsContiguous()` is true, tensor_ops.cu 120-131. -/
def castContig {α β : Type} (conv : α → β) (t : Tensor α) (mem : List β) (l : List (Int × Int)) : Option (Tensor β) :=
  let ans := create t.shape mem
  match assign conv t.data l ans.data with
  | none => none
  | some data => some { ans with data := data }

/-- The assignments of `CastTensorElements1dContiguous`, tensor_ops.cu 107-114. -/
def castPairs {α : Type} (t : Tensor α) : List (Int × Int) :=
  (List.range (numElements t.shape.dims)).map (fun (i : Nat) => ((initSize t.shape).1 + (i : Int), t.offset + (i : Int)))

/-- `Clone` and `To` (to another context) of a tensor whose `IsContiguous()` is true, tensor.cu 219-227 and
205-212: the whole region is copied, and the offset of the copy is zero. -/
def cloneContig {α : Type} (t : Tensor α) : Tensor α := ⟨t.shape, 0, t.data⟩

/-- `Clone`, tensor.cu 215-228. -/
def clone {α : Type} (t : Tensor α) (mem : List α) (l : List (Int × Int)) : Option (Tensor α) :=
  if t.shape.contig then some (cloneContig t) else toContiguous t mem l

/-- `To` with another context, tensor.cu 199-213. -/
def toCtx {α : Type} (t : Tensor α) (mem : List α) (l : List (Int × Int)) : Option (Tensor α) :=
  if t.shape.contig then some (cloneContig t) else (toContiguous t mem l).map cloneContig

/-- `Cast`, tensor_ops.cu 116-132. -/
def cast {α β : Type} (conv : α → β) (t : Tensor α) (mem : List α) (l : List (Int × Int)) (mem' : List β)
    (l' : List (Int × Int)) : Option (Tensor β) :=
  if t.shape.contig then castContig conv t mem' l'
  else match toContiguous t mem l with
    | none => none
    | some u => castContig conv u mem' l'

end Verif.Tensor
