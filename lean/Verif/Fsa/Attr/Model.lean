import Verif.Fsa.Cache.Model
import Mathlib.Algebra.Group.Defs

/-!
# Attributes of the result of an operation

Modelled code: `k2/python/k2/utils.py` 250-308 (`create_fsa_vec`), 427-465
(`fsa_from_unary_function_tensor`), 468-549 (`fsa_from_unary_function_ragged`), 552-641
(`fsa_from_binary_function_tensor`); `k2/python/k2/fsa.py` 318-340 (`get_filler`), 382-430
(`__setattr__`), 494-500 (`__getattr__`), 1188-1215 (`named_tensor_attr`, `named_non_tensor_attr`);
`k2/python/csrc/torch/index_select.cu` 55-184; `k2/python/csrc/torch/v2/ragged_any.cu` 711-779 and
`autograd/index_and_sum.h` 51-82.

* A raised exception and a failed `K2_CHECK` are `none`, as is reading out of bounds.
* A ragged tensor is a list of lists (two axes).
* Devices and autograd are left out: the calls of `phantom_*` do not change values.
* `Fsa(dest_arcs)`, which may refuse arcs that are no FSA, is not part of the functions: they start
  from the new object (`newObj`).
-/

namespace Verif.Fsa.Att
open Verif.Fsa.Cac (Dict get put)

/-- Python numbers. -/
inductive Num (S : Type) where
  | int (z : Int)
  | flt (x : S)
  deriving DecidableEq

/-- Attribute values: tensors with one axis (the flag says 64 bits instead of 32) or two axes (with the
number of columns), ragged tensors, and the rest (`other 0` is `None`). -/
inductive Val (S : Type) where
  | int (wide : Bool) (l : List Int)
  | flt (wide : Bool) (l : List S)
  | int2 (wide : Bool) (cols : Nat) (l : List (List Int))
  | flt2 (wide : Bool) (cols : Nat) (l : List (List S))
  | ragged (l : List (List Int))
  | num (x : Num S)
  | other (x : Nat)
  deriving DecidableEq

/-- Conversions of floating-point numbers. -/
structure Cast (S : Type) where
  /-- `float(z)` -/
  ofInt : Int → S
  /-- `static_cast<int>(x)` if that is the same number -/
  toInt : S → Option Int
  /-- rounding to 32 bits (`false`) or not (`true`) -/
  round : Bool → S → S

/-- An `Fsa`: labels and scores of its arcs and its attributes. -/
structure Obj (S : Type) where
  labels : List Int
  scores : List S
  tensor : Dict (Val S)
  non : Dict (Val S)
  deriving DecidableEq

variable {S : Type}

/-- `Fsa(arcs)`, fsa.py 155-240, as far as attributes are concerned. -/
def newObj (labels : List Int) (scores : List S) : Obj S :=
  ⟨labels, scores, [("scores", .flt false scores), ("labels", .int false labels)],
    [("labels_version", .num (.int 0))]⟩

/-- `value.shape[0]` and `value.dim0` of tensors. -/
def Val.rows : Val S → Option Nat
  | .int _ l => some l.length
  | .flt _ l => some l.length
  | .int2 _ _ l => some l.length
  | .flt2 _ _ l => some l.length
  | .ragged l => some l.length
  | _ => none

/-- Names that `__setattr__` refuses, fsa.py 394-395. -/
def refused (name : String) : Bool :=
  ["_tensor_attr", "_non_tensor_attr", "arcs", "_cache", "_properties", "properties"].contains name

/-- A tensor with one axis of type `float32`. -/
def asF32 : Val S → Option (List S)
  | .flt false l => some l
  | _ => none

/-- fsa.py 414-423 and 424-429; a tensor `labels` (401-413) is not assigned by the functions here. -/
def storeTensor (o : Obj S) (name : String) (v : Val S) : Option (Obj S) :=
  if name = "labels" then none
  else if name = "scores" then
    (asF32 v).map fun l => { o with scores := l, tensor := put o.tensor name v }
  else some { o with tensor := put o.tensor name v }

/-- `__setattr__`, fsa.py 382-430. -/
def setAttr (o : Obj S) (name : String) (v : Val S) : Option (Obj S) :=
  if refused name then none
  else
    match v.rows with
    | none => some { o with non := put o.non name v }
    | some n => if n = o.labels.length then storeTensor o name v else none

/-- `__getattr__`, fsa.py 494-497; cached values have other names. -/
def getAttr (o : Obj S) (name : String) : Option (Val S) := (get o.tensor name).or (get o.non name)

/-- fsa.py 1188-1206, with and without scores. -/
def namedTensor (scores : Bool) (o : Obj S) : Dict (Val S) :=
  o.tensor.filter fun x => x.1 != "labels" && (scores || x.1 != "scores")

/-- fsa.py 1208-1215. -/
def namedNon (o : Obj S) : Dict (Val S) := o.non.filter fun x => x.1 != "labels_version"

/-- Is it the number 0? -/
def Num.isZero (c : Cast S) : Num S → Bool
  | .int z => z == 0
  | .flt x => c.toInt x == some 0

/-- `get_filler`, fsa.py 318-340.  The filler has to be a number. -/
def getFiller (c : Cast S) (o : Obj S) (name : String) : Option (Num S) :=
  match getAttr o (name ++ "_filler") with
  | none => some (.int 0)
  | some (.num x) => if name = "aux_labels" ∧ x.isZero c = false then none else some x
  | some _ => none

/-- `float(x)` -/
def Num.toFloat (c : Cast S) : Num S → S
  | .int z => c.ofInt z
  | .flt x => x

/-! ## Indexing -/

/-- `Index` with `allow_minus_one`, k2/csrc/array_ops_inl.h. -/
def pickAll {α : Type} (l : List α) (idx : List Int) (dflt : α) : Option (List α) :=
  idx.mapM fun i => if i = -1 then some dflt else if 0 ≤ i then l[i.toNat]? else none

/-- `IndexSelect1D` and `IndexSelect2D`, index_select.cu 55-132: an empty source gives an empty result. -/
def indexSelect {α : Type} (l : List α) (idx : List Int) (dflt : α) : Option (List α) :=
  if idx.length = 0 ∨ l.length = 0 then some [] else pickAll l idx dflt

/-! ## Unary functions with one source arc per arc -/

/-- The new value of an attribute, utils.py 446-459; `index_select` with the conversion of the filler is
index_select.cu 134-184. -/
def mapAttr (c : Cast S) (src : Obj S) (arcMap : List Int) (name : String) : Val S → Option (Val S)
  | .int w l => do
    let f ← getFiller c src name
    let z ← c.toInt (f.toFloat c)
    let l' ← indexSelect l arcMap z
    some (.int w l')
  | .flt w l => do
    let f ← getFiller c src name
    let l' ← indexSelect l arcMap (c.round w (f.toFloat c))
    some (.flt w l')
  | .int2 w k l => do
    let _ ← getFiller c src name
    let l' ← indexSelect l arcMap (List.replicate k 0)
    some (.int2 w k l')
  | .flt2 w k l => do
    let _ ← getFiller c src name
    let l' ← indexSelect l arcMap (List.replicate k (c.ofInt 0))
    some (.flt2 w k l')
  | .ragged l => do
    let l' ← pickAll l arcMap []
    some (.ragged l')
  | _ => none

/-- `for name, value in l: setattr(dest, name, f(name, value))`. -/
def setAll (f : String → Val S → Option (Val S)) (dest : Obj S) (l : Dict (Val S)) : Option (Obj S) :=
  l.foldlM (fun d x => do
    let v ← f x.1 x.2
    setAttr d x.1 v) dest

/-- `fsa_from_unary_function_tensor`, utils.py 444-465. -/
def unaryTensor (c : Cast S) (src dest : Obj S) (arcMap : List Int) : Option (Obj S) := do
  let d ← setAll (mapAttr c src arcMap) dest (namedTensor false src)
  setAll (fun _ v => some v) d (namedNon src)

/-! ## Unary functions with a list of source arcs per arc -/

/-- utils.py 509-521. -/
def hideFinal (labels : List Int) (filler : Int) (l : List Int) : List Int :=
  if filler = -1 then l
  else List.zipWith (fun lab v => if lab = -1 ∧ v = -1 then filler else v) labels l

/-- A filler that is a python `int`: `default_value.cast<int32_t>()`. -/
def Num.asInt : Num S → Option Int
  | .int z => some z
  | .flt _ => none

/-- The new value of an attribute, utils.py 502-544. -/
def mapAttrRagged [AddMonoid S] (c : Cast S) (src : Obj S) (arcMap : List (List Int)) (removeFiller : Bool)
    (name : String) : Val S → Option (Val S)
  | .int false l =>
    if removeFiller then do
      let f ← getFiller c src name
      let z ← f.asInt
      let r ← arcMap.mapM fun row => pickAll (hideFinal src.labels z l) row z
      some (.ragged (r.map fun row => row.filter fun v => v != z))
    else none
  | .flt w l => do
    let r ← arcMap.mapM fun row => pickAll l row 0
    some (.flt w (r.map List.sum))
  | .ragged l => do
    let r ← arcMap.mapM fun row => pickAll l row []
    some (.ragged (r.map List.flatten))
  | _ => none

/-- `fsa_from_unary_function_ragged`, utils.py 500-549. -/
def unaryRagged [AddMonoid S] (c : Cast S) (src dest : Obj S) (arcMap : List (List Int)) (removeFiller : Bool) :
    Option (Obj S) := do
  let d ← setAll (mapAttrRagged c src arcMap removeFiller) dest (namedTensor false src)
  setAll (fun _ v => some v) d (namedNon src)

/-! ## Binary functions -/

/-- `hasattr(fsa, name)`: `known` are the attributes of the class. -/
def hasAttr (known : String → Bool) (o : Obj S) (name : String) : Bool :=
  known name || (getAttr o name).isSome

/-- Both inputs have the attribute, utils.py 586-600. -/
def mapBoth [Add S] (c : Cast S) (f : Num S) (b : Obj S) (am bm : List Int) (name : String) (v : Val S) :
    Option (Val S) := do
  let x ← asF32 v
  let y ← (getAttr b name).bind asF32
  let x' ← indexSelect x am (c.round false (f.toFloat c))
  let y' ← indexSelect y bm (c.round false (f.toFloat c))
  if x'.length = y'.length then some (.flt false (List.zipWith (· + ·) x' y')) else none

/-- An attribute of the first input, utils.py 580-613.  `float(filler)` is evaluated for every kind of
attribute. -/
def mapFirst [Add S] (known : String → Bool) (c : Cast S) (a b : Obj S) (am bm : List Int) (name : String)
    (v : Val S) : Option (Val S) := do
  let f ← getFiller c a name
  if hasAttr known b name then mapBoth c f b am bm name v else mapAttr c a am name v

/-- An attribute of the second input, utils.py 615-628. -/
def addSecond (known : String → Bool) (c : Cast S) (b : Obj S) (bm : List Int) (d : Obj S)
    (x : String × Val S) : Option (Obj S) :=
  if hasAttr known d x.1 then some d
  else do
    let v ← mapAttr c b bm x.1 x.2
    setAttr d x.1 v

/-- Other attributes of the second input, utils.py 633-635. -/
def addOther (known : String → Bool) (d : Obj S) (x : String × Val S) : Option (Obj S) :=
  if hasAttr known d x.1 then some d else setAttr d x.1 x.2

/-- `fsa_from_binary_function_tensor`, utils.py 552-637. -/
def binaryTensor [Add S] (known : String → Bool) (c : Cast S) (a b dest : Obj S) (am bm : List Int) :
    Option (Obj S) := do
  let d ← setAll (mapFirst known c a b am bm) dest (namedTensor true a)
  let d ← (namedTensor true b).foldlM (addSecond known c b bm) d
  let d ← setAll (fun _ v => some v) d (namedNon a)
  (namedNon b).foldlM (addOther known) d

/-! ## `create_fsa_vec` -/

/-- Two operands of `torch.cat` and `k2.ragged.cat`.  Values of different types are refused; `torch.cat`
would convert some of them. -/
def cat2 : Val S → Val S → Option (Val S)
  | .int w l, .int w' l' => if w = w' then some (.int w (l ++ l')) else none
  | .flt w l, .flt w' l' => if w = w' then some (.flt w (l ++ l')) else none
  | .int2 w k l, .int2 w' k' l' => if w = w' ∧ k = k' then some (.int2 w k (l ++ l')) else none
  | .flt2 w k l, .flt2 w' k' l' => if w = w' ∧ k = k' then some (.flt2 w k (l ++ l')) else none
  | .ragged l, .ragged l' => some (.ragged (l ++ l'))
  | _, _ => none

/-- utils.py 284-288. -/
def catVals : List (Val S) → Option (Val S)
  | [] => none
  | x :: t => if x.rows.isNone then none else t.foldlM cat2 x

/-- utils.py 281-289, for one name. -/
def catAttr (fsas : List (Obj S)) (d : Obj S) (x : String × Val S) : Option (Obj S) := do
  let vals ← fsas.mapM fun f => getAttr f x.1
  let v ← catVals vals
  setAttr d x.1 v

/-- `value is not None` -/
def notNone : Val S → Bool
  | .other 0 => false
  | _ => true

/-- utils.py 301-306. -/
def copyNon [DecidableEq S] (name : String) (d : Obj S) (f : Obj S) : Option (Obj S) :=
  match (getAttr f name).filter notNone with
  | none => some d
  | some v =>
    match getAttr d name with
    | none => setAttr d name v
    | some w => if w = v then some d else none

/-- utils.py 291-294. -/
def nonNames (fsas : List (Obj S)) : List String := fsas.flatMap fun f => (namedNon f).map Prod.fst

/-- `create_fsa_vec` after the construction of the object, utils.py 278-307.  The first loop of the
generator in lines 278-279 runs over the attributes of the last FSA, because its iterable is evaluated
before the variable `fsa` of the generator exists.  The members of a set are visited in the order of their
first occurrence; names of methods are assumed not to be used as names of attributes. -/
def createFsaVec [DecidableEq S] (fsas : List (Obj S)) (dest : Obj S) : Option (Obj S) := do
  let last ← fsas.getLast?
  let d ← (namedTensor true last).foldlM (catAttr fsas) dest
  (nonNames fsas).eraseDups.foldlM (fun d name => fsas.foldlM (copyNon name) d) d

end Verif.Fsa.Att
