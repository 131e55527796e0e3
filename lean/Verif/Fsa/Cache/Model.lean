import Mathlib.Tactic.Common

/-!
# `Fsa` objects in python: attributes, cached queries and cached properties

Modelled code: `k2/python/k2/fsa.py` 119-240 (`__init__`), 242-273 (`_invalidate_cache_`), 382-430
(`__setattr__`), 438-468 (`properties`), 482-517 (`__getattr__`, `__delattr__`), 519-788 and 828-842
(cached queries), 869-922 (`rename_tensor_attribute_`), 924-956 (`invert_`), 1123-1186 (`clone`,
`detach`), 1188-1215 (`named_tensor_attr`, `named_non_tensor_attr`), and `FixFinalLabels`
(`k2/csrc/fsa_utils.cu` 2733-2785).

* A python exception ends the call and leaves the changes made so far: a call is a function from states
  to a result (`none` if it raised) and a new state.
* The arcs are memory that several objects can share (`detach` does that): a system is a list of
  memories and a list of objects.
* The C++ functions behind the queries are parameters.  Their types say what they read: none of them
  reads labels, and the ones that prepare batches do not read scores either.
* Autograd, devices and the remaining dimensions of tensors are left out.
-/

namespace Verif.Fsa.Cac

/-! ## Dictionaries -/

/-- A python dict. -/
abbrev Dict (V : Type) := List (String × V)

def get {V : Type} (d : Dict V) (k : String) : Option V :=
  match d with
  | [] => none
  | (k', v) :: t => if k' = k then some v else get t k

/-- `del d[k]` -/
def del {V : Type} (d : Dict V) (k : String) : Dict V := d.filter fun x => x.1 ≠ k

/-- `d[k] = v` (the position of a key is kept). -/
def put {V : Type} (d : Dict V) (k : String) (v : V) : Dict V :=
  match d with
  | [] => [(k, v)]
  | (k', v') :: t => if k' = k then (k, v) :: t else (k', v') :: put t k v

/-! ## Objects -/

/-- Attribute values: tensors by type, ragged tensors by `dim0`, and anything else.  `labelsView` and
`scoresView` are the tensors made by the constructor, which share memory with the arcs. -/
inductive Val (S : Type) where
  | i32 (l : List Int)
  | f32 (l : List S)
  | other (rows : Nat) (x : Nat)
  | labelsView
  | scoresView
  | ragged (dim0 : Nat) (x : Nat)
  | num (x : Nat)
  deriving DecidableEq

/-- The memory of the arcs: what never changes, the labels and the scores. -/
structure Mem (T S : Type) where
  topo : T
  labels : List Int
  scores : List S
  deriving DecidableEq

/-- An `Fsa` object without its arcs.  `ver` is the `_version` of the tensor in `_tensor_attr["labels"]`. -/
structure Obj (S R : Type) where
  ver : Nat
  tensorAttr : Dict (Val S)
  nonTensor : Dict (Val S)
  cache : Dict R
  props : Option Nat
  deriving DecidableEq

/-- The C++ functions.  A flag `Bool` says whether doubles are used; the second one of `forward` and
`backward` chooses the log semiring. -/
structure Ops (T S R : Type) where
  stateBatches : T → Option R
  destStates : T → Option R
  incomingArcs : T → R → Option R
  enteringBatches : T → R → R → Option R
  leavingBatches : T → R → Option R
  /-- the scores and, in the tropical semiring, the entering arcs -/
  forward : Bool → Bool → T → List S → R → R → Option (R × R)
  tot : Bool → T → R → Option R
  backward : Bool → Bool → T → List S → R → R → Option R
  arcPost : Bool → T → List S → R → R → Option R
  arcCdf : Bool → T → R → Option R
  /-- `get_fsa_basic_properties` -/
  basicProps : T → List Int → Nat
  /-- which arcs enter a final state -/
  enters : T → List Bool
  /-- names that `__delattr__` refuses: class attributes and instance attributes -/
  reserved : String → Bool

/-- A python call. -/
def M (σ α : Type) := σ → Option α × σ

instance {σ : Type} : Monad (M σ) where
  pure a s := (some a, s)
  bind m f s :=
    match m s with
    | (some a, s') => f a s'
    | (none, s') => (none, s')

def raise {σ α : Type} : M σ α := fun s => (none, s)
def check {σ : Type} (b : Bool) : M σ Unit := if b then pure () else raise
def ofOption {σ α : Type} (o : Option α) : M σ α := fun s => (o, s)
def read {σ : Type} : M σ σ := fun s => (some s, s)
def modify {σ : Type} (f : σ → σ) : M σ Unit := fun s => (some (), f s)

variable {T S R : Type}

/-- What a call on one object works on. -/
abbrev OS (T S R : Type) := Obj S R × Mem T S

/-! ## Cached queries -/

/-- The queries. -/
inductive Key where
  | stateBatches | destStates | incomingArcs | enteringArcBatches | leavingArcBatches | enteringArcs
  | arcCdf (d l : Bool) | forward (d l : Bool) | tot (d l : Bool) | backward (d l : Bool)
  | arcPost (d l : Bool)
  deriving DecidableEq

/-- `('double_' if use_double_scores else 'float_') + ('log' if log_semiring else 'tropical')` -/
def suffix (d l : Bool) : String := (if d then "double_" else "float_") ++ (if l then "log" else "tropical")

/-- The names in `_cache`. -/
def Key.name : Key → String
  | stateBatches => "state_batches"
  | destStates => "dest_states"
  | incomingArcs => "incoming_arcs"
  | enteringArcBatches => "entering_arc_batches"
  | leavingArcBatches => "leaving_arc_batches"
  | enteringArcs => "entering_arcs"
  | arcCdf d l => "arc_cdf_" ++ suffix d l
  | forward d l => "forward_scores_" ++ suffix d l
  | tot d l => "tot_scores_" ++ suffix d l
  | backward d l => "backward_scores_" ++ suffix d l
  | arcPost d l => "arc_post_" ++ suffix d l

/-- `if name not in cache: cache[name] = compute(); return cache[name]`. -/
def cached (name : String) (compute : M (OS T S R) R) : M (OS T S R) R := do
  let s ← read
  match get s.1.cache name with
  | some v => pure v
  | none => do
    let v ← compute
    modify fun s => ({ s.1 with cache := put s.1.cache name v }, s.2)
    pure v

/-- fsa.py 519-527. -/
def getStateBatches (o : Ops T S R) : M (OS T S R) R :=
  cached Key.stateBatches.name do
    let s ← read
    ofOption (o.stateBatches s.2.topo)

/-- fsa.py 529-537. -/
def getDestStates (o : Ops T S R) : M (OS T S R) R :=
  cached Key.destStates.name do
    let s ← read
    ofOption (o.destStates s.2.topo)

/-- fsa.py 539-548. -/
def getIncomingArcs (o : Ops T S R) : M (OS T S R) R :=
  cached Key.incomingArcs.name do
    let d ← getDestStates o
    let s ← read
    ofOption (o.incomingArcs s.2.topo d)

/-- fsa.py 550-562. -/
def getEnteringArcBatches (o : Ops T S R) : M (OS T S R) R :=
  cached Key.enteringArcBatches.name do
    let i ← getIncomingArcs o
    let b ← getStateBatches o
    let s ← read
    ofOption (o.enteringBatches s.2.topo i b)

/-- fsa.py 564-574. -/
def getLeavingArcBatches (o : Ops T S R) : M (OS T S R) R :=
  cached Key.leavingArcBatches.name do
    let b ← getStateBatches o
    let s ← read
    ofOption (o.leavingBatches s.2.topo b)

/-- fsa.py 590-624: the entering arcs are stored as well. -/
def getForwardScores (o : Ops T S R) (d l : Bool) : M (OS T S R) R := do
  let s ← read
  match get s.1.cache (Key.forward d l).name with
  | some v => pure v
  | none => do
    let b ← getStateBatches o
    let e ← getEnteringArcBatches o
    let s ← read
    let v ← ofOption (o.forward d l s.2.topo s.2.scores b e)
    modify fun s => ({ s.1 with cache := put s.1.cache (Key.forward d l).name v.1 }, s.2)
    if l = false then
      modify fun s => ({ s.1 with cache := put s.1.cache Key.enteringArcs.name v.2 }, s.2)
    pure v.1

/-- fsa.py 645-675. -/
def getTotScores (o : Ops T S R) (d l : Bool) : M (OS T S R) R :=
  cached (Key.tot d l).name do
    let f ← getForwardScores o d l
    let s ← read
    ofOption (o.tot d s.2.topo f)

/-- fsa.py 697-737. -/
def getBackwardScores (o : Ops T S R) (d l : Bool) : M (OS T S R) R :=
  cached (Key.backward d l).name do
    let b ← getStateBatches o
    let a ← getLeavingArcBatches o
    let s ← read
    ofOption (o.backward d l s.2.topo s.2.scores b a)

/-- fsa.py 760-788. -/
def getArcPost (o : Ops T S R) (d l : Bool) : M (OS T S R) R :=
  cached (Key.arcPost d l).name do
    let f ← getForwardScores o d l
    let b ← getBackwardScores o d l
    let s ← read
    ofOption (o.arcPost d s.2.topo s.2.scores f b)

/-- fsa.py 576-588. -/
def getArcCdf (o : Ops T S R) (d l : Bool) : M (OS T S R) R :=
  cached (Key.arcCdf d l).name do
    let p ← getArcPost o d l
    let s ← read
    ofOption (o.arcCdf d s.2.topo p)

/-- fsa.py 828-842. -/
def getEnteringArcs (o : Ops T S R) (d : Bool) : M (OS T S R) R := do
  let s ← read
  match get s.1.cache Key.enteringArcs.name with
  | some v => pure v
  | none => do
    let _ ← getForwardScores o d false
    let s ← read
    ofOption (get s.1.cache Key.enteringArcs.name)

/-- A query; the flag is only used by `_get_entering_arcs`. -/
def query (o : Ops T S R) (d : Bool) : Key → M (OS T S R) R
  | .stateBatches => getStateBatches o
  | .destStates => getDestStates o
  | .incomingArcs => getIncomingArcs o
  | .enteringArcBatches => getEnteringArcBatches o
  | .leavingArcBatches => getLeavingArcBatches o
  | .enteringArcs => getEnteringArcs o d
  | .arcCdf d l => getArcCdf o d l
  | .forward d l => getForwardScores o d l
  | .tot d l => getTotScores o d l
  | .backward d l => getBackwardScores o d l
  | .arcPost d l => getArcPost o d l

/-- `re.search`: the text occurs somewhere. -/
def occurs (p : List Char) : List Char → Bool
  | [] => p.isEmpty
  | c :: t => p.isPrefixOf (c :: t) || occurs p t

/-- `pattern.search(key)`, fsa.py 260: `score|arc_cdf|arc_post`. -/
def scoreKey (k : String) : Bool :=
  occurs "score".toList k.toList || occurs "arc_cdf".toList k.toList || occurs "arc_post".toList k.toList

/-- `_invalidate_cache_` with `scores_only=True`, fsa.py 259-273. -/
def invalidate (cache : Dict R) : Dict R :=
  cache.filter fun x => !(scoreKey x.1 || x.1 == "entering_arcs")

/-! ## Attributes -/

/-- `__getattr__`, fsa.py 494-497; the cache (498-499) is only searched in `run`, as no name used inside
the class is a name of the cache. -/
def attr (s : OS T S R) (name : String) : Option (Val S) :=
  (get s.1.tensorAttr name).or (get s.1.nonTensor name)

/-- `self.labels._version`; only the tensor made by the constructor can have this name. -/
def labelsVersion (s : OS T S R) : Option Nat :=
  match attr s "labels" with
  | some .labelsView => some s.1.ver
  | _ => none

/-- `self.labels_version = x`. -/
def setLabelsVersion (x : Nat) : M (OS T S R) Unit :=
  modify fun s => ({ s.1 with nonTensor := put s.1.nonTensor "labels_version" (.num x) }, s.2)

/-- An attribute that is a number. -/
def numAttr (s : OS T S R) (name : String) : Option Nat :=
  match attr s name with
  | some (.num x) => some x
  | _ => none

/-- The getter `properties`, fsa.py 438-468. -/
def properties (o : Ops T S R) : M (OS T S R) Nat := do
  let s ← read
  match s.1.props with
  | some p => do
    let v ← ofOption (labelsVersion s)
    let x ← ofOption (numAttr s "labels_version")
    check (x == v)
    pure p
  | none => do
    let v ← ofOption (labelsVersion s)
    setLabelsVersion v
    let p := o.basicProps s.2.topo s.2.labels
    modify fun s => ({ s.1 with props := some p }, s.2)
    check (p % 2 == 1)
    pure p

/-- `FixFinalLabels`, fsa_utils.cu 2733-2785: the labels afterwards, and whether it succeeded. -/
def fixLoop : List Bool → List Int → List Int × Bool
  | f :: fs, x :: xs =>
    if f then
      if x = -1 ∨ x = 0 then ((-1) :: (fixLoop fs xs).1, (fixLoop fs xs).2) else (x :: xs, false)
    else ((if x = -1 then 0 else x) :: (fixLoop fs xs).1, (fixLoop fs xs).2)
  | _, xs => (xs, true)

/-- `_k2.fix_final_labels(self.arcs, None)`. -/
def fixFinal (o : Ops T S R) : M (OS T S R) Unit := fun s =>
  let r := fixLoop (o.enters s.2.topo) s.2.labels
  (if r.2 then some () else none, (s.1, { s.2 with labels := r.1 }))

/-- `value.shape[0]` or `value.dim0`. -/
def rows (s : OS T S R) : Val S → Nat
  | .i32 l => l.length
  | .f32 l => l.length
  | .other n _ => n
  | .labelsView => s.2.labels.length
  | .scoresView => s.2.scores.length
  | .ragged n _ => n
  | .num _ => 0

/-- `assert value.dtype == torch.int32; self.arcs.values()[:, 2] = value`, fsa.py 402-403. -/
def writeLabels : Val S → M (OS T S R) Unit
  | .i32 l => modify fun s => (s.1, { s.2 with labels := l })
  | .labelsView => pure ()
  | _ => raise

/-- `self.labels_version = self._tensor_attr["labels"]._version`, fsa.py 404. -/
def updateVersion : M (OS T S R) Unit := fun s =>
  match get s.1.tensorAttr "labels" with
  | some .labelsView => setLabelsVersion s.1.ver s
  | _ => (none, s)

/-- `__setattr__` with the name `labels` and a tensor, fsa.py 401-414. -/
def setLabels (o : Ops T S R) (v : Val S) : M (OS T S R) Unit := do
  writeLabels v
  updateVersion
  fixFinal o
  modify fun s => ({ s.1 with props := none }, s.2)
  let _ ← properties o

/-- `assert value.dtype == torch.float32; self.arcs.values()[:, -1] = value`, fsa.py 419-422. -/
def writeScores : Val S → M (OS T S R) Unit
  | .f32 l => modify fun s => (s.1, { s.2 with scores := l })
  | .scoresView => pure ()
  | _ => raise

/-- `__setattr__` with a tensor, fsa.py 397-423. -/
def setTensor (o : Ops T S R) (name : String) (v : Val S) : M (OS T S R) Unit := do
  let s ← read
  check (rows s v == s.2.labels.length)
  if name = "labels" then setLabels o v
  else do
    modify fun s => ({ s.1 with tensorAttr := put s.1.tensorAttr name v }, s.2)
    if name = "scores" then do
      writeScores v
      modify fun s => ({ s.1 with cache := invalidate s.1.cache }, s.2)
    else pure ()

/-- `__setattr__` with a ragged tensor, fsa.py 424-429. -/
def setRagged (name : String) (v : Val S) : M (OS T S R) Unit := do
  let s ← read
  check (rows s v == s.2.labels.length)
  modify fun s => ({ s.1 with tensorAttr := put s.1.tensorAttr name v }, s.2)

/-- `__setattr__`, fsa.py 382-430. -/
def setAttr (o : Ops T S R) (name : String) (v : Val S) : M (OS T S R) Unit := do
  check (!["_tensor_attr", "_non_tensor_attr", "arcs", "_cache", "_properties", "properties"].contains name)
  match v with
  | .num _ => modify fun s => ({ s.1 with nonTensor := put s.1.nonTensor name v }, s.2)
  | .ragged _ _ => setRagged name v
  | v => setTensor o name v

/-- `__delattr__`, fsa.py 502-517. -/
def delAttr (o : Ops T S R) (name : String) : M (OS T S R) Unit := do
  check (!o.reserved name && name != "scores")
  let s ← read
  if (get s.1.tensorAttr name).isSome then
    modify fun s => ({ s.1 with tensorAttr := del s.1.tensorAttr name }, s.2)
  else if (get s.1.nonTensor name).isSome then
    modify fun s => ({ s.1 with nonTensor := del s.1.nonTensor name }, s.2)
  else if (get s.1.cache name).isSome then
    modify fun s => ({ s.1 with cache := del s.1.cache name }, s.2)
  else raise

/-- `value[...] = x` on the tensor `fsa.labels`: the memory changes and the version is incremented. -/
def editLabels (l : List Int) : M (OS T S R) Unit := do
  let s ← read
  check (l.length == s.2.labels.length)
  let _ ← ofOption (labelsVersion s)
  modify fun s => ({ s.1 with ver := s.1.ver + 1 }, { s.2 with labels := l })

/-- The same on the tensor `fsa.scores`; nothing keeps track of it. -/
def editScores (l : List S) : M (OS T S R) Unit := do
  let s ← read
  check (l.length == s.2.scores.length)
  match get s.1.tensorAttr "scores" with
  | some .scoresView => modify fun s => (s.1, { s.2 with scores := l })
  | _ => raise

/-- `value.clone()`; only used for labels. -/
def cloneVal (s : OS T S R) : Val S → Val S
  | .labelsView => .i32 s.2.labels
  | .scoresView => .f32 s.2.scores
  | v => v

/-- The loop over `_non_tensor_attr`, fsa.py 905-917, first part: the attributes that are moved and
the ones that stay. -/
def renameKeep (src dst : String) (d : Dict (Val S)) : Dict (Val S) :=
  d.filter fun x => (src.toList.isPrefixOf x.1.toList && x.1 != "labels_version") ||
    !dst.toList.isPrefixOf x.1.toList

/-- The attributes to move, with their new names. -/
def renameMoves (src dst : String) (d : Dict (Val S)) : List (String × String × Val S) :=
  (d.filter fun x => src.toList.isPrefixOf x.1.toList && x.1 != "labels_version").map fun x =>
    (x.1, String.ofList (dst.toList ++ x.1.toList.drop src.toList.length), x.2)

/-- fsa.py 915-917. -/
def renameStep (d : Dict (Val S)) (x : String × String × Val S) : Dict (Val S) := del (put d x.2.1 x.2.2) x.1

/-- fsa.py 898-899. -/
def renameDel (src : String) (d : Dict (Val S)) : Dict (Val S) :=
  if src ≠ "scores" ∧ src ≠ "labels" then del d src else d

/-- fsa.py 919-920. -/
def renameVersion (dst : String) : M (OS T S R) Unit := fun s =>
  if dst = "labels" then
    match labelsVersion s with
    | some v => setLabelsVersion v s
    | none => (none, s)
  else (some (), s)

/-- `rename_tensor_attribute_`, fsa.py 869-922. -/
def rename (o : Ops T S R) (src dst : String) : M (OS T S R) Unit := do
  check (src != dst)
  let s ← read
  check ((get s.1.tensorAttr src).isSome || src == "labels")
  let v ← ofOption (attr s src)
  let v := if src = "labels" then cloneVal s v else v
  setAttr o dst v
  modify fun s => ({ s.1 with tensorAttr := renameDel src s.1.tensorAttr }, s.2)
  modify fun s => ({ s.1 with nonTensor :=
    (renameMoves src dst s.1.nonTensor).foldl renameStep (renameKeep src dst s.1.nonTensor) }, s.2)
  renameVersion dst

/-- Tensors, as opposed to ragged tensors and anything else. -/
def Val.isTensor : Val S → Bool
  | .ragged _ _ => false
  | .num _ => false
  | _ => true

/-- `invert_`, fsa.py 938-956. -/
def invert (o : Ops T S R) : M (OS T S R) Unit := do
  let s ← read
  let v ← ofOption (attr s "aux_labels")
  check v.isTensor
  rename o "labels" "__temp"
  rename o "aux_labels" "labels"
  rename o "__temp" "aux_labels"
  fixFinal o
  modify fun s => ({ s.1 with props := none }, s.2)
  let _ ← properties o

/-! ## Systems -/

/-- Calls on one object. -/
inductive Op (S : Type) where
  | set (name : String) (v : Val S)
  | del (name : String)
  | query (d : Bool) (k : Key)
  | props
  | attr (name : String)
  | edit (l : List Int)
  | editScores (l : List S)
  | rename (src dst : String)
  | invert

/-- Results. -/
inductive Res (S R : Type) where
  | unit
  | val (v : R)
  | bits (p : Nat)
  | attr (v : Val S)
  deriving DecidableEq

/-- One call.  The values read are copies. -/
def run (o : Ops T S R) : Op S → M (OS T S R) (Res S R)
  | .set n v => do setAttr o n v; pure .unit
  | .del n => do delAttr o n; pure .unit
  | .query d k => do let v ← query o d k; pure (.val v)
  | .props => do let p ← properties o; pure (.bits p)
  | .attr n => do
    let s ← read
    ofOption (((attr s n).map fun v => .attr (cloneVal s v)).or ((get s.1.cache n).map .val))
  | .edit l => do editLabels l; pure .unit
  | .editScores l => do editScores l; pure .unit
  | .rename a b => do rename o a b; pure .unit
  | .invert => do invert o; pure .unit

/-- `__init__`, fsa.py 155-240, without aux labels: `p` is the argument `properties`. -/
def construct (o : Ops T S R) (m : Mem T S) (p : Option Nat) : Option (Obj S R) × OS T S R :=
  let start : Obj S R :=
    ⟨0, [("scores", .scoresView), ("labels", .labelsView)], [("labels_version", .num 0)], [], p⟩
  match properties o (start, m) with
  | (some _, s) => (some s.1, s)
  | (none, s) => (none, s)

/-- The attributes that are copied, fsa.py 1188-1215. -/
def namedTensor (d : Dict (Val S)) : Dict (Val S) := d.filter fun x => x.1 ≠ "scores" ∧ x.1 ≠ "labels"
def namedNonTensor (d : Dict (Val S)) : Dict (Val S) := d.filter fun x => x.1 ≠ "labels_version"

/-- `for name, value in l: setattr(ans, name, value)`. -/
def setAll (o : Ops T S R) : Dict (Val S) → M (OS T S R) Unit
  | [] => pure ()
  | x :: t => do setAttr o x.1 x.2; setAll o t

/-- The copy made by `clone` and `detach` from the object `s` whose properties are `p`, on the memory `m`,
fsa.py 1123-1186.  Attributes are copied in both cases (`detach` shares the other tensors; they do not
influence the queries).  The cache of the copy is empty before the cache is copied, so the loop at the end
gives the same dict. -/
def copyObj (o : Ops T S R) (s : OS T S R) (p : Nat) : Option (Obj S R) × OS T S R :=
  match construct o s.2 (some p) with
  | (none, s') => (none, s')
  | (some ans, _) =>
    match (do
      setAll o ((namedTensor s.1.tensorAttr).map fun x => (x.1, cloneVal s x.2))
      setAll o (namedNonTensor s.1.nonTensor)
      modify fun t => ({ t.1 with cache := s.1.cache }, t.2) :
        M (OS T S R) Unit) (ans, s.2) with
    | (none, s') => (none, s')
    | (some _, s') => (some s'.1, s')

/-- Memories, and objects with the number of their memory. -/
structure Sys (T S R : Type) where
  heap : List (Mem T S)
  objs : List (Nat × Obj S R)
  deriving DecidableEq

inductive SysOp (S : Type) where
  | on (i : Nat) (op : Op S)
  | clone (i : Nat)
  | detach (i : Nat)

/-- One call on a system. -/
def step (o : Ops T S R) (y : Sys T S R) : SysOp S → Option (Res S R) × Sys T S R
  | .on i op =>
    match y.objs[i]? with
    | none => (none, y)
    | some x =>
      match y.heap[x.1]? with
      | none => (none, y)
      | some m =>
        match run o op (x.2, m) with
        | (r, s) => (r, ⟨y.heap.set x.1 s.2, y.objs.set i (x.1, s.1)⟩)
  | .clone i =>
    match y.objs[i]? with
    | none => (none, y)
    | some x =>
      match y.heap[x.1]? with
      | none => (none, y)
      | some m =>
        match properties o (x.2, m) with
        | (none, s) => (none, ⟨y.heap.set x.1 s.2, y.objs.set i (x.1, s.1)⟩)
        | (some p, s) =>
          match copyObj o s p with
          | (none, _) => (none, ⟨y.heap.set x.1 s.2, y.objs.set i (x.1, s.1)⟩)
          | (some ans, t) =>
            (some .unit, ⟨y.heap.set x.1 s.2 ++ [t.2], y.objs.set i (x.1, s.1) ++ [(y.heap.length, ans)]⟩)
  | .detach i =>
    match y.objs[i]? with
    | none => (none, y)
    | some x =>
      match y.heap[x.1]? with
      | none => (none, y)
      | some m =>
        match properties o (x.2, m) with
        | (none, s) => (none, ⟨y.heap.set x.1 s.2, y.objs.set i (x.1, s.1)⟩)
        | (some p, s) =>
          match copyObj o s p with
          | (none, _) => (none, ⟨y.heap.set x.1 s.2, y.objs.set i (x.1, s.1)⟩)
          | (some ans, _) => (some .unit, ⟨y.heap.set x.1 s.2, y.objs.set i (x.1, s.1) ++ [(x.1, ans)]⟩)

/-- A history. -/
def history (o : Ops T S R) (y : Sys T S R) (h : List (SysOp S)) : Sys T S R :=
  h.foldl (fun y op => (step o y op).2) y

end Verif.Fsa.Cac
