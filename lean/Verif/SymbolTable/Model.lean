import Verif.Util.Text

/-!
# Model of `k2/python/k2/symbol_table.py`

A Python `dict` is an association list in insertion order.
-/

namespace Verif.SymbolTable
open Verif.Text

/-- Python `dict`, in insertion order. -/
abbrev Dict (K V : Type) := List (K × V)

namespace Dict
variable {K V : Type} [DecidableEq K]

/-- `d.get(k)` -/
def get? (d : Dict K V) (k : K) : Option V := List.lookup k d

/-- `k in d` -/
def has (d : Dict K V) (k : K) : Bool := (get? d k).isSome

/-- `d[k] = v`: an existing key keeps its position, a new key goes to the end. -/
def set : Dict K V → K → V → Dict K V
  | [], k, v => [(k, v)]
  | (k', v') :: d, k, v => if k' = k then (k, v) :: d else (k', v') :: set d k v

/-- `{**a, **b}` -/
def union (a b : Dict K V) : Dict K V := b.foldl (fun d kv => set d kv.1 kv.2) a

def keys (d : Dict K V) : List K := d.map Prod.fst

end Dict

/-- The exceptions that the modelled functions can raise. -/
inductive Err where
  | assertion | key | value
  deriving DecidableEq, Repr

/-- `SymbolTable`, symbol_table.py 30-55.  `σ` is the type of symbols. -/
structure SymTab (σ : Type) where
  id2sym : Dict Int σ
  sym2id : Dict σ Int
  next : Int
  eps : σ
  deriving DecidableEq

deriving instance DecidableEq for Except

section
variable {σ : Type} [DecidableEq σ]

/-- First loop of `__post_init__`, symbol_table.py 58-60:
`assert self._sym2id[sym] == idx` (a missing key raises KeyError), `assert idx >= 0`. -/
def checkIds (sym2id : Dict σ Int) : Dict Int σ → Except Err Unit
  | [] => .ok ()
  | (idx, sym) :: rest =>
    match Dict.get? sym2id sym with
    | none => .error .key
    | some j =>
      if j ≠ idx then .error .assertion
      else if idx < 0 then .error .assertion
      else checkIds sym2id rest

/-- Second loop of `__post_init__`, symbol_table.py 62-64. -/
def checkSyms (id2sym : Dict Int σ) : Dict σ Int → Except Err Unit
  | [] => .ok ()
  | (sym, idx) :: rest =>
    if idx < 0 then .error .assertion
    else match Dict.get? id2sym idx with
      | none => .error .key
      | some s =>
        if s ≠ sym then .error .assertion
        else checkSyms id2sym rest

/-- `max(d)` over the keys; the dictionary is not empty where this is used. -/
def maxKey : Dict Int σ → Int
  | [] => 0
  | [(k, _)] => k
  | (k, _) :: rest => max k (maxKey rest)

/-- `SymbolTable(_id2sym=..., _sym2id=..., eps=...)`, i.e. the dataclass constructor
followed by `__post_init__`, symbol_table.py 57-73. -/
def construct (id2sym : Dict Int σ) (sym2id : Dict σ Int) (eps : σ) :
    Except Err (SymTab σ) :=
  match checkIds sym2id id2sym with
  | .error e => .error e
  | .ok _ =>
    match checkSyms id2sym sym2id with
    | .error e => .error e
    | .ok _ =>
      match Dict.get? id2sym 0 with
      | none =>
        let id2sym' := Dict.set id2sym 0 eps
        let sym2id' := Dict.set sym2id eps 0
        .ok ⟨id2sym', sym2id', maxKey id2sym' + 1, eps⟩
      | some s =>
        if s ≠ eps then .error .assertion
        else match Dict.get? sym2id eps with
          | none => .error .key
          | some j =>
            if j ≠ 0 then .error .assertion
            else .ok ⟨id2sym, sym2id, maxKey id2sym + 1, eps⟩

/-- `SymbolTable()`: no entries given. -/
def empty (eps : σ) : Except Err (SymTab σ) := construct [] [] eps

/-- `if index is None: index = self._next_available_id`, symbol_table.py 182-183. -/
def pickIndex (t : SymTab σ) : Option Int → Int
  | none => t.next
  | some i => i

/-- `add`, symbol_table.py 165-195.  Returns the table after the call and the result. -/
def add (t : SymTab σ) (symbol : σ) (index : Option Int) : SymTab σ × Except Err Int :=
  match Dict.get? t.sym2id symbol with
  | some i => (t, .ok i)
  | none =>
    let idx := pickIndex t index
    if Dict.has t.id2sym idx then (t, .error .value)
    else
      ({ t with
          sym2id := Dict.set t.sym2id symbol idx
          id2sym := Dict.set t.id2sym idx symbol
          next := if t.next ≤ idx then idx + 1 else t.next }, .ok idx)

/-- `get(k)` for an id, symbol_table.py 209-210. -/
def getId (t : SymTab σ) (i : Int) : Option σ := Dict.get? t.id2sym i

/-- `get(k)` for a symbol, symbol_table.py 211-212. -/
def getSym (t : SymTab σ) (s : σ) : Option Int := Dict.get? t.sym2id s

/-- ID loop of `_check_compatible`, symbol_table.py 238-242.  The set of common ids is
visited in the order of the first dictionary. -/
def compatIds (b : Dict Int σ) : Dict Int σ → Bool
  | [] => true
  | (i, s) :: rest =>
    (match Dict.get? b i with
     | none => true
     | some s' => decide (s = s')) && compatIds b rest

/-- Symbol loop of `_check_compatible`, symbol_table.py 244-248. -/
def compatSyms (b : Dict σ Int) : Dict σ Int → Bool
  | [] => true
  | (s, i) :: rest =>
    (match Dict.get? b s with
     | none => true
     | some i' => decide (i = i')) && compatSyms b rest

/-- `_check_compatible`, symbol_table.py 233-248. -/
def checkCompatible (a b : SymTab σ) : Bool :=
  decide (a.eps = b.eps) && compatIds b.id2sym a.id2sym && compatSyms b.sym2id a.sym2id

/-- `merge`, symbol_table.py 214-231. -/
def merge (a b : SymTab σ) : Except Err (SymTab σ) :=
  if checkCompatible a b then
    construct (Dict.union a.id2sym b.id2sym) (Dict.union a.sym2id b.sym2id) a.eps
  else .error .assertion

/-- The loop of `__eq__`, symbol_table.py 266-268; a missing symbol raises KeyError. -/
def eqLoop (a b : SymTab σ) : List σ → Except Err Bool
  | [] => .ok true
  | s :: rest =>
    match getSym a s, getSym b s with
    | some i, some j => if i ≠ j then .ok false else eqLoop a b rest
    | _, _ => .error .key

/-- `__eq__`, symbol_table.py 262-270.  (The loop visits the symbols in sorted order; only
which of `False` and KeyError comes first depends on the order.) -/
def pyEq (a b : SymTab σ) : Except Err Bool :=
  if a.id2sym.length ≠ b.id2sym.length then .ok false
  else eqLoop a b (Dict.keys a.sym2id)

end

/-! ## Text form (symbols are strings) -/

abbrev Str := List Char

/-- `sorted(self._id2sym.items())` by id (ids are unique, so symbols are never compared). -/
def insertSorted (e : Int × Str) : List (Int × Str) → List (Int × Str)
  | [] => [e]
  | f :: l => if e.1 ≤ f.1 then e :: f :: l else f :: insertSorted e l

def sortItems (d : Dict Int Str) : Dict Int Str := d.foldr insertSorted []

/-- One line `f'{symbol} {idx}\n'`, symbol_table.py 141. -/
def line (e : Int × Str) : Str := e.2 ++ ' ' :: showInt e.1 ++ ['\n']

/-- `to_str`, symbol_table.py 133-142. -/
def toStr (t : SymTab Str) : Str := (sortItems t.id2sym).flatMap line

/-- Loop body of `from_str`, symbol_table.py 92-102. -/
def readLines : List Str → Dict Int Str → Dict Str Int → Except Err (Dict Int Str × Dict Str Int)
  | [], i2s, s2i => .ok (i2s, s2i)
  | l :: ls, i2s, s2i =>
    match fields l with
    | [] => readLines ls i2s s2i
    | [sym, ids] =>
      match parseInt ids with
      | none => .error .value
      | some idx =>
        if Dict.has s2i sym then .error .assertion
        else if Dict.has i2s idx then .error .assertion
        else readLines ls (Dict.set i2s idx sym) (Dict.set s2i sym idx)
    | _ => .error .assertion

/-- The default epsilon symbol, symbol_table.py 53 and 104. -/
def epsStr : Str := ['<', 'e', 'p', 's', '>']

/-- `eps = id2sym.get(0, '<eps>')`, symbol_table.py 104. -/
def epsOf (i2s : Dict Int Str) : Str :=
  match Dict.get? i2s 0 with
  | some e => e
  | none => epsStr

/-- `from_str`, symbol_table.py 75-106. -/
def fromStr (s : Str) : Except Err (SymTab Str) :=
  match readLines (splitNl s) [] [] with
  | .error e => .error e
  | .ok (i2s, s2i) =>
    construct i2s s2i (epsOf i2s)

end Verif.SymbolTable
