import Verif.Fsa.Attr.Model

/-! What it means that an attribute is carried along an arc map. -/

namespace Verif.Fsa.Att
open Verif.Fsa.Cac (Dict get put)
variable {S : Type}

/-- The value of an attribute at one arc. -/
inductive Cell (S : Type) where
  | i (z : Int)
  | f (x : S)
  | is (l : List Int)
  | fs (l : List S)
  deriving DecidableEq

/-- The values at the arcs. -/
def Val.cells : Val S → List (Cell S)
  | .int _ l => l.map .i
  | .flt _ l => l.map .f
  | .int2 _ _ l => l.map .is
  | .flt2 _ _ l => l.map .fs
  | .ragged l => l.map .is
  | _ => []

/-- The type of a tensor. -/
def Val.kind : Val S → Val S
  | .int w _ => .int w []
  | .flt w _ => .flt w []
  | .int2 w k _ => .int2 w k []
  | .flt2 w k _ => .flt2 w k []
  | .ragged _ => .ragged []
  | v => v

/-- The filler of an attribute: the number `<name>_filler` of the FSA, or 0. -/
def fillerOf (o : Obj S) (name : String) : Num S :=
  match getAttr o (name ++ "_filler") with
  | some (.num x) => x
  | _ => .int 0

/-- The filler of the attribute is absent or a number, and for `aux_labels` it is absent or zero. -/
def FillerFits (c : Cast S) (o : Obj S) (name : String) : Prop :=
  match getAttr o (name ++ "_filler") with
  | none => True
  | some (.num (.int z)) => name = "aux_labels" → z = 0
  | some (.num (.flt x)) => name = "aux_labels" → c.toInt x = some 0
  | some _ => False

/-- The value of an arc that comes from no arc: the filler in the type of the attribute; for tensors with
two axes and for ragged tensors the filler plays no role. -/
def Fills (c : Cast S) (f : Num S) (x : Val S) (z : Cell S) : Prop :=
  match x with
  | .int _ _ => ∃ k, z = .i k ∧ c.toInt (f.toFloat c) = some k
  | .flt w _ => z = .f (c.round w (f.toFloat c))
  | .int2 _ k _ => z = .is (List.replicate k 0)
  | .flt2 _ k _ => z = .fs (List.replicate k (c.ofInt 0))
  | .ragged _ => z = .is []
  | _ => False

/-- `y` has, for every new arc, the value of `x` at the arc it comes from. -/
def Carried (c : Cast S) (f : Num S) (idx : List Int) (x y : Val S) : Prop :=
  y.kind = x.kind ∧ y.cells.length = idx.length ∧
    ∀ (j : Nat) (i : Int), idx[j]? = some i →
      (i = -1 → ∃ z, y.cells[j]? = some z ∧ Fills c f x z) ∧
      (i ≠ -1 → 0 ≤ i ∧ i.toNat < x.cells.length ∧ y.cells[j]? = x.cells[i.toNat]?)

/-- All arcs named exist. -/
def InRange (n : Nat) (idx : List Int) : Prop := ∀ i ∈ idx, i = -1 ∨ 0 ≤ i ∧ i < n

/-- The values of the arcs of a row that exist. -/
def present {α : Type} (l : List α) (row : List Int) : List α :=
  row.filterMap fun i => if i < 0 then none else l[i.toNat]?

/-- An integer attribute of an arc is kept unless it is the filler, or −1 on a final arc. -/
def kept (labels : List Int) (z : Int) (l : List Int) (i : Int) : Option Int :=
  if i < 0 then none
  else (l[i.toNat]?).filter fun v => v ≠ z ∧ ¬ (labels[i.toNat]? = some (-1) ∧ v = -1)

/-- `y` has, for every new arc, the values of `x` at the arcs it comes from: integers as a list without
fillers, floating-point numbers added, lists appended. -/
def CarriedRagged [AddMonoid S] (f : Num S) (labels : List Int) (arcMap : List (List Int)) (x y : Val S) : Prop :=
  match x with
  | .int false l => ∃ z, f = .int z ∧ y = .ragged (arcMap.map fun row => row.filterMap (kept labels z l))
  | .flt w l => y = .flt w (arcMap.map fun row => (present l row).sum)
  | .ragged l => y = .ragged (arcMap.map fun row => (present l row).flatten)
  | _ => False

/-- A float value at an arc that may not exist. -/
def valueAt (l : List S) (filler : S) (i : Int) (x : S) : Prop :=
  (i = -1 → x = filler) ∧ (i ≠ -1 → 0 ≤ i ∧ l[i.toNat]? = some x)

/-- The sum of two attributes: both use the filler of the first. -/
def Added [Add S] (filler : S) (am bm : List Int) (x y z : List S) : Prop :=
  z.length = am.length ∧ z.length = bm.length ∧
    ∀ (j : Nat) (i k : Int), am[j]? = some i → bm[j]? = some k →
      ∃ u v, valueAt x filler i u ∧ valueAt y filler k v ∧ z[j]? = some (u + v)

/-- Objects as they are: every attribute has one name, tensors have one value per arc, and `scores` and
`labels` are those of the arcs. -/
structure Ok (o : Obj S) : Prop where
  tkeys : (o.tensor.map Prod.fst).Nodup
  nkeys : (o.non.map Prod.fst).Nodup
  rows : ∀ x ∈ o.tensor, x.2.rows = some o.labels.length
  nrows : ∀ x ∈ o.non, x.2.rows = none
  names : ∀ x ∈ o.tensor, refused x.1 = false
  nnames : ∀ x ∈ o.non, refused x.1 = false
  scores : get o.tensor "scores" = some (.flt false o.scores)
  labels : get o.tensor "labels" = some (.int false o.labels)

end Verif.Fsa.Att
