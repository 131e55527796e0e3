import Verif.Fsa.Rows
import Verif.Fsa.Ops.ExpandModel

/-!
# `ReplaceFsa` (k2/csrc/fsa_algo.cu 1869-2108)

The arcs of `index` whose labels are in a range are replaced by FSAs of `src`.  As in `ExpandArcs`
the new states are described by a ragged shape `[state][foo][ostate]`, where `foo = 0` is the old
state and `foo = k + 1` stands for the states of the FSA that replaces the `k`-th arc leaving the
state.  We build the same ragged array, with the meaning of each new state as its value.

* The arcs of a state are numbered by `mapIdx`; the arc indexes `idx012` of the code are
  `splits rows s + k` (plus the number of arcs of the FSAs before).
* In the branch of a replaced arc, line 2050 reads `src_arcs_data[src_arc_idx012]` also for the arcs
  that come from `index`, where the value is not used.  The index of this read is `unusedRead`; the
  read is left out of the model.
-/

namespace Verif.Fsa.Repl
open Verif.Util
variable {W : Type}

/-- `src_idx0 = index_label - symbol_range_begin` if it is an FSA of `src`, with the FSA;
fsa_algo.cu 1924-1928, 2034-2037. -/
def source (src : List (Fsa W)) (b : Int) (label : Int) : Option (Nat × Fsa W) :=
  if label - b < 0 then none
  else (src[(label - b).toNat]?).map (fun g => ((label - b).toNat, g))

/-- `num_ostates` of an arc, fsa_algo.cu 1927-1935. -/
def midLen (src : List (Fsa W)) (b : Int) (a : Arc W) : Nat :=
  match source src b a.label with
  | none => 0
  | some (_, g) => g.numStates - 1

/-- The row of `state_to_foo` of state `s` with the new states of each `foo`, fsa_algo.cu
1883-1942. -/
def fooRow (src : List (Fsa W)) (b : Int) (f : Fsa W) (s : Nat) : List (List OState) :=
  [OState.orig s] :: (row f s).mapIdx (fun k a => (List.range (midLen src b a)).map (OState.mid s k))

def fooRows (src : List (Fsa W)) (b : Int) (f : Fsa W) : List (List (List OState)) :=
  (List.range f.numStates).map (fooRow src b f)

/-- All new states, `to_ostates_shape`, fsa_algo.cu 1948-1949. -/
def ostates (src : List (Fsa W)) (b : Int) (f : Fsa W) : List OState :=
  (fooRows src b f).flatten.flatten

/-- `orig_dest_state_idx0123`, fsa_algo.cu 2023-2026. -/
def origNum (src : List (Fsa W)) (b : Int) (f : Fsa W) (s : Nat) : Nat :=
  splits (fooRows src b f).flatten (splits (fooRows src b f) s)

/-- `bias` of the `k`-th arc of state `s`, fsa_algo.cu 2064-2070. -/
def bias (src : List (Fsa W)) (b : Int) (f : Fsa W) (s k : Nat) : Nat :=
  splits (fooRows src b f).flatten (splits (fooRows src b f) s + k + 1) -
    splits (fooRows src b f).flatten (splits (fooRows src b f) s)

/-- The copy of the `k`-th arc `a` of state `s`, leaving the new state `pos`; fsa_algo.cu 2036-2041
and 2054-2075.  The score component also carries the entries of `arc_map_src` and `arc_map_index`;
`o` is the index of the first arc of the FSA in `index`. -/
def indexArc (src : List (Fsa W)) (b : Int) (o : Nat) (f : Fsa W) (pos s k : Nat) (a : Arc W) :
    Arc (W × Int × Int) :=
  match source src b a.label with
  | none => ⟨pos, origNum src b f a.dst, a.label,
      (a.score, -1, ((o + splits f.rows s + k : Nat) : Int))⟩
  | some (_, g) => ⟨pos,
      if g.numStates = 0 then origNum src b f a.dst else pos + bias src b f s k,
      0, (a.score, -1, ((o + splits f.rows s + k : Nat) : Int))⟩

/-- The copy of the `m`-th arc `c` of state `j` of the FSA `g` number `i` of `src`, which replaces the
arc `a`, leaving the new state `pos`; fsa_algo.cu 2076-2094. -/
def srcArc (src : List (Fsa W)) (b : Int) (f : Fsa W) (pos j : Nat) (a : Arc W) (i : Nat) (g : Fsa W)
    (m : Nat) (c : Arc W) : Arc (W × Int × Int) :=
  ⟨pos, if c.label = -1 then origNum src b f a.dst else pos - j + c.dst,
    if c.label = -1 then 0 else c.label,
    (c.score, ((splits (src.map Fsa.arcs) i + splits g.rows j + m : Nat) : Int), -1)⟩

/-- The arcs leaving a new state, fsa_algo.cu 1963-2003 (how many) and 2005-2102 (which). -/
def oarcsOf (src : List (Fsa W)) (b : Int) (o : Nat) (f : Fsa W) (pos : Nat) :
    OState → List (Arc (W × Int × Int))
  | .orig s => (row f s).mapIdx (fun k a => indexArc src b o f pos s k a)
  | .mid s k j =>
    match (row f s)[k]? with
    | none => []
    | some a =>
      match source src b a.label with
      | none => []
      | some (i, g) => (row g j).mapIdx (fun m c => srcArc src b f pos j a i g m c)

/-- `ReplaceFsa` on one FSA of `index`, with the two arc maps attached to the arcs. -/
def replaceTagged (src : List (Fsa W)) (b : Int) (o : Nat) (f : Fsa W) : Fsa (W × Int × Int) :=
  ⟨(ostates src b f).length, ((ostates src b f).mapIdx (oarcsOf src b o f)).flatten⟩

/-- `ReplaceFsa` on one FSA of `index` whose first arc has index `o`: the FSA, `arc_map_src`,
`arc_map_index`. -/
def replaceOne (src : List (Fsa W)) (b : Int) (o : Nat) (f : Fsa W) : Fsa W × List Int × List Int :=
  let t := replaceTagged src b o f
  (⟨t.numStates, t.arcs.map untag⟩, t.arcs.map (fun a => a.score.2.1),
    t.arcs.map (fun a => a.score.2.2))

/-- `ReplaceFsa`, fsa_algo.cu 1869-2108: the FSAs of the result and the two arc maps. -/
def replaceFsa (src : List (Fsa W)) (index : List (Fsa W)) (b : Int) :
    List (Fsa W) × List Int × List Int :=
  let outs := index.mapIdx (fun n f => replaceOne src b (splits (index.map Fsa.arcs) n) f)
  (outs.map Prod.fst, (outs.map fun x => x.2.1).flatten, (outs.map fun x => x.2.2).flatten)

/-- `replace_fsa` with `ret_arc_map`, k2/python/k2/fsa_algo.py 1110-1157: note the order of the arc
maps. -/
def pyReplaceFsa (src : List (Fsa W)) (index : List (Fsa W)) (b : Int) :
    List (Fsa W) × List Int × List Int :=
  let r := replaceFsa src index b
  (r.1, r.2.2, r.2.1)

/-- `src_arc_idx012` of a replaced arc of `index` (`idx3 = 0`, `idx4 = k`), fsa_algo.cu 2043-2050. -/
def unusedRead (src : List (Fsa W)) (i k : Nat) : Nat := splits (src.map Fsa.arcs) i + k

end Verif.Fsa.Repl
