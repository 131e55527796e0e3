import Verif.Fsa.Transducer

/-!
# Models of `LinearFsa`, `CtcGraphs`, `CtcTopo`, `TrivialGraph`

k2/csrc/fsa_algo.cu 364-454 and 577-850.  Each kernel writes entry `idx` of its output from
`idx` alone, so it is a map over the index range.  The batch functions (`LinearFsas`,
`CtcGraphs`) are modelled here for one FSA of the batch; the flattened index arithmetic of
the batch version is modelled in `Verif/Fsa/Ctc/Batch.lean`.
Scores are `0 : W`.
-/

namespace Verif.Fsa
variable {W : Type} [Zero W]

/-- Arc `i` of `LinearFsa`, fsa_algo.cu 374-381 (and 433-438 for `LinearFsas`). -/
def linearArc (symbols : List Int) (i : Nat) : Arc W :=
  ⟨i, i + 1, if h : i < symbols.length then symbols[i] else -1, 0⟩

/-- `LinearFsas` for one element of the batch, fsa_algo.cu 388-454: `n+2` states, `n+1`
arcs.  No check on the symbols. -/
def linearFsas (symbols : List Int) : Fsa W :=
  ⟨symbols.length + 2, (List.range (symbols.length + 1)).map (linearArc symbols)⟩

/-- `LinearFsa`, fsa_algo.cu 364-386: `K2_CHECK_NE(symbol, -1)` for every symbol. -/
def linearFsa (symbols : List Int) : Option (Fsa W) :=
  if (-1 : Int) ∈ symbols then none else some (linearFsas symbols)

/-- `current_symbol` / `next_symbol`: the symbol at position `i`, or -1 past the end,
fsa_algo.cu 621-622, 672-673, 681-682. -/
def symAt (symbols : List Int) (i : Nat) : Int :=
  if h : i < symbols.length then symbols[i] else -1

/-- `lambda_set_num_arcs`, fsa_algo.cu 606-645: the number of arcs leaving state `q`. -/
def ctcNumArcs (modified : Bool) (symbols : List Int) (q : Nat) : Nat :=
  if q % 2 = 1 then
    if q / 2 = symbols.length then 0
    else if modified then 3
    else if symAt symbols (q / 2) ≠ symAt symbols (q / 2 + 1) then 3
    else 2
  else 2

/-- `lambda_set_arcs`, fsa_algo.cu 669-727: arc number `k` of state `q` with its aux label. -/
def ctcArc (modified : Bool) (symbols : List Int) (q k : Nat) : Arc W × Int :=
  let cur := symAt symbols (q / 2)
  let next := symAt symbols (q / 2 + 1)
  if q % 2 = 1 then
    if cur = next ∧ modified = false then
      (⟨q, if k = 0 then q + 1 else q, if k = 0 then 0 else cur, 0⟩, 0)
    else
      match k with
      | 0 => (⟨q, q + 1, 0, 0⟩, 0)
      | 1 => (⟨q, q, cur, 0⟩, 0)
      | _ => (⟨q, q + 2, next, 0⟩, if q / 2 + 1 = symbols.length then -1 else next)
  else
    (⟨q, if k = 0 then q else q + 1, if k = 0 then 0 else cur, 0⟩,
      if q / 2 = symbols.length ∧ k ≠ 0 then -1 else if k = 0 then 0 else cur)

/-- All arcs of the graph with their aux labels. -/
def ctcArcs (modified : Bool) (symbols : List Int) : List (Arc W × Int) :=
  (List.range (symbols.length * 2 + 2)).flatMap fun q =>
    (List.range (ctcNumArcs modified symbols q)).map (ctcArc modified symbols q)

/-- `CtcGraphs` for one transcript, fsa_algo.cu 577-730: states and (arc, aux label) pairs.
`K2_CHECK_NE(current_symbol, -1)` is only executed when `modified` is false. -/
def ctcGraph (modified : Bool) (symbols : List Int) : Option (Nat × List (Arc W × Int)) :=
  if modified = false ∧ (-1 : Int) ∈ symbols then none
  else some (symbols.length * 2 + 2, ctcArcs modified symbols)

/-- Arc (i, j) of the standard topology, fsa_algo.cu 798-811 (`dim1 = max_token + 2`). -/
def topoArc (maxToken i j : Nat) : Arc W × Int :=
  (⟨i, j, if j = maxToken + 1 then -1 else j, 0⟩,
    if i = j then 0 else if j = maxToken + 1 then -1 else j)

/-- Arc `idx` of the modified topology, fsa_algo.cu 755-784 (`states = max_token + 2`). -/
def topoModArc (maxToken idx : Nat) : Arc W × Int :=
  let states := maxToken + 2
  if idx < states - 1 then (⟨0, 0, idx, 0⟩, idx)
  else if idx < (states - 1) * 2 then
    let d := idx - (states - 1) + 1
    (⟨0, d, if d = states - 1 then -1 else d, 0⟩, if d = states - 1 then -1 else d)
  else
    let bias := idx - (states - 1) * 2
    let s := bias / 2 + 1
    (⟨s, if bias % 2 = 0 then s else 0, s, 0⟩, 0)

/-- `CtcTopo`, fsa_algo.cu 732-817: (arc, aux label) pairs; `max_token + 2` states. -/
def ctcTopo (modified : Bool) (maxToken : Nat) : List (Arc W × Int) :=
  if modified then
    (List.range ((maxToken + 1) * 2 + maxToken * 2)).map (topoModArc maxToken)
  else
    (List.range (maxToken + 1)).flatMap fun i =>
      (List.range (maxToken + 2)).map fun j => topoArc maxToken i j

/-- `TrivialGraph`, fsa_algo.cu 819-850: (arc, aux label) pairs; 2 states. -/
def trivialGraph (maxToken : Nat) : List (Arc W × Int) :=
  (List.range (maxToken + 1)).map fun idx =>
    if idx = maxToken then (⟨0, 1, -1, 0⟩, -1)
    else (⟨0, 0, (idx : Int) + 1, 0⟩, (idx : Int) + 1)

end Verif.Fsa
