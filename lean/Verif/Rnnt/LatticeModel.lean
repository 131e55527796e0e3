import Verif.Fsa.Core

/-!
# Model of `PrunedRangesToLattice`

k2/python/csrc/torch/pruned_ranges_to_lattice.cu 60-260, one sequence of the batch.
`rng t k` is `ranges[b][t][k]`, `F` is `frames[b]`, `r` is `s_range`, `syms` is `symbols[b]`
(an index outside of the tensor, which the code reads unchecked, gives 0 here),
`logits t k c` is `logits[b][t][k][c]`.
The arc map holds the position `(t, k, c)` in logits instead of the flat index with strides
(lines 218-221, 235-237, 250-252); `none` is -1.
-/

namespace Verif.Rnnt
open Verif.Fsa

variable {W : Type}

/-- Lines 130-134. -/
def hasHorizontal (rng : Nat → Nat → Int) (F t k : Nat) : Bool :=
  t + 1 < F && rng (t + 1) 0 ≤ rng t k

/-- Lines 109-142: number of arcs that leave state `i`. -/
def latNumArcs (rng : Nat → Nat → Int) (F r i : Nat) : Nat :=
  if i = F * r then 0
  else if i % r ≠ r - 1 ∧ hasHorizontal rng F (i / r) (i % r) = true then 2
  else 1

/-- Lines 205-216: the arc with a symbol. -/
def latVertical (rng : Nat → Nat → Int) (syms : List Int) (logits : Nat → Nat → Int → W)
    (i t k : Nat) : Arc W × Option (Nat × Nat × Int) :=
  let label := syms.getD (rng t k).toNat 0
  (⟨i, i + 1, label, logits t k label⟩, some (t, k, label))

/-- Lines 223-233 and 240-249: the arc with a blank. -/
def latHorizontal (rng : Nat → Nat → Int) (logits : Nat → Nat → Int → W) (r i t k : Nat) :
    Arc W × Option (Nat × Nat × Int) :=
  (⟨i, (rng t k - rng (t + 1) 0 + ((t + 1) * r : Nat)).toNat, 0, logits t k 0⟩, some (t, k, 0))

/-- Lines 177-256: arc `j` of state `i`. -/
def latArc [Zero W] (rng : Nat → Nat → Int) (syms : List Int) (logits : Nat → Nat → Int → W)
    (F r i j : Nat) : Arc W × Option (Nat × Nat × Int) :=
  if i + 1 = F * r then (⟨i, i + 1, -1, 0⟩, none)
  else if i % r < r - 1 then
    if j = 0 then latVertical rng syms logits i (i / r) (i % r)
    else latHorizontal rng logits r i (i / r) (i % r)
  else latHorizontal rng logits r i (i / r) (i % r)

def latArcs [Zero W] (rng : Nat → Nat → Int) (syms : List Int) (logits : Nat → Nat → Int → W)
    (F r : Nat) : List (Arc W × Option (Nat × Nat × Int)) :=
  (List.range (F * r + 1)).flatMap fun i =>
    (List.range (latNumArcs rng F r i)).map fun j => latArc rng syms logits F r i j

/-- The lattice of one sequence. -/
def lattice [Zero W] (rng : Nat → Nat → Int) (syms : List Int) (logits : Nat → Nat → Int → W)
    (F r : Nat) : Fsa W :=
  { numStates := F * r + 1, arcs := (latArcs rng syms logits F r).map Prod.fst }

end Verif.Rnnt
