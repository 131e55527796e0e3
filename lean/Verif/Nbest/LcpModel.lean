import Verif.Nbest.SuffixModel

/-!
# `CreateLcpArray` (k2/csrc/nbest.cu)

As in `SuffixModel`: numbers do not overflow, -1 is `none` of an `Option`, the `none` of a result is an
access outside an array.
-/

namespace Verif.Nbest

/-- `while (array[i + k] == array[j + k]) k++;`, lines 198-199. -/
def extend (text : List Nat) (i j k : Nat) : Option Nat :=
  match h : text[i + k]?, text[j + k]? with
  | some a, some b => if a = b then extend text i j (k + 1) else some k
  | _, _ => none
termination_by text.length - (i + k)
decreasing_by
  have := (List.getElem?_eq_some_iff.mp h).1
  omega

/-- Lines 195-200: the new value of `k` where `p` is `phi[i]`. -/
def lcpAt (text : List Nat) (i k : Nat) : Option Nat → Option Nat
  | none => some 0
  | some j => extend text i j k

/-- Lines 193-204 from `i` on: `phi` is the array from `i` on and the result is `plcp` from `i` on.  The
difference is truncated at zero, which is lines 202-203. -/
def plcpLoop (text : List Nat) : List (Option Nat) → Nat → Nat → Option (List Nat)
  | [], _, _ => some []
  | p :: phi, i, k => do
    let k ← lcpAt text i k p
    let rest ← plcpLoop text phi (i + 1) (k - 1)
    some (k :: rest)

/-- `CreateLcpArray(text, sa, n)`, k2/csrc/nbest.cu lines 179-208.  `phi` has arbitrary contents before
it is filled. -/
def createLcpArray (text sa : List Nat) (n : Nat) : Option (List Nat) := do
  let s0 ← sa[0]?
  let phi ← writeAll (List.replicate n (some 0)) ((s0, none) :: (sa.zip sa.tail).map (fun x => (x.2, some x.1)))
  let plcp ← plcpLoop text phi 0 0
  sa.mapM (fun s => plcp[s]?)

end Verif.Nbest
