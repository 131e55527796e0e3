import Verif.Nbest.SuffixModel

/-!
# `CreateLcpIntervalArray` and `FindTightestNonemptyIntervals` (k2/csrc/nbest.cu)

As in `SuffixModel`: numbers do not overflow, -1 is `none` of an `Option`, the `none` of a result is an
access outside an array, `back` of an empty vector, or an assertion that fails.
-/

namespace Verif.Nbest

/-- `LcpInterval`, k2/csrc/nbest.h lines 145-157.  On the stack `rb` is not yet known, except for the
bottom, and `parent` is the number of the interval itself, in the order of pushing. -/
structure Iv where
  lcp : Nat
  lb : Nat
  rb : Nat
  parent : Option Nat
deriving DecidableEq, Repr

/-- The variables of `CreateLcpIntervalArray` except the stack.  `out` is the part of `lcp_intervals_data`
that has been written: its length is `dfs_next`. -/
structure St where
  leaves : List Nat
  out : List Iv
  order : List Nat
  leafParent : List Nat
  next : Nat
  last : Option Nat

/-- Lines 271-274; the back of the vector is the head of the list. -/
def popLeaves (lb d : Nat) : List Nat → List Nat → Option (List Nat × List Nat)
  | [], lp => some ([], lp)
  | a :: as, lp => if lb ≤ a then (write lp a d).bind (popLeaves lb d as) else some (a :: as, lp)

/-- The loop of lines 265-295 at `i` where `lcp_array[i]` is `v`; the back of the stack is the head of the
list. -/
def popLoop (n i v : Nat) : List Iv → Nat → St → Option (List Iv × Nat × St)
  | [], _, _ => none
  | e :: es, lb, s =>
    if v < e.lcp then do
      let self ← e.parent
      let r ← popLeaves e.lb s.out.length s.leaves s.leafParent
      let order ← if s.out.length < n then write s.order self s.out.length else none
      let p ← es.head?
      popLoop n i v es e.lb { s with
        leaves := r.1, leafParent := r.2, order := order,
        out := s.out ++ [{ e with rb := i - 1, parent := if v ≤ p.lcp then p.parent else e.parent }],
        last := if v ≤ p.lcp then none else some self }
    else some (e :: es, lb, s)

/-- `lcp_intervals_data[intervals_order_data[last_interval]].parent = next`, lines 297-300. -/
def setLast (s : St) : Option (List Iv) :=
  match s.last with
  | none => some s.out
  | some l => do
    let d ← s.order[l]?
    let f ← s.out[d]?
    some (s.out.set d { f with parent := some s.next })

/-- The body of the loop of lines 261-303. -/
def ivStep (lcp : List Nat) (n i : Nat) (stack : List Iv) (s : St) : Option (List Iv × St) := do
  let v ← lcp[i]?
  let r ← popLoop n i v stack (i - 1) { s with leaves := (i - 1) :: s.leaves }
  let e ← r.1.head?
  if e.lcp < v then do
    let out ← setLast r.2.2
    some (⟨v, r.2.1, 0, some r.2.2.next⟩ :: r.1, { r.2.2 with out := out, last := none, next := r.2.2.next + 1 })
  else some (r.1, r.2.2)

/-- `m` rounds of that loop from `i` on. -/
def ivLoop (lcp : List Nat) (n : Nat) : Nat → Nat → List Iv → St → Option (List Iv × St)
  | 0, _, stack, s => some (stack, s)
  | m + 1, i, stack, s => (ivStep lcp n i stack s).bind (fun r => ivLoop lcp n m (i + 1) r.1 r.2)

/-- Lines 315-321: `parent` refers to the position in the array; the last one, the top, is left. -/
def fixParents (order : List Nat) (out : List Iv) : Option (List Iv) :=
  out.mapM (fun f => do
    let c ← f.parent
    let d ← order[c]?
    some { f with parent := some d })

/-- `CreateLcpIntervalArray(c, n, lcp)`, k2/csrc/nbest.cu lines 216-329: the intervals and the parents of
the leaves.  The arrays have arbitrary contents before they are filled. -/
def createLcpIntervals (lcp : List Nat) (n : Nat) : Option (List Iv × List Nat) := do
  let r ← ivLoop lcp n (n - 1) 1 [⟨0, 0, n - 1, some 0⟩]
    ⟨[], [], List.replicate n 0, List.replicate n 0, 1, none⟩
  match r.1 with
  | [root] => do
    let s := r.2
    let d := s.out.length
    if d < n then do
      let order ← write s.order 0 d
      let q ← popLeaves 0 d ((n - 1) :: s.leaves) s.leafParent
      if d + 1 = s.next then do
        let out ← fixParents order s.out
        some (out ++ [{ root with parent := none }], q.2)
      else none
    else none
  | _ => none

/-- The loop of lines 363-376 for the intervals whose number is at least `i`: `ivs` are these intervals and
the result is the array from `i` on. -/
def tightest (cum : List Nat) : List Iv → Nat → Option (List Nat)
  | [], _ => some []
  | f :: ivs, i => do
    let rest ← tightest cum ivs (i + 1)
    let b ← cum[f.rb + 1]?
    let a ← cum[f.lb]?
    match f.parent with
    | none => some (i :: rest)
    | some p =>
      if a < b then some (i :: rest)
      else if p < i + 1 then none
      else (rest[p - (i + 1)]?).bind (fun j => some (j :: rest))

/-- `FindTightestNonemptyIntervals`, k2/csrc/nbest.cu lines 345-381: the new `leaf_parent_intervals`.
`cum` is `counts_exclusive_sum`. -/
def findTightest (n : Nat) (ivs : List Iv) (cum leafParent : List Nat) : Option (List Nat) :=
  if cum.length = n + 1 ∧ leafParent.length = n then do
    let t ← tightest cum ivs 0
    leafParent.mapM (fun d => t[d]?)
  else none

end Verif.Nbest
