import Verif.Nbest.IntervalModel
import Verif.Nbest.LcpModel
import Mathlib.Algebra.Field.Defs

/-!
# `GetBestMatchingStats` (k2/csrc/nbest.cu)

Scores are elements of a field: there is no rounding and no overflow of sums.  Counts are natural
numbers.  Of the arithmetic of the type `T` (`int16_t` or `int32_t`) the conversions of tokens and of
`max_order` are modelled; indexes into the text and sums of counts are natural numbers.  `none` stands
for a failed check or an access outside an array.
-/

namespace Verif.Nbest

/-- The conversion to a signed integer of `b` bits. -/
def wrap (b : Nat) (x : Int) : Int := x.bmod (2 ^ b)

/-- `ExclusiveSum` to an array that is longer by one, from the sum `s`. -/
def excl {K : Type} [Add K] : K → List K → List K
  | s, [] => [s]
  | s, a :: l => s :: excl (s + a) l

/-- The text, lines 456-475, in numbers of `b` bits: the tokens in reverse order, eos, the terminator and
three zeros.  A negative number would be used as an index. -/
def textOf (b : Nat) (tokens : List Int) (eos mn mx : Int) : Option (List Nat × Nat) := do
  let offset := wrap b (1 - wrap b mn)
  let terminator := wrap b (wrap b mx + 1 + offset)
  let text ← (tokens.reverse.map (fun t => wrap b (t + offset)) ++
      [wrap b (wrap b eos + offset), terminator, 0, 0, 0]).mapM
    (fun v => if 0 ≤ v then some v.toNat else none)
  some (text, terminator.toNat)

/-- What is returned for a position. -/
structure Stat (K : Type) where
  mean : K
  var : K
  count : Nat
  order : Int
deriving DecidableEq

/-- The difference of two values of a table of sums. -/
def between {K : Type} [Sub K] (t : List K) (f : Iv) : Option K := do
  let b ← t[f.rb + 1]?
  let a ← t[f.lb]?
  some (b - a)

/-- Lines 563-589: `f` is the tightest interval, `dist` is `dist_to_begin_data[i]`. -/
def statOf {K : Type} [Field K] (b : Nat) (maxOrder : Int) (f : Iv) (dist : Nat) (sum sq : K) (cnt : Nat) :
    Option (Stat K) :=
  let mean : K := if cnt = 0 then 0 else sum / cnt
  let var : K := if cnt = 0 ∨ cnt = 1 then 0 else (sq - 2 * mean * sum + cnt * mean * mean) / cnt
  if f.lcp = 0 then
    if f.parent = none then some ⟨mean, var, 0, 0⟩ else none
  else some ⟨mean, var, cnt, if dist ≤ f.lcp then maxOrder else min (f.lcp : Int) (wrap b maxOrder)⟩

/-- The body of the loop of lines 555-590. -/
def statAt {K : Type} [Field K] (b N : Nat) (maxOrder : Int) (inv lp : List Nat) (ivs : List Iv) (dist : List Nat)
    (sums sqs : List K) (cnts : List Nat) (i : Nat) : Option (Stat K) := do
  let r ← inv[N - 1 - i]?
  let d ← lp[r]?
  let f ← ivs[d]?
  let sum ← between sums f
  let sq ← between sqs f
  let cnt ← between cnts f
  let dist ← dist[i]?
  statOf b maxOrder f dist sum sq cnt

/-- A value in the order of the suffixes, lines 492-501; zero for eos and the terminator. -/
def reorder {K : Type} [Zero K] (sa : List Nat) (N : Nat) (v : List K) : Option (List K) :=
  sa.mapM (fun s => if N ≤ s then some 0 else v[N - 1 - s]?)

/-- `GetBestMatchingStatsInternal<T>` where `T` has `b` bits, k2/csrc/nbest.cu lines 399-591.  A sentence is a
list, so that `dist_to_begin` needs neither row ids nor row splits. -/
def bestMatchingInternal {K : Type} [Field K] (b : Nat) (tokens : List (List Int)) (scores : List K)
    (counts : List Nat) (eos mn mx maxOrder : Int) : Option (List (Stat K)) := do
  let w := tokens.flatten
  let N := w.length
  let n := N + 2
  let text ← textOf b w eos mn mx
  let sa ← createSuffixArray text.1 n text.2
  let c ← reorder sa N counts
  let s ← reorder sa N scores
  let q ← reorder sa N (scores.map (fun v => v * v))
  let cnts := excl 0 c
  if cnts.getLast? = some 0 then some (List.replicate N ⟨0, 0, 0, 0⟩) else do
  let lcp ← createLcpArray text.1 sa n
  let t ← createLcpIntervals lcp n
  let lp ← findTightest n t.1 cnts t.2
  let dist := tokens.flatMap (fun r => (List.range r.length).map (· + 1))
  let inv ← writeAll (List.replicate n 0) sa.zipIdx
  (List.range N).mapM (statAt b N maxOrder inv lp t.1 dist (excl 0 s) (excl 0 q) cnts)

/-- `GetBestMatchingStats` for tokens with two axes, lines 593-672. -/
def bestMatching {K : Type} [Field K] (tokens : List (List Int)) (scores : List K)
    (counts : List Nat) (eos mn mx maxOrder : Int) : Option (List (Stat K)) :=
  let N := tokens.flatten.length
  if mn ≤ eos ∧ eos ≤ mx ∧ 2 ≤ maxOrder ∧ N = scores.length ∧ N = counts.length then
    if N = 0 then some []
    else if N + 10 < 2 ^ 15 ∧ mx - mn + 10 < 2 ^ 15 then
      bestMatchingInternal 16 tokens scores counts eos mn mx maxOrder
    else bestMatchingInternal 32 tokens scores counts eos mn mx maxOrder
  else none

/-- The collections of tokens with three axes, one after the other, lines 638-656: each works on its part of
the arrays. -/
def collections {K : Type} [Field K] : List (List (List Int)) → List K → List Nat → Int → Int → Int → Int →
    Option (List (Stat K))
  | [], _, _, _, _, _, _ => some []
  | t :: ts, scores, counts, eos, mn, mx, maxOrder => do
    let m := t.flatten.length
    let r ← bestMatching t (scores.take m) (counts.take m) eos mn mx maxOrder
    let rest ← collections ts (scores.drop m) (counts.drop m) eos mn mx maxOrder
    some (r ++ rest)

/-- `GetBestMatchingStats` for tokens with three axes, lines 593-672. -/
def bestMatching3 {K : Type} [Field K] (tokens : List (List (List Int))) (scores : List K)
    (counts : List Nat) (eos mn mx maxOrder : Int) : Option (List (Stat K)) :=
  let N := tokens.flatten.flatten.length
  if mn ≤ eos ∧ eos ≤ mx ∧ 2 ≤ maxOrder ∧ N = scores.length ∧ N = counts.length then
    collections tokens scores counts eos mn mx maxOrder
  else none

end Verif.Nbest
