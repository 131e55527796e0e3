import Verif.Fsa.Scores.Model
import Verif.Ragged.ReduceModel
import Mathlib.Algebra.Order.Field.Basic

/-!
# `random_paths` (k2/python/k2/fsa_algo.py 924-973; `GetArcCdf` and `RandomPaths`, k2/csrc/fsa_utils.cu 2191-2690)

Probabilities are elements of an ordered field; scores and log-posteriors are given by their exponentials, minus
infinity is 0.  `none` stands for a failed check, an access outside an array, an element that is read although
nobody has written it, two threads that write the same element, or a loop that does not end.

Simplifications: `exp(lowest())` is a positive number `low`; `std::upper_bound` returns the position that its
specification requires of a sorted range; there is no rounding.
-/

namespace Verif.Fsa.Rp
open Verif.Ragged Verif.Util Verif.Fsa.Bat Verif.Fsa.Sco
variable {W K : Type} [Field K] [LinearOrder K]

/-! ## `GetArcCdf` -/

/-- `lambda_set_arc_probs`, fsa_utils.cu 2218-2225: the difference of two logarithms is a quotient. -/
def arcPdf (ids : List Nat) (post state : List K) : Option (List K) :=
  (List.range post.length).mapM (fun i => do
    let x ← post[i]?
    let s ← ids[i]?
    let y ← state[s]?
    some (x / y))

/-- `lambda_set_inv_tots`, fsa_utils.cu 2254-2268. -/
def invTot (sp : List Nat) (pdf cdf : List K) (s : Nat) : Option K := do
  let b ← sp[s]?
  let e ← sp[s + 1]?
  if b < e then do
    let x ← cdf[e - 1]?
    let y ← pdf[e - 1]?
    some (if 0 < x + y then 1 / (x + y) else 1)
  else some 1

/-- `lambda_modify_cdf`, fsa_utils.cu 2272-2277. -/
def scaleCdf (ids : List Nat) (cdf inv : List K) : Option (List K) :=
  (List.range cdf.length).mapM (fun i => do
    let s ← ids[i]?
    let x ← cdf[i]?
    let y ← inv[s]?
    some (x * y))

/-- The loop of `lambda_fix_cdf`, fsa_utils.cu 2291-2301: `k` elements from `next` on; the last argument is
`smallest_later_value`. -/
def fixLoop (cdf : List K) (cutoff : K) : Nat → Nat → K → Option K
  | _, 0, m => some m
  | next, k + 1, m => do
    let x ← cdf[next]?
    if cutoff < x then some (if x < m then x else m)
    else fixLoop cdf cutoff (next + 1) k (if x < m then x else m)

/-- `lambda_fix_cdf`, fsa_utils.cu 2284-2306.  A thread reads only elements after its own, so that on the CPU it
sees the values before the kernel. -/
def fixCdf (sp ids : List Nat) (cdf : List K) (i : Nat) : Option K := do
  let s ← ids[i]?
  let e ← sp[s + 1]?
  let cur ← cdf[i]?
  let m ← fixLoop cdf (cur + 1 / 10000) (i + 1) (e - (i + 1)) cur
  some (if 1 < m then 1 else m)

/-- `GetArcCdf`, fsa_utils.cu 2191-2308. -/
def arcCdf (low : K) (v : FsaVec W) (post : List K) : Option (List K) :=
  if post.length ≠ v.arcs.length then none else do
  let state ← segmentedReduce (· + ·) low v.sp2 post
  let pdf ← arcPdf v.id2 post state
  let cdf ← exclusiveSumRows v.sp2 pdf
  let inv ← (List.range v.id1.length).mapM (invTot v.sp2 pdf cdf)
  let cdf' ← scaleCdf v.id2 cdf inv
  (List.range cdf'.length).mapM (fixCdf v.sp2 v.id2 cdf')

/-! ## The numbers of batches -/

/-- The number of states of FSA `i` in batch `b`, fsa_utils.cu 2364-2367. -/
def sizeAt (sp1 sp2 : List Nat) (i b : Nat) : Option Nat := do
  let start ← sp1[b]?
  let y ← sp2[start + i + 1]?
  let x ← sp2[start + i]?
  some (y - x)

/-- What the thread for FSA `i` and batch `b` of `lambda_set_num_state_batches` writes, fsa_utils.cu 2368-2381. -/
def countWrites (sp1 sp2 : List Nat) (maxB i b : Nat) : Option (List Nat) := do
  let n ← sizeAt sp1 sp2 i b
  if n = 0 then
    if b = 0 then some [0] else do
      let m ← sizeAt sp1 sp2 i (b - 1)
      some (if m ≠ 0 then [b] else [])
  else some (if b + 1 = maxB then [maxB] else [])

/-- `num_state_batches[i]`, fsa_utils.cu 2352-2382 and 2396. -/
def batchCount (layers : List (List Nat × List Nat)) (i : Nat) : Option Nat :=
  match layers with
  | [l1, l2] =>
    if l1.1.length - 1 = 0 then some 0 else do
    let ws ← (List.range (l1.1.length - 1)).mapM (countWrites l1.1 l2.1 (l1.1.length - 1) i)
    match ws.flatten with
    | [n] => some n
    | _ => none
  | _ => none

/-! ## One path -/

/-- `interval_end`, fsa_utils.cu 2497-2499 and 2576-2578; `e` is the end of the arcs of the state. -/
def intervalEnd (cdf : List K) (e j : Nat) : Option K := if j + 1 = e then some 1 else cdf[j + 1]?

/-- The arc that the CPU takes, fsa_utils.cu 2566-2575. -/
def pickCpu (cdf : List K) (b e : Nat) (p : K) : Option Nat :=
  if b < e then some (b + ((cdf.drop (b + 1)).take (e - (b + 1))).findIdx (fun x => decide (p < x))) else none

/-- Whether the thread for arc `j` takes it on the GPU, fsa_utils.cu 2496-2505. -/
def gpuTakes (cdf : List K) (e : Nat) (p : K) (j : Nat) : Option (List Nat) := do
  let x ← cdf[j]?
  let y ← intervalEnd cdf e j
  some (if x ≤ p ∧ p ≤ y ∧ x < y ∧ (p ≠ y ∨ p = 1) then [j] else [])

/-- The arc that the GPU takes, fsa_utils.cu 2494-2533.  If no thread takes an arc the loop does not end. -/
def pickGpu (cdf : List K) (b e : Nat) (p : K) : Option Nat := do
  let l ← (List.range' b (e - b)).mapM (gpuTakes cdf e p)
  match l.flatten with
  | [j] => some j
  | _ => none

/-- Is the path at its end?  fsa_utils.cu 2561 and 2480-2489. -/
def atEnd (gpu : Bool) (v : FsaVec W) (final cur b e : Nat) : Option Bool :=
  if gpu then
    if b = e then do
      let x ← v.sp2[final]?
      if x = b then some true else none
    else some false
  else some (cur == final)

/-- The arcs of a path, fsa_utils.cu 2469-2535 and 2543-2592.  `off` is the first state of the FSA, `nb` the number
of elements in the storage of the path. -/
def walk (gpu : Bool) (v : FsaVec W) (cdf : List K) (off final nb : Nat) : Nat → Nat → Nat → K → Option (List Nat)
  | 0, _, _, _ => none
  | fuel + 1, pos, cur, p => do
    let b ← v.sp2[cur]?
    let e ← v.sp2[cur + 1]?
    let stop ← atEnd gpu v final cur b e
    if stop then some []
    else do
      let j ← (bif gpu then pickGpu cdf b e p else pickCpu cdf b e p)
      let x ← cdf[j]?
      let y ← intervalEnd cdf e j
      let a ← v.arcs[j]?
      if nb ≤ pos + 1 then none
      else do
        let rest ← walk gpu v cdf off final nb fuel (pos + 1) (a.dst + off) ((p - x) / (y - x))
        some (j :: rest)

/-! ## `RandomPaths` -/

/-- The writes to `path_storage` for path `k` of FSA `r`; `m` is the number of its paths, `start` its storage. -/
def pathWrites (gpu : Bool) (v : FsaVec W) (cdf : List K) (r start m nb k : Nat) : Option (List (Nat × Nat)) := do
  let b ← v.sp1[r]?
  let e ← v.sp1[r + 1]?
  let path ← walk gpu v cdf b (e - 1) nb (nb + 1) 0 b ((1 / 2 + (k : K)) / (m : K))
  some ((start + k * nb, path.length) :: path.mapIdx (fun i j => (start + k * nb + (i + 1), j)))

/-- The writes for all paths of FSA `r`. -/
def fsaWrites (gpu : Bool) (v : FsaVec W) (cdf : List K) (storage nps nbs : List Nat) (r : Nat) :
    Option (List (Nat × Nat)) := do
  let start ← storage[r]?
  let m ← nps[r]?
  let nb ← nbs[r]?
  let l ← (List.range m).mapM (pathWrites gpu v cdf r start m nb)
  some l.flatten

/-- The position of the storage of path `i` and its size, fsa_utils.cu 2598-2603 and 2624-2633. -/
def storageOf (storage pathSp pathIds nbs : List Nat) (i : Nat) : Option (Nat × Nat) := do
  let r ← pathIds[i]?
  let b ← pathSp[r]?
  let nb ← nbs[r]?
  let start ← storage[r]?
  some (start + (i - b) * nb, nb)

/-- `lambda_get_path_lengths`, fsa_utils.cu 2597-2608. -/
def pathLength (ws : List (Nat × Nat)) (storage pathSp pathIds nbs : List Nat) (i : Nat) : Option Nat := do
  let st ← storageOf storage pathSp pathIds nbs i
  let n ← readWritten ws st.1
  if 0 < n ∧ n < st.2 then some n else none

/-- `lambda_format_ans_data`, fsa_utils.cu 2623-2635. -/
def pathArc (ws : List (Nat × Nat)) (storage pathSp pathIds nbs sp ids : List Nat) (x : Nat) : Option Nat := do
  let i ← ids[x]?
  let b ← sp[i]?
  let st ← storageOf storage pathSp pathIds nbs i
  readWritten ws (st.1 + (1 + (x - b)))

/-- `RandomPaths` with an array of numbers of paths, fsa_utils.cu 2336-2637: the row_splits of the two axes and the
values. -/
def randomPathsOf (gpu : Bool) (v : FsaVec W) (cdf : List K) (nps : List Nat) (layers : List (List Nat × List Nat)) :
    Option (List Nat × List Nat × List Nat) :=
  if cdf.length ≠ v.arcs.length ∨ nps.length ≠ v.sp1.length - 1 then none else do
  let nbs ← (List.range (v.sp1.length - 1)).mapM (batchCount layers)
  let storage := psum (List.zipWith (· * ·) nps nbs)
  let pathSp := psum nps
  let pathIds ← rowSplitsToRowIds pathSp nps.sum
  let wss ← (List.range (v.sp1.length - 1)).mapM (fsaWrites gpu v cdf storage nps nbs)
  let lengths ← (List.range nps.sum).mapM (pathLength wss.flatten storage pathSp pathIds nbs)
  let ids ← rowSplitsToRowIds (psum lengths) lengths.sum
  let vals ← (List.range lengths.sum).mapM (pathArc wss.flatten storage pathSp pathIds nbs (psum lengths) ids)
  some (pathSp, psum lengths, vals)

/-- `RandomPaths` with a number of paths, fsa_utils.cu 2651-2673: FSAs whose total score is minus infinity get no
paths. -/
def randomPathsN (gpu : Bool) (v : FsaVec W) (cdf : List K) (n : Nat) (tot : List K)
    (layers : List (List Nat × List Nat)) : Option (List Nat × List Nat × List Nat) :=
  randomPathsOf gpu v cdf (tot.map (fun x => if 0 < x then n else 0)) layers

/-- `k2.random_paths`, fsa_algo.py 924-973, with `_get_arc_cdf` and `_get_tot_scores` of fsa.py. -/
def randomPaths (gpu : Bool) (lp0 : Nat) (low : K) (wt : W → K) (mid : K → K → K) (n : Nat) (v : FsaVec W) :
    Option (List Nat × List Nat × List Nat) :=
  if n = 0 then none else do
  let fwd ← forwardScores lp0 (fun x w => x * wt w) (· + ·) 0 1 v
  let bwd ← backwardScores lp0 (fun x w => x * wt w) (· + ·) 0 1 v
  let post ← arcPost v 1 (fun x w => x * wt w) (· * ·) mid (·⁻¹) fwd bwd
  let cdf ← arcCdf low v post
  let tot ← totScores v 0 fwd
  let sb ← stateBatchesT lp0 v
  randomPathsN gpu v cdf n tot sb.1

end Verif.Fsa.Rp
