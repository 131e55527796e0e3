import Verif.Fsa.Scores.Model
import Verif.Ragged.EditModel

/-!
# shortest_path (k2/csrc/fsa_utils.cu, k2/csrc/fsa_algo.cu, k2/python/k2/fsa_algo.py 598-622)

An arc index of -1 is `none`; the outer `Option` stands, as everywhere, for failed checks, accesses outside
an array and two threads that write different values to the same element.
-/

namespace Verif.Fsa.Best
open Verif.Ragged Verif.Util Verif.Fsa.Bat Verif.Fsa.Sco
variable {W K : Type}

/-! ## Forward scores with entering arcs -/

/-- One row of `ArgMaxPerSublist` on the CPU, k2/csrc/ragged_ops_inl.h 641-655: `val` and `idx` so far, `k` is
the index of the head of the list.  The GPU operator (598-607) also takes the last one of equal elements. -/
def argMaxFrom [LinearOrder K] : K → Option Nat → Nat → List K → Option Nat
  | _, idx, _, [] => idx
  | val, idx, k, x :: l => if val ≤ x then argMaxFrom x (some k) (k + 1) l else argMaxFrom val idx (k + 1) l

/-- `lambda_set_entering_arcs_etc`, fsa_utils.cu 1226-1247: the entering arc of a state and its score. -/
def bestArc (bot : K) (arcs : List Nat) (ab : Nat) (vals : List K) : Option Nat → Option (Option Nat × K)
  | none => some (none, bot)
  | some k => do
    let j ← arcs[ab + k]?
    let x ← vals[k]?
    some (some j, x)

/-- The states of a batch with their entering arcs and scores, fsa_utils.cu 1212-1247. -/
def batchBest [LinearOrder K] (bot : K) (states sp3 arcs : List Nat) (sb se ab : Nat) (vals : List K) :
    Option (List (Nat × Option Nat × K)) :=
  (List.range (se - sb)).mapM (fun p => do
    let lo ← localSplit sp3 sb ab p
    let hi ← localSplit sp3 sb ab (p + 1)
    let s ← states[sb + p]?
    let best ← bestArc bot arcs ab vals (argMaxFrom bot none lo ((vals.drop lo).take (hi - lo)))
    some (s, best))

/-- The body of the loop over the batches with `entering_arcs`, fsa_utils.cu 1165-1268; `st` is
`state_scores` and `entering_arcs`. -/
def sweepBest [LinearOrder K] (v : FsaVec W) (mul : K → W → K) (bot : K)
    (other : Nat → Option Nat) (keep : Nat → Option Bool) (layers : List (List Nat × List Nat))
    (states : List Nat) (ab3 : List Nat × List Nat) (st : List K × List (Option Nat)) (i : Nat) :
    Option (List K × List (Option Nat)) := do
  let b ← batchValues v mul other layers ab3 st.1 i
  let best ← batchBest bot states ab3.1 ab3.2 b.1 b.2.1 b.2.2.1 b.2.2.2
  let ent ← writeAll st.2 (best.map (fun x => (x.1, x.2.1)))
  let cur ← copyScores bot keep st.1 (best.map (fun x => (x.1, x.2.2)))
  some (cur, ent)

/-- `GetForwardScores` in the tropical semiring with `entering_arcs`, fsa_utils.cu 1123-1272, called as in
k2/python/csrc/torch/fsa.cu 262-290 and k2/python/k2/fsa.py 590-625. -/
def forwardBest [LinearOrder K] (lp0 : Nat) (mul : K → W → K) (bot one : K) (v : FsaVec W) :
    Option (List K × List (Option Nat)) := do
  let sb ← stateBatchesT lp0 v
  let ab ← enteringBatches v sb.2
  let init ← initScores v bot one (fun b _ => b)
  (List.range (numBatches sb.1)).foldlM
    (fun st i => sweepBest v mul bot (srcState v) (isStart v) sb.1 sb.2 ab st i)
    (init, List.replicate v.id1.length none)

/-! ## Following the entering arcs -/

/-- `lambda_set_entering_arcs_powers`, k2/csrc/fsa_algo.cu 951-963, after `cur_index` is read. -/
def secondHalf (v : FsaVec W) (row : List (Option Nat)) (b : Nat) : Option Nat → Option (Option Nat)
  | none => some none
  | some j => do
    let a ← v.arcs[j]?
    row[a.src + b]?

/-- One thread of `lambda_set_entering_arcs_powers`, fsa_algo.cu 943-964. -/
def powerAt (v : FsaVec W) (row : List (Option Nat)) (g : Nat) : Option (Option Nat) := do
  let r ← v.id1[g]?
  let b ← v.sp1[r]?
  let c ← row[g]?
  secondHalf v row b c

/-- The next row of `entering_arcs_powers`, fsa_algo.cu 943-964. -/
def nextPower (v : FsaVec W) (row : List (Option Nat)) : Option (List (Option Nat)) :=
  (List.range v.id1.length).mapM (powerAt v row)

/-- The rows of `entering_arcs_powers` from a row on, fsa_algo.cu 931-964. -/
def arcPowers (v : FsaVec W) : Nat → List (Option Nat) → Option (List (List (Option Nat)))
  | 0, row => some [row]
  | lp + 1, row => do
    let next ← nextPower v row
    let rest ← arcPowers v lp next
    some (row :: rest)

/-- After `cur_index` is read in the loop over the bits, fsa_algo.cu 1029-1036; `none` inside is the return
of the thread. -/
def bitNext (v : FsaVec W) (b num : Nat) : Option Nat → Option (Option (Nat × Nat))
  | none => some none
  | some j => do
    let a ← v.arcs[j]?
    some (some (num, a.src + b))

/-- The body of the loop over the bits of `task_idx`, fsa_algo.cu 1025-1037; the state is
`cur_num_best_states_this_fsa` and `cur_dest_state_idx01`. -/
def walkBit (v : FsaVec W) (rows : List (List (Option Nat))) (b t : Nat) :
    Option (Nat × Nat) → Nat → Option (Option (Nat × Nat))
  | none, _ => some none
  | some (num, dest), m =>
    if t / 2 ^ m % 2 = 0 then some (some (num, dest))
    else do
      let row ← rows[m]?
      let c ← row[dest]?
      bitNext v b (num + 2 ^ m) c

/-- The loop of a task, fsa_algo.cu 1077-1110: the writes to `state_best_arc_index_array` and to
`num_best_arcs_per_fsa`.  `p` is the position that is written next, `cur` and `next` are
`cur_num_best_states_this_fsa` and `next_num_best_states_this_fsa`.  Runs out of fuel never, see
`taskLoop_eq`. -/
def taskLoop (v : FsaVec W) (rows : List (List (Option Nat))) (lp b : Nat) :
    Nat → Int → Nat → Nat → Nat → Option Nat → Option (List (Nat × Option Nat) × List Nat)
  | 0, _, _, _, _, _ => none
  | _ + 1, _, cur, _, prev, none => do
    let row ← rows[0]?
    let c ← row[prev]?
    some ([], if c = none then [if prev = b then cur + 1 else 0] else [])
  | fuel + 1, p, _, next, _, some j =>
    if p < 0 then none else do
    let a ← v.arcs[j]?
    let row ← rows[lp]?
    let c ← row[a.src + b]?
    let rest ← taskLoop v rows lp b fuel (p - 2 ^ lp) next (next + 2 ^ lp) (a.src + b) c
    some ((p.toNat, some j) :: rest.1, rest.2)

/-- A task after its first arc is read, fsa_algo.cu 1055-1075. -/
def taskFrom (v : FsaVec W) (rows : List (List (Option Nat))) (lp b e t num : Nat) :
    Option Nat → Option (List (Nat × Option Nat) × List Nat)
  | none => some ([], [])
  | some j =>
    if num ≠ t then none
    else do
      let a ← v.arcs[j]?
      taskLoop v rows lp b (v.id1.length + 1) ((e : Int) - 1 - num) num num (a.src + b) (some j)

/-- A task after the loop over the bits, fsa_algo.cu 1053-1056. -/
def taskAt (v : FsaVec W) (rows : List (List (Option Nat))) (lp b e t : Nat) :
    Option (Nat × Nat) → Option (List (Nat × Option Nat) × List Nat)
  | none => some ([], [])
  | some (num, dest) => do
    let row ← rows[0]?
    let c ← row[dest]?
    taskFrom v rows lp b e t num c

/-- A task that has something to do, fsa_algo.cu 1012-1056. -/
def taskRun (v : FsaVec W) (rows : List (List (Option Nat))) (lp b e t : Nat) :
    Option (List (Nat × Option Nat) × List Nat) := do
  let st ← (List.range lp).foldlM (walkBit v rows b t) (some (0, e - 1))
  taskAt v rows lp b e t st

/-- `lambda_set_numbert_best_arcs2` for FSA `r` and task `t`, fsa_algo.cu 981-1111. -/
def task (v : FsaVec W) (rows : List (List (Option Nat))) (lp r t : Nat) :
    Option (List (Nat × Option Nat) × List Nat) := do
  let b ← v.sp1[r]?
  let e ← v.sp1[r + 1]?
  let ba ← v.sp2[b]?
  let ea ← v.sp2[e]?
  if ea - ba = 0 ∨ e - b = 0 then some ([], [0])
  else if t + 1 > ea - ba ∨ t + 1 ≥ e - b then some ([], [])
  else taskRun v rows lp b e t

/-- The tasks that the threads of one FSA run: thread `j` runs task `j / jobs_multiple` if `jobs_multiple`
divides `j`, fsa_algo.cu 966-990. -/
def taskIds (lp jm : Nat) : List Nat := ((List.range (2 ^ lp * jm)).filter (fun j => j % jm = 0)).map (· / jm)

/-- The element of `num_best_arcs_per_fsa` of an FSA: 0 if no thread writes it; different values from two
threads are a data race. -/
def sameCount : List Nat → Option Nat
  | [] => some 0
  | n :: l => if ∀ m ∈ l, m = n then some n else none

/-- All tasks: `num_best_arcs_per_fsa` and `state_best_arc_index_array`, fsa_algo.cu 878-1111. -/
def allTasks (lp jm : Nat) (v : FsaVec W) (rows : List (List (Option Nat))) :
    Option (List Nat × List (Option Nat)) := do
  let res ← (List.range (v.sp1.length - 1)).mapM (fun r => (taskIds lp jm).mapM (task v rows lp r))
  let counts ← res.mapM (fun l => sameCount (l.map Prod.snd).flatten)
  let arr ← writeAll (List.replicate v.id1.length none) ((res.map (fun l => (l.map Prod.fst).flatten)).flatten)
  some (counts, arr)

/-- `lambda_set_best_arcs`, fsa_algo.cu 1123-1141. -/
def gatherBest (v : FsaVec W) (counts : List Nat) (arr : List (Option Nat)) :
    Option (List (Option Nat)) := do
  let ids ← rowSplitsToRowIds (psum counts) counts.sum
  (List.range counts.sum).mapM (fun k => do
    let r ← ids[k]?
    let x ← (psum counts)[r]?
    let y ← (psum counts)[r + 1]?
    let e ← v.sp1[r + 1]?
    if e < y - x then none else arr[e - (y - x) + (k - x)]?)

/-- `ShortestPath`, fsa_algo.cu 869-1145: row_splits and values.  `lp0` is 0 on the CPU and 4 on the GPU, `jm`
is `jobs_multiple`.  An array of entering arcs of the wrong size is out of scope (`none`). -/
def shortestPath (lp0 jm : Nat) (v : FsaVec W) (ent : List (Option Nat)) : Option (List Nat × List (Option Nat)) :=
  if ent.length ≠ v.id1.length then none else do
  let ms ← maxSize v.sp1
  let rows ← arcPowers v (logPower ms lp0) ent
  let res ← allTasks (logPower ms lp0) jm v rows
  let vals ← gatherBest v res.1 res.2
  some (psum res.1, vals)

/-! ## The FSAs of the paths -/

/-- The arcs and `row_ids2` of `lambda_set_arcs`, fsa_utils.cu 2121-2141; arc index -1 is an access outside
the array. -/
def pathArc (v : FsaVec W) (sp ids stSp : List Nat) (vals : List (Option Nat)) (k : Nat) :
    Option (Nat × Arc W) := do
  let r ← ids[k]?
  let x ← sp[r]?
  let o ← stSp[r]?
  let j ← vals[k]?
  let a ← j.bind (v.arcs[·]?)
  some (o + (k - x), ⟨k - x, k - x + 1, a.label, a.score⟩)

/-- The writes of `lambda_set_arcs` to `row_splits2`, fsa_utils.cu 2140-2147. -/
def pathSplits (sp ids stSp : List Nat) (k : Nat) : Option (List (Nat × Option Nat)) := do
  let r ← ids[k]?
  let x ← sp[r]?
  let y ← sp[r + 1]?
  let o ← stSp[r]?
  some ((o + (k - x) + 1, some (k + 1)) :: (if k = 0 then [(0, some 0)] else []) ++
    (if k - x + 1 = y - x then [(o + (k - x) + 2, some (k + 1))] else []))

/-- `FsaVecFromArcIndexes` when there are arcs, fsa_utils.cu 2104-2152; every element of `row_splits2` must
have been written. -/
def fromArcIndexes (v : FsaVec W) (sp ids : List Nat) (st : List Nat × List Nat) (vals : List (Option Nat)) :
    Option (FsaVec W) := do
  let arcs ← (List.range vals.length).mapM (pathArc v sp ids st.1 vals)
  let ws ← (List.range vals.length).mapM (pathSplits sp ids st.1)
  let arr ← writeAll (List.replicate (st.2.length + 1) none) ws.flatten
  let sp2 ← arr.mapM id
  some ⟨st.1, st.2, sp2, arcs.map Prod.fst, arcs.map Prod.snd⟩

/-- `FsaVecFromArcIndexes`, fsa_utils.cu 2079-2152. -/
def fsaVecFromArcIndexes (v : FsaVec W) (best : List Nat × List (Option Nat)) : Option (FsaVec W) :=
  if best.1.length ≠ v.sp1.length then none else do
  let ids ← rowSplitsToRowIds best.1 best.2.length
  let shape ← changeSublistSizePinned [(best.1, ids)] 1
  let st ← shape[0]?
  if best.2.length = 0 then some ⟨List.replicate (v.sp1.length - 1 + 1) 0, [], [0], [], []⟩
  else fromArcIndexes v best.1 ids st best.2

/-- `shortest_path`, k2/python/k2/fsa_algo.py 598-622 and k2/python/csrc/torch/fsa_algo.cu 288-308: the FSAs
and the arc map. -/
def shortestPathFsas [LinearOrder K] (lp0 jm : Nat) (mul : K → W → K) (bot one : K) (v : FsaVec W) :
    Option (FsaVec W × List (Option Nat)) := do
  let fb ← forwardBest lp0 mul bot one v
  let best ← shortestPath lp0 jm v fb.2
  let out ← fsaVecFromArcIndexes v best
  some (out, best.2)

end Verif.Fsa.Best
