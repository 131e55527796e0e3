import Verif.Rnnt.MutualInfoModel

/-!
# Model of `mutual_information_recursion` on the GPU

k2/python/csrc/torch/mutual_information_cuda.cu.  As in `Verif.Rnnt.MutualInfoModel` the numbers
themselves are modelled and not their logarithms: `LogAdd` is `+`, `+` of logs is `*`, log 0.0 is
`1` and `-infinity` is `0`.

Indexes are natural numbers; where the code tests an `int` that may be negative, the model tests
the same inequality with the negative term on the other side.

Memory.  `p`, `p_grad`, ... are functions of batch element and indexes with arbitrary contents at
the start.  The shared memory of a thread block (`p_buf`) has arbitrary contents when a thread
block starts to work on an item; `px_buf` and `py_buf` are completely written before they are
read and are functions of the item here.

Schedules.  A launch of a kernel works on items `w < B * num_blocks_this_iter`.  An item reads
global memory (event `load`) and later writes global memory (event `store`); the events of
different items may be interleaved in any way.  Between two `__syncwarp()` the threads of a
thread block run in any order.  Successive launches on one stream do not overlap.
-/

namespace Verif.Rnnt.Cuda
open Verif.Loop

/-- A row of `boundary`. -/
structure Bound where
  sb : Nat
  tb : Nat
  se : Nat
  te : Nat

/-- Lines 700, 772: `BLOCK_SIZE`, the number of threads, and for the loop over inner
iterations the order in which the threads run, which may differ for each inner iteration. -/
structure Grid where
  bs : Nat
  threads : Nat

/-- The part of the input that is the same for all launches: number of elements of the batch,
`S`, `T`, `modified`, `px`, `py`, `boundary`. -/
structure Input (W : Type) where
  B : Nat
  S : Nat
  T : Nat
  md : Bool
  px : Nat → Nat → Nat → W
  py : Nat → Nat → Nat → W
  bd : Nat → Bound

/-- A load or a store of the item with the given number (`batch_block_iter`). -/
inductive Ev where
  | load (w : Nat)
  | store (w : Nat)
deriving DecidableEq

/-- Order of events and of threads in one launch: `ord w i` is the order of the threads of item
`w` in inner iteration `i`; `junk w` is what is in the shared memory when the item starts. -/
structure Sched (W : Type) where
  evs : List Ev
  ord : Nat → Nat → List Nat
  junk : Nat → Nat → Nat → W

section forward
variable {W : Type} [CommSemiring W]

/-- Lines 162-163 (486): `block` and `b` of an item. -/
def blockOf (B w : Nat) : Nat := w / B
def elemOf (B w : Nat) : Nat := w % B

/-- Line 129 (435): `num_blocks_this_iter`, with `num_s_blocks = S / BLOCK_SIZE + 1`. -/
def numBlocks (bs S iter : Nat) : Nat := min (iter + 1) (S / bs + 1)

/-- Lines 168-169, 181-182 (487-488, 495-496): `s_block_begin` and `t_block_begin` after the boundary is added. -/
def sBegin (bs block : Nat) (d : Bound) : Nat := block * bs + d.sb
def tBegin (bs iter block : Nat) (d : Bound) : Nat := (iter - block) * bs + d.tb

/-- Lines 189-190 (503-504): `block_S` and `block_T` (0 where the `int` is not positive). -/
def blockS (bs sbb : Nat) (d : Bound) : Nat := min bs (d.se + 1 - sbb)
def blockT (bs tbb : Nat) (d : Bound) : Nat := min bs (d.te + 1 - tbb)

/-- Lines 195-211: `px_buf[i][j]`. -/
def pxBuf (md : Bool) (px : Nat → Nat → W) (d : Bound) (sbb tbb i j : Nat) : W :=
  let s := i + sbb
  let t := j + tbb
  if d.sb < s ∧ s ≤ d.se ∧ (if md then d.tb + 1 ≤ t else d.tb ≤ t) ∧ t ≤ d.te then
    px (s - 1) (if md then t - 1 else t)
  else 0

/-- Lines 213-215: `py_buf[i][j]`. -/
def pyBuf (py : Nat → Nat → W) (d : Bound) (sbb tbb i j : Nat) : W :=
  let s := i + sbb
  let t := j + tbb
  if d.tb < t ∧ t ≤ d.te ∧ s ≤ d.se then py s (t - 1) else 0

/-- Lines 224-230 (and 236-242): the element of `p` that belongs to `p_buf[a][c]`, with
`s = a + s_block_begin - 1` and `t = c + t_block_begin - 1`. -/
def context (p : Nat → Nat → W) (d : Bound) (sbb tbb a c : Nat) : W :=
  if d.sb + 1 ≤ a + sbb ∧ a + sbb ≤ d.se + 1 ∧ d.tb + 1 ≤ c + tbb ∧ c + tbb ≤ d.te + 1 then
    p (a + sbb - 1) (c + tbb - 1)
  else 0

/-- Lines 222-244: thread `a ≤ BLOCK_SIZE` loads `p_buf[a][0]`, thread `64 + c` loads `p_buf[0][c]`
if it is not one of the former; other elements keep what they had. -/
def loadForward (g : Grid) (p : Nat → Nat → W) (d : Bound) (sbb tbb : Nat)
    (junk : Nat → Nat → W) : Nat → Nat → W := fun a c =>
  if (c = 0 ∧ a ≤ g.bs ∧ a < g.threads) ∨
      (a = 0 ∧ c ≤ g.bs ∧ g.bs < 64 + c ∧ 64 + c < g.threads) then
    context p d sbb tbb a c
  else junk a c

/-- Lines 300-302: what a thread writes to `p_buf[s + 1][t + 1]`. -/
def cellForward (md : Bool) (px py : Nat → Nat → W) (d : Bound) (sbb tbb s t : Nat)
    (buf : Nat → Nat → W) : W :=
  buf s (if md then t else t + 1) * pxBuf md px d sbb tbb s t +
    buf (s + 1) t * pyBuf py d sbb tbb s t

/-- Lines 252-263: thread 0 sets `p_buf[1][1]`. -/
def firstForward (md : Bool) (px py : Nat → Nat → W) (d : Bound) (sbb tbb : Nat) (origin : Bool)
    (buf : Nat → Nat → W) : Nat → Nat → W :=
  upd buf 1 1 (if origin then 1 else cellForward md px py d sbb tbb 0 0 buf)

/-- Lines 279-306: inner iteration `i`, thread `s`. -/
def threadForward (md : Bool) (px py : Nat → Nat → W) (d : Bound) (sbb tbb bS bT i s : Nat)
    (buf : Nat → Nat → W) : Nat → Nat → W :=
  if s < bS ∧ s ≤ i ∧ i - s < bT then
    upd buf (s + 1) (i - s + 1) (cellForward md px py d sbb tbb s (i - s) buf)
  else buf

/-- Lines 266-307: the loop over inner iterations, `i` from 1 to `block_S + block_T - 2`. -/
def innerForward (md : Bool) (px py : Nat → Nat → W) (d : Bound) (sbb tbb bS bT : Nat)
    (ord : Nat → List Nat) (buf : Nat → Nat → W) : Nat → Nat → W :=
  forUp 1 (bS + bT - 2) (fun i buf =>
    (ord i).foldl (fun buf s => threadForward md px py d sbb tbb bS bT i s buf) buf) buf

/-- Global memory, `ans`, and the `p_buf` of the items that have been loaded. -/
structure FState (W : Type) where
  p : Nat → Nat → Nat → W
  ans : Nat → W
  bufs : Nat → Nat → Nat → W

/-- Lines 310-318: the block is written to `p`. -/
def storeP (p : Nat → Nat → W) (buf : Nat → Nat → W) (sbb tbb bS bT : Nat) : Nat → Nat → W :=
  fun s t => if sbb ≤ s ∧ s - sbb < bS ∧ tbb ≤ t ∧ t - tbb < bT then
    buf (s - sbb + 1) (t - tbb + 1) else p s t

/-- Lines 159-334: one event of an item.  Nothing happens if the block is empty (line 192). -/
def evForward (x : Input W) (g : Grid) (iter : Nat) (sc : Sched W) (e : Ev) (st : FState W) :
    FState W :=
  match e with
  | .load w =>
    let b := elemOf x.B w
    let d := x.bd b
    let sbb := sBegin g.bs (blockOf x.B w) d
    let tbb := tBegin g.bs iter (blockOf x.B w) d
    let bS := blockS g.bs sbb d
    let bT := blockT g.bs tbb d
    -- line 170, before the boundary is added
    let origin : Bool := blockOf x.B w * g.bs + (iter - blockOf x.B w) * g.bs == 0
    if bS = 0 ∨ bT = 0 then st
    else
      let buf := loadForward g (st.p b) d sbb tbb (sc.junk w)
      let buf := firstForward x.md (x.px b) (x.py b) d sbb tbb origin buf
      let buf := innerForward x.md (x.px b) (x.py b) d sbb tbb bS bT (sc.ord w) buf
      { st with bufs := fun w' => if w' = w then buf else st.bufs w' }
  | .store w =>
    let b := elemOf x.B w
    let d := x.bd b
    let sbb := sBegin g.bs (blockOf x.B w) d
    let tbb := tBegin g.bs iter (blockOf x.B w) d
    let bS := blockS g.bs sbb d
    let bT := blockT g.bs tbb d
    if bS = 0 ∨ bT = 0 then st
    else
      { st with
        p := fun b' => if b' = b then storeP (st.p b) (st.bufs w) sbb tbb bS bT else st.p b'
        -- lines 322-333
        ans := fun b' => if b' = b ∧ sbb + bS - 1 = d.se ∧ tbb + bT - 1 = d.te then
          st.bufs w bS bT else st.ans b' }

/-- One launch of `mutual_information_kernel`. -/
def launchForward (x : Input W) (g : Grid) (iter : Nat) (sc : Sched W) (st : FState W) : FState W :=
  sc.evs.foldl (fun st e => evForward x g iter sc e st) st

/-- Lines 705-707 (777-779): `num_iters`. -/
def numIters (bs S T : Nat) : Nat := (S / bs + 1) + (T / bs + 1) - 1

/-- Lines 711-720: the launches. -/
def runForward (x : Input W) (g : Grid) (sc : Nat → Sched W) (st : FState W) : FState W :=
  (List.range (numIters g.bs x.S x.T)).foldl (fun st iter => launchForward x g iter (sc iter) st) st

/-- The schedules that are possible: each item below `n` is loaded once and stored once, the load
comes first, and every thread runs in each inner iteration. -/
structure Sched.Valid (sc : Sched W) (g : Grid) (n : Nat) : Prop where
  nodup : sc.evs.Nodup
  loads : ∀ w, Ev.load w ∈ sc.evs ↔ w < n
  stores : ∀ w, Ev.store w ∈ sc.evs ↔ w < n
  order : ∀ w l r, sc.evs = l ++ Ev.store w :: r → Ev.load w ∈ l
  threads : ∀ w i, (sc.ord w i).Perm (List.range g.threads)

/-- What the comment in lines 39-42, 84-85 requires of the sizes; 32 and 128 in the code. -/
structure Grid.Ok (g : Grid) : Prop where
  pos : 0 < g.bs
  small : g.bs < 64
  many : 64 + g.bs < g.threads

/-- Boundaries that the python code accepts (mutual_information.py). -/
def Input.Ok (x : Input W) : Prop :=
  ∀ b < x.B, (x.bd b).sb ≤ (x.bd b).se ∧ (x.bd b).se ≤ x.S ∧
    (x.bd b).tb ≤ (x.bd b).te ∧ (x.bd b).te ≤ x.T

end forward

section backward
variable {W : Type} [Field W] [DecidableEq W]

/-- Lines 343-351, 541, 559-564: `safe_exp(p + px - q)` where `-infinity` in `p` and `q` has been
replaced by -1e30.  `exp` of about -1e30 is 0; `exp` of about 1e30 is infinite and `safe_exp` returns 0;
if both are replaced they cancel. -/
def safeTerm (p x q : W) : W :=
  if x = 0 then 0
  else if p = 0 ∧ q = 0 then x
  else if p = 0 then 0
  else if q = 0 then 0
  else p * x / q

/-- Lines 510-523: `px_buf` and `py_buf` as loaded.  If `modified`, `px[b][s][t_end]` is read for
`t_end = T`, which is behind the end of the row: some value. -/
def pxLoad (px : Nat → Nat → W) (d : Bound) (sbb tbb i j : Nat) : W :=
  if i + sbb < d.se ∧ j + tbb ≤ d.te then px (i + sbb) (j + tbb) else 0
def pyLoad (py : Nat → Nat → W) (d : Bound) (sbb tbb i j : Nat) : W :=
  if i + sbb ≤ d.se ∧ j + tbb < d.te then py (i + sbb) (j + tbb) else 0

/-- Lines 527-543: `p_buf` as loaded; 0.0 is log 1. -/
def pLoad (p : Nat → Nat → W) (d : Bound) (sbb tbb i j : Nat) : W :=
  if i + sbb ≤ d.se ∧ j + tbb ≤ d.te then p (i + sbb) (j + tbb) else 1

/-- `neg_t_offset`. -/
def negOff (md : Bool) : Nat := if md then 1 else 0

/-- Lines 546-565: `px_buf` and `py_buf` after they were replaced by the derivatives. -/
def term1 (md : Bool) (px p : Nat → Nat → W) (d : Bound) (sbb tbb i j : Nat) : W :=
  safeTerm (pLoad p d sbb tbb i j) (pxLoad px d sbb tbb i j)
    (pLoad p d sbb tbb (i + 1) (j + negOff md))
def term2 (py p : Nat → Nat → W) (d : Bound) (sbb tbb i j : Nat) : W :=
  safeTerm (pLoad p d sbb tbb i j) (pyLoad py d sbb tbb i j) (pLoad p d sbb tbb i (j + 1))

/-- Lines 569-588: the gradients above and to the right of the block. -/
def loadBackward (g : Grid) (pg : Nat → Nat → W) (d : Bound) (sbb tbb bS bT : Nat)
    (junk : Nat → Nat → W) : Nat → Nat → W := fun a c =>
  if (c = bT ∧ a ≤ bS ∧ a < g.threads) ∨ (a = bS ∧ c < bT ∧ bS < 64 + c ∧ 64 + c < g.threads) then
    if a + sbb ≤ d.se ∧ c + tbb ≤ d.te then pg (a + sbb) (c + tbb) else 0
  else junk a c

/-- Lines 615-626: thread `s` in inner iteration `i`. -/
def threadBackward (md : Bool) (px py p : Nat → Nat → W) (d : Bound) (sbb tbb bS bT i s : Nat)
    (buf : Nat → Nat → W) : Nat → Nat → W :=
  if s < bS ∧ s ≤ i ∧ i - s < bT then
    upd buf s (i - s)
      (buf (s + 1) (i - s + negOff md) * term1 md px p d sbb tbb s (i - s) +
        buf s (i - s + 1) * term2 py p d sbb tbb s (i - s))
  else buf

/-- Lines 597-628: `is_final_block`, `first_iter` and the loop.  `n` is `first_iter + 1`. -/
def innerBackward (md : Bool) (px py p : Nat → Nat → W) (d : Bound) (sbb tbb bS bT : Nat) (ag : W)
    (ord : Nat → List Nat) (buf : Nat → Nat → W) : Nat → Nat → W :=
  let final : Bool := sbb + bS == d.se + 1 && tbb + bT == d.te + 1
  let buf := if final then upd buf (bS - 1) (bT - 1) ag else buf
  let n := if final then bS + bT - 2 else bS + bT - 1
  forDown n 0 (fun i buf =>
    (ord (i - 1)).foldl
      (fun buf s => threadBackward md px py p d sbb tbb bS bT (i - 1) s buf) buf) buf

/-- Global memory: gradients, `ans_grad`, and the `p_buf` of the items that have been loaded. -/
structure BState (W : Type) where
  pg : Nat → Nat → Nat → W
  xg : Nat → Nat → Nat → W
  yg : Nat → Nat → Nat → W
  ag : Nat → W
  bufs : Nat → Nat → Nat → W

/-- Whether an item writes to `(s, t)`: line 638, for `s` and `t` in the block. -/
def inBlock (bs sbb tbb : Nat) (d : Bound) (s t : Nat) : Prop :=
  sbb ≤ s ∧ s < sbb + bs ∧ tbb ≤ t ∧ t < tbb + bs ∧ t ≤ d.te ∧ s ≤ d.se

instance (bs sbb tbb : Nat) (d : Bound) (s t : Nat) : Decidable (inBlock bs sbb tbb d s t) := by
  unfold inBlock; infer_instance

/-- Lines 483-664: one event of an item.  `p` is the table of the forward pass, `ow` is
`overwrite_ans_grad`. -/
def evBackward (x : Input W) (p : Nat → Nat → Nat → W) (ow : Bool) (g : Grid) (iter : Nat)
    (sc : Sched W) (e : Ev) (st : BState W) : BState W :=
  match e with
  | .load w =>
    let b := elemOf x.B w
    let d := x.bd b
    let sbb := sBegin g.bs (blockOf x.B w) d
    let tbb := tBegin g.bs iter (blockOf x.B w) d
    let bS := blockS g.bs sbb d
    let bT := blockT g.bs tbb d
    if bS = 0 ∨ bT = 0 then st
    else
      let buf := loadBackward g (st.pg b) d sbb tbb bS bT (sc.junk w)
      let buf := innerBackward x.md (x.px b) (x.py b) (p b) d sbb tbb bS bT (st.ag b) (sc.ord w) buf
      { st with bufs := fun w' => if w' = w then buf else st.bufs w' }
  | .store w =>
    let b := elemOf x.B w
    let d := x.bd b
    let sbb := sBegin g.bs (blockOf x.B w) d
    let tbb := tBegin g.bs iter (blockOf x.B w) d
    let bS := blockS g.bs sbb d
    let bT := blockT g.bs tbb d
    if bS = 0 ∨ bT = 0 then st
    else
      let buf := st.bufs w
      { st with
        -- lines 632-659
        pg := fun b' s t => if b' = b ∧ inBlock g.bs sbb tbb d s t then
          buf (s - sbb) (t - tbb) else st.pg b' s t
        xg := fun b' s t =>
          if b' = b ∧ inBlock g.bs sbb tbb d s t ∧ s < d.se ∧ t + negOff x.md ≤ d.te then
            buf (s - sbb + 1) (t - tbb + negOff x.md) *
              term1 x.md (x.px b) (p b) d sbb tbb (s - sbb) (t - tbb)
          else st.xg b' s t
        yg := fun b' s t =>
          if b' = b ∧ inBlock g.bs sbb tbb d s t ∧ t < d.te then
            buf (s - sbb) (t - tbb + 1) * term2 (x.py b) (p b) d sbb tbb (s - sbb) (t - tbb)
          else st.yg b' s t
        -- lines 661-663
        ag := fun b' => if b' = b ∧ sbb = d.sb ∧ tbb = d.tb ∧ ow then buf 0 0 else st.ag b' }

/-- One launch of `mutual_information_backward_kernel`. -/
def launchBackward (x : Input W) (p : Nat → Nat → Nat → W) (ow : Bool) (g : Grid) (iter : Nat)
    (sc : Sched W) (st : BState W) : BState W :=
  sc.evs.foldl (fun st e => evBackward x p ow g iter sc e st) st

/-- Lines 783-795: the launches, `iter` from `num_iters - 1` down to 0. -/
def runBackward (x : Input W) (p : Nat → Nat → Nat → W) (ow : Bool) (g : Grid) (sc : Nat → Sched W)
    (st : BState W) : BState W :=
  (List.range (numIters g.bs x.S x.T)).reverse.foldl
    (fun st iter => launchBackward x p ow g iter (sc iter) st) st

end backward
end Verif.Rnnt.Cuda
