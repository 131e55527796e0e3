import Verif.Hash.Model64

/-!
# `Delete`, `CheckEmpty` and `Resize` of `Hash64` (k2/csrc/hash.h)

`Delete` may not be mixed with other operations, and the copy is a kernel of its own, so each gets a machine of
its own: a kernel of threads, each of which runs one function.  The assignments to the two words of a bucket are
two steps.
-/

namespace Verif.Hash

/-- The state of a kernel: the two words of every bucket and where the threads are. -/
structure KSt64 (P : Type) where
  mem : Mem64
  pc : Nat → P

/-- Executions of a kernel; the list is the threads in the order in which they make their steps. -/
inductive Sched64 {P : Type} (run : Mem64 → P → Option (Mem64 × P)) : KSt64 P → List Nat → KSt64 P → Prop
  | nil (s : KSt64 P) : Sched64 run s [] s
  | step (s s' : KSt64 P) (l : List Nat) (t : Nat) (mem : Mem64) (p : P) : Sched64 run s l s' →
      run s'.mem (s'.pc t) = some (mem, p) →
      Sched64 run s (l ++ [t]) ⟨mem, fun u => if u = t then p else s'.pc u⟩

/-! ## `Delete` -/

inductive DPc64
  /-- Before `old_key = data_[2 * cur_bucket]`. -/
  | read (key cur : Nat)
  /-- Before `data_[2 * cur_bucket] = ~0`. -/
  | clearKey (cur : Nat)
  /-- Before `data_[2 * cur_bucket + 1] = ~0`. -/
  | clearVal (cur : Nat)
  | done
  deriving DecidableEq

/-- One step of `Delete`, hash.h 1230-1239. -/
def delRun64 (B : Nat) (m : Mem64) : DPc64 → Option (Mem64 × DPc64)
  | .read key cur => some (m, if m.key cur = key then .clearKey cur else .read key (step64 B key cur))
  | .clearKey cur => some (⟨fun i => if i = cur then empty else m.key i, m.val⟩, .clearVal cur)
  | .clearVal cur => some (⟨m.key, fun i => if i = cur then empty else m.val i⟩, .done)
  | .done => none

/-- A kernel that deletes a list of keys, one thread for each; hash.h 1228-1229. -/
def delInit64 (B : Nat) (keys : List Nat) (t : Nat) : DPc64 :=
  match keys[t]? with
  | some key => .read key (first64 B key)
  | none => .done

/-- The check of `CheckEmpty` and of the destructor, hash.h 1271-1275: both words of all buckets. -/
def checkEmpty64 (B : Nat) (m : Mem64) : Bool :=
  (List.range (2 * 2 ^ B)).all (fun i => (if i % 2 = 0 then m.key (i / 2) else m.val (i / 2)) == empty)

/-! ## `Resize` -/

/-- The constructor, hash.h 1065-1074: two to the result is the number of buckets.  `2 << buckets_num_bitsm1_` is
an `int`, so less than `2^31`. -/
def construct64 (buckets : Nat) : Option Nat :=
  match bitsLoop buckets 31 2 0 with
  | none => none
  | some bits => if buckets < 2 ^ 31 ∧ 128 ≤ buckets ∧ buckets = 2 <<< bits then some (bits + 1) else none

/-- The checks of `Resize`, hash.h 1299-1303. -/
def resize64 (buckets : Nat) : Option Nat :=
  if 0 < buckets ∧ buckets &&& (buckets - 1) = 0 then construct64 buckets else none

inductive CPc64
  /-- Before `AtomicCAS`. -/
  | cas (key val cur : Nat)
  /-- Before `*(data + 2 * cur_bucket + 1) = value`. -/
  | write (val cur : Nat)
  | done
  deriving DecidableEq

/-- One step of `lambda_copy_data`, hash.h 1332-1341. -/
def copyRun64 (B : Nat) (m : Mem64) : CPc64 → Option (Mem64 × CPc64)
  | .cas key val cur =>
    if m.key cur = empty then some (⟨fun i => if i = cur then key else m.key i, m.val⟩, .write val cur)
    else some (m, .cas key val (step64 B key cur))
  | .write val cur => some (⟨m.key, fun i => if i = cur then val else m.val i⟩, .done)
  | .done => none

/-- The threads of `lambda_copy_data`, one for each bucket of the source, which has two to the `B0` buckets; hash.h
1326-1331. -/
def copyInit64 (B0 B : Nat) (src : Mem64) (t : Nat) : CPc64 :=
  if t < 2 ^ B0 then
    if src.key t = empty then .done else .cas (src.key t) (src.val t) (first64 B (src.key t))
  else .done

end Verif.Hash
