import Verif.Hash.Model

/-!
# `Delete`, `CopyDataFromSimple`, `CopyDataFrom` and `CheckEmpty` (k2/csrc/hash.h, hash.cu)

`Delete` may not be mixed with other operations, and the copies are kernels of their own, so each gets a
machine of its own: a kernel of threads, each of which runs one function.
-/

namespace Verif.Hash

/-- The state of a kernel: the array and where the threads are. -/
structure KSt (P : Type) where
  mem : Nat → Nat
  pc : Nat → P

/-- Executions of a kernel; the list is the threads in the order in which they make their steps. -/
inductive Sched {P : Type} (run : (Nat → Nat) → P → Option ((Nat → Nat) × P)) : KSt P → List Nat → KSt P → Prop
  | nil (s : KSt P) : Sched run s [] s
  | step (s s' : KSt P) (l : List Nat) (t : Nat) (mem : Nat → Nat) (p : P) : Sched run s l s' →
      run s'.mem (s'.pc t) = some (mem, p) →
      Sched run s (l ++ [t]) ⟨mem, fun u => if u = t then p else s'.pc u⟩

/-! ## `Delete` -/

inductive DPc
  /-- Before `old_elem = data_[cur_bucket]`. -/
  | read (key cur : Nat)
  /-- Before `data_[cur_bucket] = ~0`. -/
  | write (key cur : Nat)
  | done
  deriving DecidableEq

/-- One step of `Delete`, hash.h 928-934. -/
def delRun (c : Cfg) (mem : Nat → Nat) : DPc → Option ((Nat → Nat) × DPc)
  | .read key cur =>
    some (mem, if wordKey c (mem cur) = keptKey c key then .write key cur else .read key (next c key cur))
  | .write _ cur => some (write mem cur empty, .done)
  | .done => none

/-- A kernel that deletes a list of keys, one thread for each; hash.h 922-926. -/
def delInit (c : Cfg) (keys : List Nat) (t : Nat) : DPc :=
  match keys[t]? with
  | some key => .read key (first c key)
  | none => .done

/-- The check of `CheckEmpty` and of the destructor, hash.cu 30-32. -/
def checkEmpty (c : Cfg) (mem : Nat → Nat) : Bool := (List.range c.N).all (fun b => mem b == empty)

/-! ## `CopyDataFromSimple` -/

inductive CPc
  /-- Before `AtomicCAS`; `w` is `key_value`. -/
  | cas (w key cur : Nat)
  | done
  deriving DecidableEq

/-- The next bucket, hash.h 204, in 64 bits. -/
def next64 (c : Cfg) (key cur : Nat) : Nat :=
  ((cur + (1 ||| ((key >>> (c.B - 1)) ^^^ key))) % 2 ^ 64) &&& (c.N - 1)

/-- One step, hash.h 200-204. -/
def copyRun (c : Cfg) (mem : Nat → Nat) : CPc → Option ((Nat → Nat) × CPc)
  | .cas w key cur =>
    if mem cur = empty then some (write mem cur w, .done) else some (mem, .cas w key (next64 c key cur))
  | .done => none

/-- The threads of `lambda_copy_data`, one for each bucket of the source, hash.h 193-198. -/
def copyInit (c : Cfg) (srcN : Nat) (src : Nat → Nat) (t : Nat) : CPc :=
  if t < srcN then
    if src t = empty then .done
    else
      let key := src t &&& (2 ^ c.keyBits - 1)
      .cas (src t) key (key &&& (c.N - 1))
  else .done

/-! ## `CopyDataFrom` -/

/-- The insertion by thread `i` of `lambda_copy_data`, hash.h 231-238. -/
def copyOp (src : Cfg) (mem : Nat → Nat) (i : Nat) : Option Op :=
  if mem i = empty then none
  else some (.insert (((wordKey src (mem i) <<< src.impl) % 2 ^ 64) ||| (i &&& (2 ^ src.impl - 1)))
    (wordVal src (mem i)))

end Verif.Hash
