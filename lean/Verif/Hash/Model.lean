/-!
# `Hash` (k2/csrc/hash.h 55-1010)

The lock-free hash of k2: an array of 64-bit words, addressed openly.  `PackedAccessor` is modelled;
`Accessor` and `GenericAccessor` execute the same statements with `num_implicit_key_bits_ = 0` and
`num_kept_key_bits_ = num_key_bits_`, so they are the configurations with `keyBits + valBits = 64`.

Threads run one at a time (sequential consistency); each step of a thread is one access to the shared array
with the local computation that follows it, and `AtomicCAS` is one step.  The words are natural numbers with
the C operations on 64 or 32 bits written out.  The array is a function from positions to words;
`probe_lt` in `Probe.lean` shows that the threads access positions inside it only.
-/

namespace Verif.Hash

/-- The members of `Hash` (hash.h 992-1008): `num_buckets` is two to the `B`. -/
structure Cfg where
  B : Nat
  keyBits : Nat
  valBits : Nat
  deriving DecidableEq

namespace Cfg

/-- `num_implicit_key_bits_`, hash.h 735. -/
def impl (c : Cfg) : Nat := c.keyBits + c.valBits - 64

/-- `num_kept_key_bits_`, hash.h 734. -/
def kept (c : Cfg) : Nat := 64 - c.valBits

def N (c : Cfg) : Nat := 2 ^ c.B

end Cfg

/-- All bits set: an empty bucket. -/
def empty : Nat := 2 ^ 64 - 1

/-- The loop of the constructor that computes `buckets_num_bitsm1_`, hash.h 140-142. -/
def bitsLoop (buckets : Nat) : Nat → Nat → Nat → Option Nat
  | 0, _, _ => none
  | fuel + 1, n, bits => if n < buckets then bitsLoop buckets fuel (n * 2) (bits + 1) else some bits

/-- The constructor, hash.h 127-158, with the checks of the constructor of `PackedAccessor`, 739-741.
`valBits` is `none` for the default. -/
def construct (buckets keyBits : Nat) (valBits : Option Nat) : Option Cfg :=
  match bitsLoop buckets 31 2 0 with
  | none => none
  | some bits =>
    let vb := valBits.getD (64 - keyBits)
    if buckets < 2 ^ 31 ∧ 128 ≤ buckets ∧ buckets = 2 <<< bits ∧ 64 ≤ keyBits + vb ∧ 32 ≤ buckets >>> (keyBits + vb - 64) ∧
        vb < 64 then some ⟨bits + 1, keyBits, vb⟩
    else none

/-- The first bucket, hash.h 772. -/
def first (c : Cfg) (key : Nat) : Nat := (key % 2 ^ 32) &&& (c.N - 1)

/-- `bucket_inc`, hash.h 777-778, in 32 bits. -/
def inc (c : Cfg) (key : Nat) : Nat :=
  (((1 ||| ((key >>> (c.B - 1)) ^^^ key)) <<< c.impl) % 2 ^ 64) % 2 ^ 32

/-- The next bucket, hash.h 810. -/
def next (c : Cfg) (key cur : Nat) : Nat := ((cur + inc c key) % 2 ^ 32) &&& (c.N - 1)

/-- `kept_key`, hash.h 779. -/
def keptKey (c : Cfg) (key : Nat) : Nat := key >>> c.impl

/-- The key bits of a word: `cur_elem & kept_key_mask`, hash.h 788. -/
def wordKey (c : Cfg) (w : Nat) : Nat := w &&& (2 ^ c.kept - 1)

/-- The value in a word: `cur_elem >> num_kept_key_bits_`, hash.h 789. -/
def wordVal (c : Cfg) (w : Nat) : Nat := w >>> c.kept

/-- `new_elem`, hash.h 786. -/
def mkWord (c : Cfg) (key val : Nat) : Nat := ((val <<< c.kept) % 2 ^ 64) ||| keptKey c key

/-- The key from the kept bits and the position, hash.h 903-905. -/
def unpackKey (c : Cfg) (kept loc : Nat) : Nat :=
  ((kept <<< c.impl) % 2 ^ 64) ||| (loc &&& (2 ^ c.impl - 1))

/-! ## Operations -/

/-- The operations: `Insert`, `Find` and the two `SetValue`. -/
inductive Op
  | insert (key val : Nat)
  | find (key : Nat)
  | set (loc key val : Nat)
  | set2 (loc val : Nat)
  deriving DecidableEq

/-- What they return.  `ins`: the returned value, `*old_value` if it is set, `*key_value_location`;
`found`: the value and the location. -/
inductive Res
  | ins (ok : Bool) (old : Option Nat) (loc : Nat)
  | found (x : Option (Nat × Nat))
  | unit
  | key (k : Nat)
  deriving DecidableEq

/-- Where a thread is. -/
inductive Pc
  | idle
  /-- `Insert`, before `cur_elem = data_[cur_bucket]`. -/
  | insRead (key val cur : Nat)
  /-- `Insert`, before `AtomicCAS`. -/
  | insCas (key val cur : Nat)
  /-- `Find`, before `old_elem = data_[cur_bucket]`. -/
  | findRead (key cur : Nat)
  /-- `SetValue` with a key, before the assignment. -/
  | setWrite (loc key val : Nat)
  /-- `SetValue` without a key, before reading. -/
  | set2Read (loc val : Nat)
  /-- `SetValue` without a key, before the assignment; `w` is the kept key. -/
  | set2Write (loc val w : Nat)
  /-- Before returning. -/
  | done (op : Op) (r : Res)
  deriving DecidableEq

/-- The start of an operation: hash.h 772-786, 836-843, 871-875, 895. -/
def start (c : Cfg) : Op → Pc
  | .insert key val => .insRead key val (first c key)
  | .find key => .findRead key (first c key)
  | .set loc key val => .setWrite loc key val
  | .set2 loc val => .set2Read loc val

/-- Replace one word. -/
def write (mem : Nat → Nat) (loc w : Nat) : Nat → Nat := fun i => if i = loc then w else mem i

/-- `Insert` after reading `w` at `cur`, hash.h 787-794 and 810. -/
def afterRead (c : Cfg) (key val cur w : Nat) : Pc :=
  if wordKey c w = keptKey c key then .done (.insert key val) (.ins false (some (wordVal c w)) cur)
  else if w = empty then .insCas key val cur
  else .insRead key val (next c key cur)

/-- `Insert` after `AtomicCAS` returned `w`, hash.h 795-810. -/
def afterCas (c : Cfg) (key val cur w : Nat) : Pc :=
  if w = empty then .done (.insert key val) (.ins true none cur)
  else if wordKey c w = keptKey c key then .done (.insert key val) (.ins false (some (wordVal c w)) cur)
  else .insRead key val (next c key cur)

/-- `Find` after reading `w` at `cur`, hash.h 846-857. -/
def afterFind (c : Cfg) (key cur w : Nat) : Pc :=
  if w = empty then .done (.find key) (.found none)
  else if wordKey c w = keptKey c key then .done (.find key) (.found (some (wordVal c w, cur)))
  else .findRead key (next c key cur)

/-- One step of a running thread: the memory and the place after it.  `none`: the thread does not run, or
`K2_CHECK_NE` in the second `SetValue` (hash.h 898) fails. -/
def run (c : Cfg) (mem : Nat → Nat) : Pc → Option ((Nat → Nat) × Pc)
  | .idle => none
  | .done _ _ => none
  | .insRead key val cur => some (mem, afterRead c key val cur (mem cur))
  | .insCas key val cur =>
    some (if mem cur = empty then write mem cur (mkWord c key val) else mem,
      afterCas c key val cur (mem cur))
  | .findRead key cur => some (mem, afterFind c key cur (mem cur))
  | .setWrite loc key val => some (write mem loc (mkWord c key val), .done (.set loc key val) .unit)
  | .set2Read loc val =>
    if mem loc = empty then none else some (mem, .set2Write loc val (wordKey c (mem loc)))
  | .set2Write loc val w =>
    some (write mem loc (w ||| ((val <<< c.kept) % 2 ^ 64)),
      .done (.set2 loc val) (.key (unpackKey c w loc)))

/-- The state: the array, the threads, and the pairs of keys and locations that have been returned. -/
structure Sys where
  mem : Nat → Nat
  pc : Nat → Pc
  known : List (Nat × Nat)

/-- A call or a return of a thread. -/
inductive Ev
  | call (t : Nat) (op : Op)
  | ret (t : Nat) (op : Op) (r : Res)
  deriving DecidableEq

/-- The key and the location that an operation returns. -/
def learnt : Op → Res → List (Nat × Nat)
  | .insert key _, .ins _ _ loc => [(key, loc)]
  | .find key, .found (some (_, loc)) => [(key, loc)]
  | _, _ => []

/-- A key is allowed: it has no further bits, and its kept bits are not all set. -/
def KeyOk (c : Cfg) (key : Nat) : Prop := key < 2 ^ c.keyBits ∧ keptKey c key ≠ 2 ^ c.kept - 1

/-- The documented conditions on calls: the numbers of bits, and that a location was returned for that
key. -/
def Legal (c : Cfg) (known : List (Nat × Nat)) : Op → Prop
  | .insert key val => KeyOk c key ∧ val < 2 ^ c.valBits
  | .find key => KeyOk c key
  | .set loc key val => (key, loc) ∈ known ∧ val < 2 ^ c.valBits
  | .set2 loc val => (∃ key, (key, loc) ∈ known) ∧ val < 2 ^ c.valBits

def setPc (f : Nat → Pc) (t : Nat) (p : Pc) : Nat → Pc := fun i => if i = t then p else f i

/-- A step of the system. -/
inductive Step (c : Cfg) : Sys → Option Ev → Sys → Prop
  | call (s : Sys) (t : Nat) (op : Op) : s.pc t = .idle → Legal c s.known op →
      Step c s (some (.call t op)) ⟨s.mem, setPc s.pc t (start c op), s.known⟩
  | run (s : Sys) (t : Nat) (mem : Nat → Nat) (p : Pc) : run c s.mem (s.pc t) = some (mem, p) →
      Step c s none ⟨mem, setPc s.pc t p, s.known⟩
  | ret (s : Sys) (t : Nat) (op : Op) (r : Res) : s.pc t = .done op r →
      Step c s (some (.ret t op r)) ⟨s.mem, setPc s.pc t .idle, learnt op r ++ s.known⟩

/-- Executions with the events that are visible outside. -/
inductive Exec {St : Type} (step : St → Option Ev → St → Prop) : St → List Ev → St → Prop
  | nil (s : St) : Exec step s [] s
  | tau (s s' s'' : St) (es : List Ev) : Exec step s es s' → step s' none s'' → Exec step s es s''
  | ev (s s' s'' : St) (es : List Ev) (e : Ev) : Exec step s es s' → step s' (some e) s'' →
      Exec step s (es ++ [e]) s''

/-- A new hash: all words are empty, hash.h 138; no thread runs. -/
def new : Sys := ⟨fun _ => empty, fun _ => .idle, []⟩

end Verif.Hash
