import Verif.Hash.Spec

/-!
# `Hash64` (k2/csrc/hash.h 1015-1360)

Keys and values have 64 bits each and are in two words of a bucket, so they are read and written one after the
other.  This file is about `Insert`, `Find` and `SetValue`; `Delete` and `Resize` are in `Phase64Model`.
-/

namespace Verif.Hash

inductive Pc64
  | idle
  /-- `Insert`, before `cur_key = data_[2 * cur_bucket]`. -/
  | insKey (key val cur : Nat)
  /-- `Insert`, before `cur_value = data_[2 * cur_bucket + 1]`. -/
  | insVal (key val cur curKey : Nat)
  /-- `Insert`, before `AtomicCAS`. -/
  | insCas (key val cur curVal : Nat)
  /-- `Insert`, before `data_[2 * cur_bucket + 1] = value`. -/
  | insWrite (key val cur : Nat)
  /-- `Find`, before `old_key = data_[2 * cur_bucket]`. -/
  | findKey (key cur : Nat)
  /-- `Find`, before `old_value = data_[2 * cur_bucket + 1]`. -/
  | findVal (key cur oldKey : Nat)
  /-- `Find`, in `while (~old_value == 0)`. -/
  | findWait (key cur : Nat)
  /-- `SetValue`, before `*(key_value_location + 1) = value`. -/
  | setVal (loc val : Nat)
  | done (op : Op) (r : Res)
  deriving DecidableEq

/-- The first bucket, hash.h 1123 and 1182; `B` is the number of bits of a position. -/
def first64 (B key : Nat) : Nat := key &&& (2 ^ B - 1)

/-- The next bucket, hash.h 1124, 1156 and 1195. -/
def step64 (B key cur : Nat) : Nat :=
  ((cur + (1 ||| ((key >>> (B - 1)) ^^^ key))) % 2 ^ 64) &&& (2 ^ B - 1)

/-- `Insert` after both words were read, hash.h 1129-1133. -/
def afterRead64 (B key val cur curKey curVal : Nat) : Pc64 :=
  if curKey = key then .done (.insert key val) (.ins false (some curVal) cur)
  else if curKey = empty then .insCas key val cur curVal
  else .insKey key val (step64 B key cur)

/-- `Insert` after `AtomicCAS` returned `old`, hash.h 1137-1156; `curVal` was read before. -/
def afterCas64 (B key val cur curVal old : Nat) : Pc64 :=
  if old = empty then .insWrite key val cur
  else if old = key then .done (.insert key val) (.ins false (some curVal) cur)
  else .insKey key val (step64 B key cur)

/-- `Find` after both words were read, hash.h 1187-1196. -/
def afterFind64 (B key cur oldKey oldVal : Nat) : Pc64 :=
  if oldKey = empty then .done (.find key) (.found none)
  else if oldKey = key then
    if oldVal = empty then .findWait key cur else .done (.find key) (.found (some (oldVal, cur)))
  else .findKey key (step64 B key cur)

structure Mem64 where
  key : Nat → Nat
  val : Nat → Nat

/-- One step of a thread. -/
def run64 (B : Nat) (m : Mem64) : Pc64 → Option (Mem64 × Pc64)
  | .idle => none
  | .done _ _ => none
  | .insKey key val cur => some (m, .insVal key val cur (m.key cur))
  | .insVal key val cur curKey => some (m, afterRead64 B key val cur curKey (m.val cur))
  | .insCas key val cur curVal =>
    some (if m.key cur = empty then ⟨fun i => if i = cur then key else m.key i, m.val⟩ else m,
      afterCas64 B key val cur curVal (m.key cur))
  | .insWrite key val cur =>
    some (⟨m.key, fun i => if i = cur then val else m.val i⟩, .done (.insert key val) (.ins true none cur))
  | .findKey key cur => some (m, .findVal key cur (m.key cur))
  | .findVal key cur oldKey => some (m, afterFind64 B key cur oldKey (m.val cur))
  | .findWait key cur =>
    some (m, if m.val cur = empty then .findWait key cur else .done (.find key) (.found (some (m.val cur, cur))))
  | .setVal loc val => some (⟨m.key, fun i => if i = loc then val else m.val i⟩, .done (.set2 loc val) .unit)

structure Sys64 where
  mem : Mem64
  pc : Nat → Pc64

/-- The calls: keys and values that are not all ones, hash.h 1103-1106.  `SetValue` is called for a location at
which there is a key; `Find` and `Insert` return such locations, and keys stay where they are. -/
inductive Step64 (B : Nat) : Sys64 → Option Ev → Sys64 → Prop
  | insert (s : Sys64) (t key val : Nat) : s.pc t = .idle → key < empty → val < empty →
      Step64 B s (some (.call t (.insert key val)))
        ⟨s.mem, fun u => if u = t then .insKey key val (first64 B key) else s.pc u⟩
  | find (s : Sys64) (t key : Nat) : s.pc t = .idle → key < empty →
      Step64 B s (some (.call t (.find key))) ⟨s.mem, fun u => if u = t then .findKey key (first64 B key) else s.pc u⟩
  | set (s : Sys64) (t loc val : Nat) : s.pc t = .idle → s.mem.key loc ≠ empty → val < empty →
      Step64 B s (some (.call t (.set2 loc val))) ⟨s.mem, fun u => if u = t then .setVal loc val else s.pc u⟩
  | run (s : Sys64) (t : Nat) (mem : Mem64) (p : Pc64) : run64 B s.mem (s.pc t) = some (mem, p) →
      Step64 B s none ⟨mem, fun u => if u = t then p else s.pc u⟩
  | ret (s : Sys64) (t : Nat) (op : Op) (r : Res) : s.pc t = .done op r →
      Step64 B s (some (.ret t op r)) ⟨s.mem, fun u => if u = t then .idle else s.pc u⟩

/-- A new hash, hash.h 1067. -/
def new64 : Sys64 := ⟨⟨fun _ => empty, fun _ => empty⟩, fun _ => .idle⟩

end Verif.Hash
