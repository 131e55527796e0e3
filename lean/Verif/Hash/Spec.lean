import Verif.Hash.Model

/-!
# What a concurrent map is

The specification: a map from keys to values and locations.  Between its call and its return each operation
takes effect at one moment (`lin`), as if it were alone.
-/

namespace Verif.Hash

/-- The effect of an operation on the map, and its result. -/
inductive Effect (m : Nat → Option (Nat × Nat)) : Op → (Nat → Option (Nat × Nat)) → Res → Prop
  /-- A new key gets a location of its own. -/
  | insertNew (key val loc : Nat) : m key = none → (∀ k v, m k ≠ some (v, loc)) →
      Effect m (.insert key val) (fun k => if k = key then some (val, loc) else m k) (.ins true none loc)
  | insertOld (key val v loc : Nat) : m key = some (v, loc) →
      Effect m (.insert key val) m (.ins false (some v) loc)
  | find (key : Nat) : Effect m (.find key) m (.found (m key))
  | set (loc key val v : Nat) : m key = some (v, loc) →
      Effect m (.set loc key val) (fun k => if k = key then some (val, loc) else m k) .unit
  | set2 (loc key val v : Nat) : m key = some (v, loc) →
      Effect m (.set2 loc val) (fun k => if k = key then some (val, loc) else m k) (.key key)

/-- Where a thread is. -/
inductive APc
  | idle
  | pending (op : Op)
  | done (op : Op) (r : Res)

structure ASys where
  m : Nat → Option (Nat × Nat)
  pc : Nat → APc

def setAPc (f : Nat → APc) (t : Nat) (p : APc) : Nat → APc := fun i => if i = t then p else f i

inductive AStep : ASys → Option Ev → ASys → Prop
  | call (s : ASys) (t : Nat) (op : Op) : s.pc t = .idle →
      AStep s (some (.call t op)) ⟨s.m, setAPc s.pc t (.pending op)⟩
  | lin (s : ASys) (t : Nat) (op : Op) (m : Nat → Option (Nat × Nat)) (r : Res) : s.pc t = .pending op →
      Effect s.m op m r → AStep s none ⟨m, setAPc s.pc t (.done op r)⟩
  | ret (s : ASys) (t : Nat) (op : Op) (r : Res) : s.pc t = .done op r →
      AStep s (some (.ret t op r)) ⟨s.m, setAPc s.pc t .idle⟩

def aNew : ASys := ⟨fun _ => none, fun _ => .idle⟩

end Verif.Hash
