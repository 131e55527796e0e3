/-!
# Model of `PinnedAllocator` and of copies through pinned memory

k2/csrc/pinned_context.cu.  All methods hold `mutex_` for their whole body, so an execution by
many threads is a sequence of calls.

CUDA.  A stream executes its operations in the order in which they were submitted; `sub s` is
the number of operations that have been submitted to stream `s`, `done s` the number of those that
have finished.  An event that is recorded when `sub s = k` is ready once `done s ≥ k`.
`cudaEventQuery` may say that an event is not ready although it is, but not the other way round.
Which CUDA calls fail, and the order in which an `unordered_set` is traversed, are parameters.

Pointers are numbers, `nullptr` is 0; blocks are ranges of addresses.
-/

namespace Verif.Pinned

/-- A `cudaEvent_t`: its stream and how many operations had been submitted when it was recorded. -/
structure Event where
  stream : Nat
  stamp : Nat
deriving DecidableEq

/-- Lines 36-53: `Block`, without `ptr`, which is its key in `blocks_`. -/
structure Block where
  size : Nat
  allocated : Bool
  eventCount : Int
  streams : List Nat

/-- Lines 250-258: `blocks_`, `available_` (size and pointer, sorted) and `cuda_events_`. -/
structure Alloc where
  blocks : Nat → Option Block
  available : List (Nat × Nat)
  events : List (Event × Nat)

/-- Line 68. -/
def Alloc.empty : Alloc := ⟨fun _ => none, [], []⟩

/-- Lines 55-61: `BlockComparator`. -/
def less (a b : Nat × Nat) : Prop := if a.1 ≠ b.1 then a.1 < b.1 else a.2 < b.2

instance (a b : Nat × Nat) : Decidable (less a b) := by unfold less; infer_instance

/-- `std::set::insert`. -/
def insertSet (e : Nat × Nat) : List (Nat × Nat) → List (Nat × Nat)
  | [] => [e]
  | x :: xs => if less e x then e :: x :: xs else if less x e then x :: insertSet e xs else x :: xs

/-- `std::set::lower_bound`: the first element that is not less than the key. -/
def lowerBound (k : Nat × Nat) (l : List (Nat × Nat)) : Option (Nat × Nat) :=
  l.find? fun e => ¬ less e k

/-- What `cudaEventQuery` and `cudaEventDestroy` return. -/
inductive Query where
  | ok
  | notReady
  | error
  | destroyError
deriving DecidableEq

/-- How a call ends: `cudaSuccess`, a CUDA error, or an exception or failed check. -/
inductive Status where
  | ok
  | error
  | abort
deriving DecidableEq

def setBlock (bs : Nat → Option Block) (p : Nat) (b : Block) : Nat → Option Block :=
  fun q => if q = p then some b else bs q

/-- The answer of the `i`-th query: `ok` only if the event is ready. -/
def answer (done : Nat → Nat) (o : Nat → Query) (i : Nat) (ev : Event) : Query :=
  if o i = .ok ∧ ¬ ev.stamp ≤ done ev.stream then .notReady else o i

/-- Lines 223-247: `ProcessEvents`, for the events `l`. -/
def process (done : Nat → Nat) (o : Nat → Query) :
    Nat → List (Event × Nat) → Alloc → Alloc × Status
  | _, [], a => ({ a with events := [] }, .ok)
  | i, (ev, p) :: l, a =>
    match answer done o i ev with
    | .notReady => ({ a with events := (ev, p) :: l }, .ok)
    | .error => ({ a with events := (ev, p) :: l }, .error)
    | .destroyError => ({ a with events := (ev, p) :: l }, .error)
    | .ok =>
      match a.blocks p with
      | none => ({ a with events := (ev, p) :: l }, .abort)
      | some b =>
        let b' := { b with eventCount := b.eventCount - 1 }
        process done o (i + 1) l
          { a with
            blocks := setBlock a.blocks p b'
            available := if b'.eventCount = 0 ∧ b'.allocated = false then
              insertSet (b'.size, p) a.available else a.available }

/-- What `Malloc` returns: a pointer, and whether it called `cudaMallocHost`. -/
inductive Res where
  | ptr (p : Nat) (fresh : Bool)
  | error
  | abort
deriving DecidableEq

/-- Lines 109-120: a block from the pool. -/
def reuse (n : Nat) (a : Alloc) : Option (Alloc × Res) :=
  match lowerBound (n, 0) a.available with
  | none => none
  | some (sz, p) =>
    match a.blocks p with
    | none => some (a, .abort)
    | some b =>
      if b.allocated = false ∧ b.eventCount = 0 then
        some ({ a with
          blocks := setBlock a.blocks p { b with allocated := true }
          available := a.available.erase (sz, p) }, .ptr p false)
      else some (a, .abort)

/-- Lines 123-130: a new block.  `host` is what `cudaMallocHost` returns. -/
def fresh (n : Nat) (host : Option Nat) (a : Alloc) : Alloc × Res :=
  match host with
  | none => (a, .error)
  | some p =>
    match a.blocks p with
    | none => ({ a with blocks := setBlock a.blocks p ⟨n, true, 0, []⟩ }, .ptr p true)
    | some _ => (a, .ptr p true)

/-- Lines 87-131: `Malloc`.  `o0`, `o1` are the answers in the two iterations of the loop. -/
def malloc (done : Nat → Nat) (n : Nat) (o0 o1 : Nat → Query) (host : Option Nat) (a : Alloc) :
    Alloc × Res :=
  let r0 := if a.events.length > 100 then process done o0 0 a.events a else (a, .ok)
  match r0.2 with
  | .error => (r0.1, .error)
  | .abort => (r0.1, .abort)
  | .ok =>
    match reuse n r0.1 with
    | some r => r
    | none =>
      let r1 := process done o1 0 r0.1.events r0.1
      match r1.2 with
      | .error => (r1.1, .error)
      | .abort => (r1.1, .abort)
      | .ok =>
        match reuse n r1.1 with
        | some r => r
        | none => fresh n host r1.1

/-- Lines 193-210: `InsertEvents`; `f i` says that a CUDA call for the `i`-th stream fails. -/
def insertEvents (sub : Nat → Nat) (p : Nat) (f : Nat → Bool) :
    Nat → List Nat → Int → List (Event × Nat) → Int × List (Event × Nat) × Status
  | _, [], k, evs => (k, evs, .ok)
  | i, s :: ss, k, evs =>
    if f i then (k, evs, .error)
    else insertEvents sub p f (i + 1) ss (k + 1) (evs ++ [(⟨s, sub s⟩, p)])

/-- Lines 140-168: `Free`.  `ord` is the order in which the streams are traversed. -/
def free (sub done : Nat → Nat) (p : Nat) (o : Nat → Query) (ord : List Nat → List Nat)
    (f : Nat → Bool) (a : Alloc) : Alloc × Status :=
  if p = 0 then (a, .ok)
  else
    let r := process done o 0 a.events a
    match r.2 with
    | .error => (r.1, .error)
    | .abort => (r.1, .abort)
    | .ok =>
      let a := r.1
      match a.blocks p with
      | none => (a, .abort)
      | some b =>
        if b.allocated = false then (a, .abort)
        else
          let r := insertEvents sub p f 0 (ord b.streams) b.eventCount a.events
          let b' : Block := ⟨b.size, false, r.1, []⟩
          let a := { a with blocks := setBlock a.blocks p b', events := r.2.1 }
          match r.2.2 with
          | .error => (a, .error)
          | .abort => (a, .abort)
          | .ok => ({ a with
              available := if b'.eventCount = 0 then insertSet (b'.size, p) a.available
                else a.available }, .ok)

/-- Lines 175-190: `RecordEvent`; `streams` is a set. -/
def record (s p : Nat) (a : Alloc) : Alloc × Status :=
  match a.blocks p with
  | none => (a, .ok)
  | some b =>
    if b.allocated = false then (a, .abort)
    else
      let b' := { b with streams := if s ∈ b.streams then b.streams else s :: b.streams }
      ({ a with blocks := setBlock a.blocks p b' }, .ok)

/-! ## Programs that use pinned memory -/

/-- A copy from host to device: source, number of bytes, stream, its number in the stream, and the
bytes that were in the source when it was submitted. -/
structure Copy where
  src : Nat
  len : Nat
  stream : Nat
  idx : Nat
  snap : Nat → Nat

/-- Memory that the program has got and not given back; `sent` if it submitted a copy from it. -/
structure Held where
  ptr : Nat
  size : Nat
  sent : Bool

/-- The allocator, the streams, host memory, the copies that were submitted, the memory that the
program holds, and for each copy that was executed the bytes that arrived. -/
structure Sys where
  a : Alloc
  sub : Nat → Nat
  done : Nat → Nat
  mem : Nat → Nat
  copies : List Copy
  held : List Held
  out : List (Copy × (Nat → Nat))

/-- The copy has not been executed. -/
def Sys.Pending (st : Sys) (c : Copy) : Prop := st.done c.stream ≤ c.idx

/-- What can happen: `Allocate`, `Deallocate`, a write of one byte by the program, `CopyDataTo` a
GPU (lines 301-315), another operation submitted to a stream, and progress of a stream. -/
inductive Op where
  | malloc (n : Nat) (o0 o1 : Nat → Query) (host : Option Nat)
  | free (p : Nat) (o : Nat → Query) (ord : List Nat → List Nat) (f : Nat → Bool)
  | write (p off v : Nat)
  | copy (src len s : Nat)
  | kernel (s : Nat)
  | progress (s : Nat)

def bump (f : Nat → Nat) (s : Nat) : Nat → Nat := fun x => if x = s then f x + 1 else f x

/-- One step; the result is that of `Malloc` (`ptr 0` for the other operations, unless they
abort). -/
def Sys.step (st : Sys) : Op → Sys × Res
  | .malloc n o0 o1 host =>
    let r := malloc st.done n o0 o1 host st.a
    match r.2 with
    | .ptr p fr => ({ st with a := r.1, held := ⟨p, n, false⟩ :: st.held }, .ptr p fr)
    | .error => ({ st with a := r.1 }, .error)
    | .abort => ({ st with a := r.1 }, .abort)
  | .free p o ord f =>
    let r := free st.sub st.done p o ord f st.a
    let held := if p = 0 then st.held else st.held.filter fun h => h.ptr ≠ p
    match r.2 with
    | .ok => ({ st with a := r.1, held := held }, .ptr 0 false)
    | .error => ({ st with a := r.1, held := held }, .error)
    | .abort => ({ st with a := r.1, held := held }, .abort)
  | .write p off v =>
    ({ st with mem := fun x => if x = p + off then v else st.mem x }, .ptr 0 false)
  | .copy src len s =>
    let c : Copy := ⟨src, len, s, st.sub s, fun i => st.mem (src + i)⟩
    let r := record s src st.a
    let held := st.held.map fun h => if h.ptr = src then { h with sent := true } else h
    let st := { st with a := r.1, sub := bump st.sub s, copies := c :: st.copies, held := held }
    match r.2 with
    | .ok => (st, .ptr 0 false)
    | .error => (st, .error)
    | .abort => (st, .abort)
  | .kernel s => ({ st with sub := bump st.sub s }, .ptr 0 false)
  | .progress s =>
    if st.done s < st.sub s then
      let now := st.copies.filter fun c => c.stream = s ∧ c.idx = st.done s
      ({ st with
        done := bump st.done s
        out := now.map (fun c => (c, fun i => st.mem (c.src + i))) ++ st.out }, .ptr 0 false)
    else (st, .ptr 0 false)

/-- Two ranges of addresses have no byte in common. -/
def Apart (p n q m : Nat) : Prop := p + n ≤ q ∨ q + m ≤ p ∨ n = 0 ∨ m = 0

/-- What `cudaMallocHost` does: for 0 bytes the pointer is left as it was; otherwise the memory is
none that it gave out before. -/
def HostOk (a : Alloc) (n : Nat) (host : Option Nat) : Prop :=
  ∀ p, host = some p → if n = 0 then p = 0 else
    p ≠ 0 ∧ ∀ q b, a.blocks q = some b → q ≠ p ∧ (p + n ≤ q ∨ q + b.size ≤ p)

/-- What is expected of the program, in terms of the memory it holds: it frees only what it holds,
writes to memory it holds and from which no copy was submitted, and copies from the beginning of
memory it holds.  `cudaEventCreate` and `cudaEventRecord` do not fail. -/
def Sys.Allowed (st : Sys) : Op → Prop
  | .malloc n _ _ host => HostOk st.a n host
  | .free p _ ord f => (p = 0 ∨ ∃ h ∈ st.held, h.ptr = p) ∧ (∀ l, (ord l).Perm l) ∧ ∀ i, f i = false
  | .write p off _ => ∃ h ∈ st.held, h.ptr = p ∧ off < h.size ∧ h.sent = false
  | .copy src len _ => ∃ h ∈ st.held, h.ptr = src ∧ len ≤ h.size
  | .kernel _ => True
  | .progress _ => True

def Sys.init (mem : Nat → Nat) : Sys :=
  ⟨.empty, fun _ => 0, fun _ => 0, mem, [], [], []⟩

/-- The states that can be reached. -/
inductive Reach : Sys → Prop where
  | init (mem : Nat → Nat) : Reach (Sys.init mem)
  | step (st : Sys) (op : Op) : Reach st → st.Allowed op → Reach (st.step op).1

end Verif.Pinned
