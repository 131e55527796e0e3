import Mathlib.Order.Defs.LinearOrder
import Mathlib.Algebra.Group.Defs
import Verif.Fsa.Core

/-!
# `RemoveEpsilonHost` on one FSA

Modelled code: `k2/csrc/host/rmepsilon_pruned.cc` (`MapStates`, `TraceBackRmEpsilons` for
`MaxTracebackState`, `EpsilonsRemoverPruned::GetSizes` and `GetOutput`),
`WfsaWithFbWeights::ComputeForwardWeights` of `k2/csrc/host/weights.cc` 138-153, `MaxTracebackState` of
`k2/csrc/host/determinize_impl.h` 166-224 and `RemoveEpsilonHost` of `k2/csrc/fsa_algo.cu` 247-279,
which `RemoveEpsilon` (lines 281-292) calls for sorted acyclic FSAs on the CPU.

* `beam` is infinite, so `best_weight` is minus infinity, and the comparison of line 222 holds for
  all numbers that occur (they are finite or minus infinity); the comparison and the backward scores
  are not modelled.
* Scores of arcs are elements of a linearly ordered group.  Forward scores can also be minus
  infinity, and the difference of two such is not a number: `Num`.  Rounding is not modelled.
* `none` stands for reading outside an array or a null pointer, and for running out of fuel.
* Arrays indexed by state and the map `traceback_states`, over which the code does not iterate, are
  functions.  `std::set<int32_t>` is a sorted list.
-/

namespace Verif.Fsa.Rme
variable {W : Type}

/-- The values of a `double` that occur. -/
inductive Num (W : Type) where
  | nan : Num W
  | ninf : Num W
  | fin (w : W) : Num W
  deriving DecidableEq, Repr

/-- Addition of doubles. -/
def Num.add [Add W] : Num W → Num W → Num W
  | .fin a, .fin b => .fin (a + b)
  | .fin _, .ninf => .ninf
  | .ninf, .fin _ => .ninf
  | .ninf, .ninf => .ninf
  | _, _ => .nan

instance [Add W] : Add (Num W) := ⟨Num.add⟩
instance [Zero W] : Zero (Num W) := ⟨.fin 0⟩

/-- Subtraction of doubles.  (A number minus minus infinity would be plus infinity, which does not
occur here.) -/
def Num.sub [Sub W] : Num W → Num W → Num W
  | .fin a, .fin b => .fin (a - b)
  | .ninf, .fin _ => .ninf
  | _, _ => .nan

/-- `a > b` on doubles. -/
def Num.gt [LinearOrder W] : Num W → Num W → Bool
  | .fin a, .fin b => decide (b < a)
  | .fin _, .ninf => true
  | _, _ => false

/-- `MaxTracebackState`, determinize_impl.h 166-224. -/
inductive Node (W : Type) where
  | start (state : Nat) (fwd : Num W) : Node W
  | step (prev : Node W) (state arc : Nat) (fwd : Num W) : Node W

/-- `forward_prob`. -/
def Node.fwd : Node W → Num W
  | .start _ w => w
  | .step _ _ _ w => w

/-- The arcs leaving state `s` with their positions: the arcs from `indexes[s]` to
`indexes[s + 1]`, rmepsilon_pruned.cc 213-216. -/
def leaving (f : Fsa W) (s : Nat) : List (Arc W × Nat) := f.arcs.zipIdx.filter (fun x => x.1.src == s)

/-- `non_eps_in`, rmepsilon_pruned.cc 57-65. -/
def kept (f : Fsa W) (s : Nat) : Bool :=
  s == 0 || s == f.final || f.arcs.any (fun a => a.label != 0 && a.dst == s)

/-- `state_map[s]` if state `s` is kept, rmepsilon_pruned.cc 68-71. -/
def number (f : Fsa W) (s : Nat) : Nat := (List.range s).countP (kept f)

variable [AddCommGroup W] [LinearOrder W]

/-- One iteration of `ComputeForwardWeights`, weights.cc 146-153. -/
def forwardStep (ws : Nat → Num W) (a : Arc W) : Nat → Num W :=
  let candidate := ws a.src + .fin a.score
  if Num.gt candidate (ws a.dst) then fun s => if s = a.dst then candidate else ws s else ws

/-- `ComputeForwardWeights` with `kMaxWeight`, weights.cc 138-153. -/
def forwardWeights (f : Fsa W) : Nat → Num W :=
  f.arcs.foldl forwardStep (fun s => if s = 0 then .fin 0 else .ninf)

/-- `MaxTracebackState::Accept`, determinize_impl.h 214-223. -/
def Node.accept (e src : Node W) (state arc : Nat) (w : W) : Node W :=
  if Num.gt (src.fwd + .fin w) e.fwd then .step src state arc (src.fwd + .fin w) else e

/-- `TraceBackRmEpsilons` with the `std::reverse` of rmepsilon_pruned.cc 247, without the last arc. -/
def Node.trace : Node W → List Nat
  | .start _ _ => []
  | .step p _ a _ => p.trace ++ [a]

/-- Insertion into a `std::set`. -/
def insertSorted (x : Nat) : List Nat → List Nat
  | [] => [x]
  | y :: l => if x < y then x :: y :: l else if x = y then y :: l else y :: insertSorted x l

/-- `qstates`, `traceback_states` and the arcs (with derivatives) made so far. -/
structure St (W : Type) where
  queue : List Nat
  tb : Nat → Option (Node W)
  out : List (Arc (Num W) × List Nat)

/-- `traceback_states[s] = n`. -/
def put (tb : Nat → Option (Node W)) (s : Nat) (n : Node W) : Nat → Option (Node W) :=
  fun r => if r = s then some n else tb r

/-- The body of the loop over arcs, rmepsilon_pruned.cc 217-254: `i` is the state from which
epsilons are being removed, `sf` is `start_forward_weights`, `c` is `curr_traceback_state`. -/
def relax (f : Fsa W) (i : Nat) (sf : Num W) (c : Node W) (st : St W) (x : Arc W × Nat) : St W :=
  if x.1.label = 0 then
    match st.tb x.1.dst with
    | none =>
      { st with tb := put st.tb x.1.dst (.step c x.1.dst x.2 (c.fwd + .fin x.1.score)),
                queue := insertSorted x.1.dst st.queue }
    | some e => { st with tb := put st.tb x.1.dst (e.accept c x.1.dst x.2 x.1.score) }
  else
    { st with out := st.out ++
        [(⟨number f i, number f x.1.dst, x.1.label, Num.sub (c.fwd + .fin x.1.score) sf⟩,
          c.trace ++ [x.2])] }

/-- The loop of rmepsilon_pruned.cc 207-256. -/
def expand (f : Fsa W) (i : Nat) (sf : Num W) : Nat → St W → Option (St W)
  | 0, st => if st.queue.isEmpty then some st else none
  | n + 1, st =>
    match st.queue with
    | [] => some st
    | s :: q =>
      match st.tb s with
      | none => none
      | some c => expand f i sf n ((leaving f s).foldl (relax f i sf c) { st with queue := q })

/-- The body of the loop over states, rmepsilon_pruned.cc 192-257. -/
def perState (f : Fsa W) (ws : Nat → Num W) (i : Nat) : Option (List (Arc (Num W) × List Nat)) :=
  (expand f i (ws i) f.numStates
    ⟨[i], put (fun _ => none) i (.start i (ws i)), []⟩).map St.out

/-- `RemoveEpsilonHost`, fsa_algo.cu 247-279: the FSA and the arc derivatives. -/
def removeEpsilonHost (f : Fsa W) : Option (Fsa (Num W) × List (List Nat)) :=
  if f.numStates = 0 then some (⟨0, []⟩, [])
  else
    match ((List.range f.numStates).filter (kept f)).mapM (perState f (forwardWeights f)) with
    | none => none
    | some outs => some (⟨(List.range f.numStates).countP (kept f), outs.flatten.map Prod.fst⟩,
        outs.flatten.map Prod.snd)

end Verif.Fsa.Rme
