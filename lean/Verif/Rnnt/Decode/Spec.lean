import Verif.Rnnt.Decode.Model
import Verif.Fsa.Pruned.Spec

/-!
# What RNN-T decoding promises

`g` is a decoding graph and `net t c y` the log-prob of the symbol `y` (0 is blank) on frame `t` after the
context `c`, a list of as many symbols as the decoder takes.
-/

namespace Verif.Rnnt.Dec
open Verif.Fsa

/-- What can happen on a frame: blank, or arc number `j` of the graph. -/
inductive Move (S : Type) where
  | blank
  | arc (j : Nat) (a : Arc S)

namespace Move
variable {S : Type}

/-- The label; 0 for blank. -/
def label : Move S → Int
  | blank => 0
  | arc _ a => a.label

/-- The number of the arc in the graph; -1 for blank. -/
def id : Move S → Int
  | blank => -1
  | arc j _ => j

/-- The score in the graph. -/
def graphScore [Zero S] : Move S → S
  | blank => 0
  | arc _ a => a.score

/-- The symbol whose log-prob counts: blank for the arcs with label 0 or -1. -/
def symbol (m : Move S) : Nat := m.label.toNat

/-- The symbols that are put out. -/
def emits (m : Move S) : List Nat := if 0 < m.label then [m.label.toNat] else []

/-- The state of the graph afterwards. -/
def next (q : Nat) : Move S → Nat
  | blank => q
  | arc _ a => a.dst

/-- `m` is possible in state `q` of the graph, which is not the final state. -/
def Can (g : Graph S) (q : Nat) : Move S → Prop
  | blank => q + 1 < g.length
  | arc j a => q + 1 < g.length ∧ a.src = q ∧ g.flatten[j]? = some a

end Move

/-- The symbols that are put out by some moves. -/
def history {S : Type} (ms : List (Move S)) : List Nat := ms.flatMap Move.emits

/-- The last `H` of some symbols, filled up with zeros in front. -/
def lastSyms (H : Nat) (w : List Nat) : List Nat := (List.replicate H 0 ++ w).drop w.length

section
variable {K : Type} [Field K] [LinearOrder K]

local notation "S" => WithBot K

/-- The moves `ms`, one for each frame, lead from the start to state `q` with the given score: the sum of
the scores of the graph and of the log-probs. -/
inductive Align (g : Graph S) (H : Nat) (net : Nat → List Nat → Nat → S) : List (Move S) → Nat → S → Prop
  | start : Align g H net [] 0 0
  | step {ms : List (Move S)} {q : Nat} {s : S} (m : Move S) : Align g H net ms q s → m.Can g q →
      Align g H net (ms ++ [m]) (m.next q)
        (s + (m.graphScore + net ms.length (lastSyms H (history ms)) m.symbol))

/-- A decoding graph for a vocabulary. -/
structure GraphOk (g : Graph S) (vocab : Nat) : Prop where
  pos : 1 ≤ g.length
  src : ∀ (q : Nat) (row : List (Arc S)), g[q]? = some row → ∀ a ∈ row, a.src = q
  dst : ∀ a ∈ g.flatten, a.dst < g.length
  label : ∀ a ∈ g.flatten, -1 ≤ a.label ∧ a.label < vocab
  final : ∀ a ∈ g.flatten, a.label = -1 → a.dst + 1 = g.length

/-- A configuration that makes sense. -/
structure CfgOk (cfg : Cfg K) : Prop where
  vocab : 1 ≤ cfg.vocab
  hist : 1 ≤ cfg.hist
  beam : 0 ≤ cfg.beam

/-- The moves stay within the beam: a move with a label other than 0 is not more than the beam worse than
all moves up to the frame before (with log-prob 0 for the label -1), and all are not more than the beam
worse than all moves up to the same frame. -/
def OnBeam (g : Graph S) (H : Nat) (net : Nat → List Nat → Nat → S) (beam : K) (ms : List (Move S)) : Prop :=
  ∀ ms1 m ms2, ms = ms1 ++ m :: ms2 → ∀ q s, Align g H net ms1 q s →
    (m.label ≠ 0 → ∀ ms' q' s', Align g H net ms' q' s' → ms'.length = ms1.length →
      sub s' beam ≤ s + m.graphScore +
        (if m.label = -1 then 0 else net ms1.length (lastSyms H (history ms1)) m.symbol)) ∧
    (∀ ms' q' s', Align g H net ms' q' s' → ms'.length = ms1.length + 1 →
      sub s' beam ≤ s + (m.graphScore + net ms1.length (lastSyms H (history ms1)) m.symbol))

/-- The number of contexts before those of stream `i` on frame `u`; `sizes` are the numbers of contexts,
[frame][stream]. -/
def offOf (sizes : List (List Nat)) (i u : Nat) : Nat :=
  ((sizes.take u).map List.sum).sum + ((sizes.getD u []).take i).sum

/-- `sizes` has an entry for the frames of the stream. -/
def SizesOk (sizes : Option (List (List Nat))) (i m : Nat) : Prop :=
  ∀ sz, sizes = some sz → ∀ k < m, i < (sz.getD k []).length

/-- The row of log-probs for a context. -/
def netRow (vocab : Nat) (net : List Nat → Nat → S) (c : List Nat) : List S := (List.range vocab).map (net c)

/-- The stream at position `i` of the batch `x` has been decoded with the graph `g` and the network `net`,
possibly in several batches one after the other, each time with other streams.  `cs` are the contexts that
were returned for it on each of its frames. -/
inductive Decoding (cfg : Cfg K) (g : Graph S) (net : Nat → List Nat → Nat → S) :
    Nat → List (List (List Nat)) → Streams S → Prop
  | fresh (i : Nat) (srcs : List (Stream S)) (x : Streams S) : mkStreams srcs = some x →
      srcs[i]? = some (createStream g) → Decoding cfg g net i [] x
  | moved (i j : Nat) (cs : List (List (List Nat))) (x y : Streams S) (srcs : List (Stream S)) :
      Decoding cfg g net j cs x → mkStreams srcs = some y → srcs[i]? = (flush x).srcs[j]? → i < srcs.length →
      Decoding cfg g net i cs y
  | frame (i : Nat) (cs : List (List (List Nat))) (x y : Streams S) (all : List (List (List Nat)))
      (c : List (List Nat)) (logprobs : List (List S)) :
      Decoding cfg g net i cs x → getContexts cfg x = some all → all[i]? = some c →
      (logprobs.drop ((all.take i).map List.length).sum).take c.length = c.map (netRow cfg.vocab (net cs.length)) →
      advance cfg logprobs x = some y → Decoding cfg g net i (cs ++ [c]) y

/-- The lattice of the first `m` frames of a stream; `off u` is the number of the first context of the
stream among all contexts of all frames, for frame `u`. -/
structure LatticeOk (cfg : Cfg K) (g : Graph S) (net : Nat → List Nat → Nat → S) (m : Nat) (part : Bool)
    (cs : List (List (List Nat))) (off : Option (Nat → Nat)) (lat : List (List (Arc S × Int × Int))) : Prop where
  /-- Arcs are stored with their source; states are sorted topologically; the label is -1 exactly for the
  arcs to the last state. -/
  src : ∀ (x : Nat) (row : List (Arc S × Int × Int)), lat[x]? = some row → ∀ a ∈ row, a.1.src = x
  top : ∀ a ∈ lat.flatten, a.1.src < a.1.dst ∧ a.1.dst < lat.length
  final : ∀ a ∈ lat.flatten, a.1.label = -1 ↔ a.1.dst + 1 = lat.length
  /-- An accepting path is an alignment without its last move: that one must have label -1 unless partial
  results are allowed (and, without limits, no alignment in the beam has label -1 there), and its score does
  not count. -/
  sound : ∀ is p, Dp.IsOut (lat.map (List.map Prod.fst)) is p →
    ∃ ms q s, ∃ mv : Move S, Align g cfg.hist net ms q s ∧
    ms.length + 1 = m ∧ mv.Can g q ∧
    (mv.label = -1 ∨ (part = true ∧ (cfg.maxStates ≤ 0 → cfg.maxContexts ≤ 0 → ∀ ms' q' s' (mv' : Move S),
      Align g cfg.hist net ms' q' s' → ms'.length + 1 = m → mv'.Can g q' →
      OnBeam g cfg.hist net cfg.beam (ms' ++ [mv']) → mv'.label ≠ -1))) ∧
    labels p = ms.map Move.label ++ [-1] ∧ score p = s ∧
    is.map (fun i => lat.flatten[i]?.map (fun a => a.2.1)) = ms.map (fun mv => some mv.id) ++ [some (-1)] ∧
    ∀ off', off = some off' → ∀ u mv, ms[u]? = some mv → ∃ (k c : Nat),
      is[u]? = some k ∧ (cs[u]?.bind (·[c]?)) = some (lastSyms cfg.hist (history (ms.take u))) ∧
      lat.flatten[k]?.map (fun a => a.2.2) = some (((off' u + c : Nat) : Int) * cfg.vocab + mv.symbol)
  /-- Different paths are different alignments, up to the last move. -/
  inj : ∀ is p is' p', Dp.IsOut (lat.map (List.map Prod.fst)) is p → Dp.IsOut (lat.map (List.map Prod.fst)) is' p' →
    is.map (fun i => lat.flatten[i]?.map (fun a => a.2.1)) = is'.map (fun i => lat.flatten[i]?.map (fun a => a.2.1)) →
    is.dropLast = is'.dropLast
  /-- Without limits, an alignment that stays in the beam is in the lattice, if its last move has label
  -1, or partial results are allowed and no alignment has label -1 there. -/
  complete : cfg.maxStates ≤ 0 → cfg.maxContexts ≤ 0 → ∀ ms q s (mv : Move S), Align g cfg.hist net ms q s →
    mv.Can g q → ms.length + 1 = m → OnBeam g cfg.hist net cfg.beam (ms ++ [mv]) →
    (mv.label = -1 ∨ (part = true ∧ ∀ ms' q' s' (mv' : Move S), Align g cfg.hist net ms' q' s' → ms'.length + 1 = m →
      mv'.Can g q' → mv'.label ≠ -1)) →
    ∃ is p, Dp.IsOut (lat.map (List.map Prod.fst)) is p ∧ labels p = ms.map Move.label ++ [-1] ∧ score p = s ∧
      is.map (fun i => lat.flatten[i]?.map (fun a => a.2.1)) = ms.map (fun mv => some mv.id) ++ [some (-1)]

end

end Verif.Rnnt.Dec
