import Verif.Rnnt.Decode.Props

/-!
# RNN-T decoding: examples

Two streams, with a graph of two symbols, are decoded for two frames, and one of them is moved to another
batch after the first frame.  The theorems at the end show where the code differs from its documentation.
-/

namespace Verif.Rnnt.Dec.Wit
open Verif.Fsa Verif.Rnnt.Dec

/-- A score. -/
def w (x : ℚ) : WithBot ℚ := x

/-- The graph that accepts all sequences of the symbols 1 and 2. -/
def g : Graph (WithBot ℚ) := [[⟨0, 0, 1, w 0⟩, ⟨0, 0, 2, w 0⟩, ⟨0, 1, -1, w 0⟩], []]

/-- Two symbols of history, beam 8. -/
def cfg : Cfg ℚ := ⟨3, 2, 8, 10, 10⟩

/-- The network: symbol `t + 1` is likely on frame `t`, and a symbol of the context is likelier than another. -/
def net (t : Nat) (c : List Nat) (y : Nat) : WithBot ℚ :=
  if y = 0 then w (-1) else if y = t + 1 then w (-1/2) else if y ∈ c then w (-2) else w (-3)

theorem g_ok : GraphOk g 3 := by
  refine ⟨by decide, ?_, by decide, by decide, by decide⟩
  intro q row hq a ha
  match q, hq with
  | 0, hq => simp only [g, List.getElem?_cons_zero, Option.some.injEq] at hq; subst hq; simp at ha; rcases ha with rfl | rfl | rfl <;> rfl
  | 1, hq => simp only [g, List.getElem?_cons_succ, List.getElem?_cons_zero, Option.some.injEq] at hq; subst hq; simp at ha
  | q + 2, hq => simp [g] at hq

theorem cfg_ok : CfgOk cfg := ⟨by decide, by decide, by decide +kernel⟩

theorem net_ok : ∀ t c, net t c 0 ≠ ⊥ := by
  intro t c
  simp only [net, if_true]
  exact WithBot.coe_ne_bot

/-- Run some frames; `lp t c` is the row of log-probs for a context on frame `t`. -/
def run (cfg : Cfg ℚ) (lp : Nat → List Nat → List (WithBot ℚ)) : Nat → Nat → Streams (WithBot ℚ) → Option (Streams (WithBot ℚ))
  | _, 0, x => some x
  | t, n + 1, x => do
    let all ← getContexts cfg x
    let y ← advance cfg (all.flatten.map (lp t)) x
    run cfg lp (t + 1) n y

/-- The rows of the network. -/
def rows (t : Nat) (c : List Nat) : List (WithBot ℚ) := netRow 3 (net t) c

/-- The batch before the first frame. -/
def x0 : Streams (WithBot ℚ) := ⟨true, [createStream g, createStream g], [[[(0, 0)]], [[(0, 0)]]], []⟩

/-- The batch after one frame. -/
def x1 : Streams (WithBot ℚ) := (advance cfg [rows 0 [0, 0], rows 0 [0, 0]] x0).getD x0

/-- The second stream is moved to a batch of its own. -/
def z1 : Streams (WithBot ℚ) := ((mkStreams ((flush x1).srcs.drop 1))).getD x0

/-- That batch after the second frame. -/
def z2 : Streams (WithBot ℚ) :=
  (advance cfg [rows 1 [0, 0], rows 1 [0, 1], rows 1 [0, 2]] z1).getD x0

example : x1.states.map (List.map (List.map Prod.fst)) = [[[0, 1], [2], [4]], [[0, 1], [2], [4]]] := by decide +kernel

theorem dec1 : Decoding cfg g net 1 [[[0, 0]]] x1 := by
  refine Decoding.frame 1 [] x0 x1 [[[0, 0]], [[0, 0]]] [[0, 0]] [rows 0 [0, 0], rows 0 [0, 0]] ?_ ?_ ?_ ?_ ?_
  · exact Decoding.fresh 1 [createStream g, createStream g] x0 rfl rfl
  · decide +kernel
  · rfl
  · decide +kernel
  · decide +kernel

theorem dec2 : Decoding cfg g net 0 [[[0, 0]], [[0, 0], [0, 1], [0, 2]]] z2 := by
  refine Decoding.frame 0 [[[0, 0]]] z1 z2 [[[0, 0], [0, 1], [0, 2]]] [[0, 0], [0, 1], [0, 2]]
    [rows 1 [0, 0], rows 1 [0, 1], rows 1 [0, 2]] ?_ ?_ ?_ ?_ ?_
  · refine Decoding.moved 0 1 [[[0, 0]]] x1 z1 ((flush x1).srcs.drop 1) dec1 ?_ ?_ ?_
    · decide +kernel
    · decide +kernel
    · decide +kernel
  · decide +kernel
  · rfl
  · decide +kernel
  · decide +kernel

/-- The lattice of two frames. -/
def lat : List (List (Arc (WithBot ℚ) × Int × Int)) :=
  ((formatOutput cfg [2] false (some [[1], [3]]) (flush z2)).getD []).getD 0 []

example : ∃ l, formatOutput cfg [2] false (some [[1], [3]]) (flush z2) = some [l] ∧
    LatticeOk cfg g net 2 false [[[0, 0]], [[0, 0], [0, 1], [0, 2]]] (some (offOf [[1], [3]] 0)) l := by
  obtain ⟨out, hout⟩ := formatOutput_total cfg cfg_ok z2 (by decide +kernel) [2] false (some [[1], [3]]) (by decide +kernel)
    (by decide +kernel) (by
      intro i m hi
      have h0 : i = 0 := by
        have := (List.getElem?_eq_some_iff.1 hi).1
        simp at this; omega
      subst h0
      simp at hi
      subst hi
      refine ⟨by decide, ?_, g, net, _, g_ok, net_ok, dec2, by decide⟩
      intro sz hsz k hk
      cases hsz
      have : k = 0 ∨ k = 1 := by omega
      rcases this with rfl | rfl <;> decide)
  obtain ⟨l, h1, h2⟩ := formatOutput_correct cfg cfg_ok g g_ok net net_ok 0 _ z2 dec2 [2] false (some [[1], [3]]) out hout 2 rfl
    (by decide) (by
      intro sz hsz k hk
      cases hsz
      have : k = 0 ∨ k = 1 := by omega
      rcases this with rfl | rfl <;> decide)
  refine ⟨l, ?_, h2⟩
  have hl : out.length = 1 := by
    have : (formatOutput cfg [2] false (some [[1], [3]]) (flush z2)).map List.length = some 1 := by decide +kernel
    rw [hout] at this
    simpa using this
  rw [hout]
  cases out with
  | nil => simp at hl
  | cons a out =>
    cases out with
    | nil => simp at h1; rw [h1]
    | cons b out => simp at hl

/-- Its arcs: from the start blank, symbol 1, symbol 2 and the final arc (which leads to a dead end), then a
final arc for each of the three states. -/
example : lat.map (List.map (fun a => (a.1.dst, a.1.label, a.1.score, a.2))) =
    [[(1, 0, w (-1), -1, 0), (3, 1, w (-1/2), 0, 1), (4, 2, w (-3), 1, 2), (2, 0, w (-1), 2, 0)],
      [(5, -1, w 0, -1, -1)], [], [(5, -1, w 0, -1, -1)], [(5, -1, w 0, -1, -1)], []] := by decide +kernel

/-- The contexts after the first frame. -/
example : getContexts cfg z1 = some [[[0, 0], [0, 1], [0, 2]]] ∧ ContextsOk cfg g net 1 [[0, 0], [0, 1], [0, 2]] := by
  have h : getContexts cfg z1 = some [[[0, 0], [0, 1], [0, 2]]] := by decide +kernel
  obtain ⟨c, h1, h2⟩ := (getContexts_correct cfg cfg_ok g g_ok net net_ok 0 _ z1
    (Decoding.moved 0 1 [[[0, 0]]] x1 z1 ((flush x1).srcs.drop 1) dec1 (by decide +kernel) (by decide +kernel)
      (by decide +kernel))).1 _ h
  rw [List.getElem?_cons_zero, Option.some.injEq] at h1
  subst h1
  exact ⟨h, h2⟩

/-- The second frame. -/
example : ∃ st nxt, z1.states[0]? = some st ∧ z2.states[0]? = some nxt ∧ FrameOk cfg g (net 1) st nxt :=
  advance_frame cfg cfg_ok g g_ok net net_ok 0 [[[0, 0]]] z1 z2
    (Decoding.moved 0 1 [[[0, 0]]] x1 z1 ((flush x1).srcs.drop 1) dec1 (by decide +kernel) (by decide +kernel)
      (by decide +kernel)) [[[0, 0], [0, 1], [0, 2]]] [[0, 0], [0, 1], [0, 2]]
    [rows 1 [0, 0], rows 1 [0, 1], rows 1 [0, 2]] (by decide +kernel) rfl (by decide +kernel) (by decide +kernel)

/-- The second stream of the batch `x1`, decoded for a frame on its own and in the batch. -/
example : ∃ (a : Streams (WithBot ℚ)) (c : List (List Nat)), mkStreams ((flush x1).srcs.drop 1) = some a ∧
    getContexts cfg a = some [c] ∧ c.length = 3 := by
  have hb : Batch cfg x1 := Batch.frame x0 x1 [rows 0 [0, 0], rows 0 [0, 0]] (Batch.make [createStream g, createStream g] x0 rfl) (by decide +kernel)
  obtain ⟨a, c, h1, h2, h3, -⟩ := advance_alone cfg x1 hb [[[0, 0], [0, 1], [0, 2]], [[0, 0], [0, 1], [0, 2]]] (by decide +kernel) 1
    ((flush x1).srcs.getD 1 (createStream g)) (by decide +kernel)
  refine ⟨a, c, ?_, h2, ?_⟩
  · rw [← h1]; congr 1; decide +kernel
  · rw [List.getElem?_cons_succ, List.getElem?_cons_zero, Option.some.injEq] at h3
    rw [← h3]; rfl

/-! ## Where the code differs from its documentation -/

/-- An arc of a lattice without its attributes. -/
def arcOf (a : Arc (WithBot ℚ) × Int × Int) : Nat × Nat × Int × ℚ := (a.1.src, a.1.dst, a.1.label, a.1.score.unbotD 99)

/-- The lattice, with `allow_partial`, of one stream decoded for `n` frames. -/
def lattice (cfg : Cfg ℚ) (lp : Nat → List Nat → List (WithBot ℚ)) (n : Nat) (g : Graph (WithBot ℚ)) :
    Option (List (List (Nat × Nat × Int × ℚ))) := do
  let x ← run cfg lp 0 n ⟨true, [createStream g], [[[(0, 0)]]], []⟩
  let l ← formatOutput cfg [n] true none (flush x)
  let l ← l[0]?
  pure (l.map (List.map arcOf))

/-- One stream, before the first frame. -/
def one : Streams (WithBot ℚ) := ⟨true, [createStream g], [[[(0, 0)]]], []⟩

/-- "`beam` imposes a limit on the score of a state, relative to the best-scoring state on the same frame"
(rnnt_decode.h 80-82).  The first pass compares with the best state of the frame before.  With beam 2 and
log-probs -5 for blank and -3 for symbol 1, symbol 1 is dropped, although it leads to the best state of the
frame; only blank, which is worse, is kept. -/
theorem beam_is_not_on_the_same_frame :
    (run ⟨3, 2, 2, 0, 0⟩ (fun _ _ => [w (-5), w (-3), w (-5)]) 0 1 one).map (fun x => x.states) =
      some [[[(0, w (-5)), (1, w (-5))]]] ∧
    Align g 2 (fun _ _ y => if y = 1 then w (-3) else w (-5)) [Move.arc 0 ⟨0, 0, 1, w 0⟩] 0 (w (-3)) := by
  refine ⟨by decide +kernel, ?_⟩
  have := Align.step (H := 2) (net := fun _ _ y => if y = 1 then w (-3) else w (-5)) (Move.arc 0 ⟨0, 0, 1, w 0⟩)
    (Align.start (g := g)) ⟨by decide, rfl, rfl⟩
  have he : (0 : WithBot ℚ) + (w 0 + w (-3)) = w (-3) := by decide +kernel
  have h2 : Move.graphScore (Move.arc 0 ⟨0, 0, 1, w 0⟩) + (if Move.symbol (Move.arc 0 (⟨0, 0, 1, w 0⟩ : Arc (WithBot ℚ))) = 1 then w (-3) else w (-5)) = w 0 + w (-3) := rfl
  rw [h2, he] at this
  exact this

/-- "Actually the beam part is not really necessary, as we already pruned with the beam" (lines 326-328): the
second pass drops states that the first pass kept.  With beam 2 blank has log-prob -5 and is always kept by
the first pass, but not by the second. -/
theorem second_beam_is_needed :
    (pass1 ⟨3, 2, 2, 0, 0⟩ g [[w (-5), w (-1), w (-9)]] [[(0, 0)]]).map (fun n => n.flatten.flatten.map Pend.label) =
      some [0, 1, -1] ∧
    (run ⟨3, 2, 2, 0, 0⟩ (fun _ _ => [w (-5), w (-1), w (-9)]) 0 1 one).map (fun x => x.states) =
      some [[[(2, w (-1))]]] := by decide +kernel

/-- "If true and there is no final state active, we will treat all the states on the last frame to be final
state" (lines 186-188): there is one final arc for each arc of the last frame, so that three paths stand for the
one alignment of the first frame, and a state whose arcs were all pruned gets none. -/
theorem partial_states :
    lattice ⟨3, 1, 8, 0, 0⟩ (fun _ _ => [w (-1), w (-1), w (-1)]) 1 [[⟨0, 0, 1, w 0⟩, ⟨0, 0, 2, w 0⟩], []] =
      some [[(0, 1, -1, 0), (0, 1, -1, 0), (0, 1, -1, 0)], []] ∧
    lattice ⟨3, 1, 1, 0, 0⟩ (fun t c => if t = 0 then [w (-1), w (-1), w (-1)] else if c = [1] then [w (-1), w (-9), w (-9)]
        else [w (-5), w (-9), w (-9)]) 2 [[⟨0, 0, 1, w 0⟩], []] =
      some [[(0, 1, 0, -1), (0, 2, 1, -1)], [], [(2, 3, -1, 0)], []] := by
  constructor <;> decide +kernel

/-- The last frame does not count: its labels and its log-probs are not in the lattice.  Two frames with
log-prob -1/2 for symbol 1 on the first and for symbol 2 on the second frame give paths with one symbol, and
no score is less than -3, though each alignment ends with a frame with log-prob at most -1/2. -/
theorem last_frame_lost : (lat.flatten.filter (fun a => a.1.dst = 5)).map (fun a => (a.1.label, a.1.score)) =
    [(-1, w 0), (-1, w 0), (-1, w 0)] := by decide +kernel

/-- The final arc is compared with the beam as if its log-prob were 0, but it gets the log-prob of blank. -/
theorem final_arc_has_score_of_blank :
    (run ⟨3, 2, 2, 0, 0⟩ (fun _ _ => [w (-4), w (-5), w (-5)]) 0 1 one).map (fun x => x.states) =
      some [[[(0, w (-4)), (1, w (-4))]]] := by decide +kernel

/-- If all log-probs are minus infinity on two frames and `max_states` is 1, contexts without states are kept,
and the contexts can not be computed any more (line 148 looks up the first state of each context). -/
theorem all_minus_infinity :
    (run ⟨3, 2, 2, 1, 8⟩ (fun _ _ => [⊥, ⊥, ⊥]) 0 2 one).map (fun x => x.states) = some [[[(0, ⊥)], [], []]] ∧
    (run ⟨3, 2, 2, 1, 8⟩ (fun _ _ => [⊥, ⊥, ⊥]) 0 2 one).bind (getContexts ⟨3, 2, 2, 1, 8⟩) = none := by
  constructor <;> decide +kernel

/-- The final state has no arcs.  If only the final state survives, no state survives the next frame. -/
theorem no_state_survives :
    (run ⟨3, 2, 8, 1, 1⟩ (fun _ _ => [w 0, w 0, w 0]) 0 2
      ⟨true, [createStream [[⟨0, 1, -1, w 1⟩], []]], [[[(0, 0)]]], []⟩).map (fun x => x.states) = some [[]] := by
  decide +kernel

/-- `TerminateAndFlushToStreams` without a frame leaves the streams attached: `FormatOutput` fails. -/
theorem flush_without_frames : (flush one).attached = true ∧
    formatOutput cfg [0] true none (flush one) = none := by decide +kernel

end Verif.Rnnt.Dec.Wit
