import Verif.Fsa.Loss.Model
import Verif.Fsa.Dense.Spec
import Verif.Fsa.Ctc.Props

/-!
# What `DenseFsaVec` holds and what the CTC loss is
-/

namespace Verif.Fsa.Loss
open Verif.Ragged Verif.Util Verif.Fsa.Dn

section
variable {S : Type} [Zero S] [Bot S]

/-- `log_probs` has the shape `(N, T, C)`. -/
structure Shaped (T C : Nat) (lp : List (List (List S))) : Prop where
  frames : ∀ x ∈ lp, x.length = T
  cols : ∀ x ∈ lp, ∀ row ∈ x, row.length = C

/-- A segment lies in its sequence, up to `allow` frames. -/
structure SegOk (N T allow : Nat) (s : Seg) : Prop where
  seq : 0 ≤ s.seq ∧ s.seq < N
  start : 0 ≤ s.start ∧ s.start < T
  dur : 0 ≤ s.dur
  stop : s.start + s.dur ≤ T + allow

/-- The frames of a segment; those after the end of the sequence are missing. -/
def segFrames (lp : List (List (List S))) (s : Seg) : List (List S) :=
  ((lp.getD s.seq.toNat []).drop s.start.toNat).take s.dur.toNat

/-- A sequence as `intersect_dense` wants it: the label -1 is only possible on an additional last frame, and is
the only label there. -/
def closed (C : Nat) (fr : List (List S)) : List (List S) :=
  fr.map (fun row => ⊥ :: row) ++ [0 :: List.replicate C ⊥]

/-- `b` holds the sequences `B`, in any order. -/
structure Holds (B : List (List (List S))) (b : Dense S) : Prop where
  splits : b.splits = psum (B.map List.length)
  stride : b.stride = b.cols
  cols : ∀ row ∈ B.flatten, row.length = b.cols
  mem : b.mem = B.flatten.flatten

end

/-- The delay penalty of an alignment (the positions of its arcs): each arc that is not masked is penalized by
its distance from the frame `mid`; `t` is the first frame. -/
def delay (lam mid : ℝ) (mask : Nat → Bool) : Nat → List Nat → ℝ
  | _, [] => 0
  | t, j :: js => (if mask j then 0 else -lam * ((t : ℝ) - mid)) + delay lam mid mask (t + 1) js

/-- Whether an arc of the graph is masked; `off` is the number of arcs of the graphs before it. -/
def masked (attr : Attr) (off : Nat) (arcs : List (Arc (WithBot ℝ))) (j : Nat) : Bool :=
  match attr.repeats with
  | some rep => (arcs[j]?.map Arc.label).getD 0 == 0 || (arcs[j]?.map Arc.label).getD 0 == -1 ||
      rep.getD (off + j) false
  | none => match attr.aux with
    | some aux => aux.getD (off + j) 0 == 0 || aux.getD (off + j) 0 == -1
    | none => false

/-- The score of a label sequence. -/
noncomputable def seqScore (fr : List (List (WithBot ℝ))) (s : List Int) : WithBot ℝ :=
  (List.zipWith (fun row (l : Int) => row.getD l.toNat ⊥) fr s).sum

open Classical in
/-- The CTC probability of a transcript: the sum of the probabilities of all label sequences, with a label for
each frame, that collapse to it. -/
noncomputable def ctcProb (C : Nat) (fr : List (List (WithBot ℝ))) (y : List Int) : ℝ :=
  ∑ s : Fin fr.length → Fin C,
    if ctcCollapse (List.ofFn (fun t => ((s t : Nat) : Int))) = y then
      ∏ t, expB ((fr.get t).getD (s t) ⊥)
    else 0

end Verif.Fsa.Loss
