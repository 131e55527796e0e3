import Verif.Fsa.Pruned.Model
import Verif.Fsa.Dense.Spec
import Verif.Fsa.Vec.Lemmas
import Mathlib.Algebra.Order.Ring.Defs

/-!
# The beam search of one sequence

The states that are active on each frame and their scores, as functions.  They do not depend on the order
in which states are found.
-/

set_option linter.unusedSectionVars false

namespace Verif.Fsa.Dp
open Verif.Ragged Verif.Util Verif.Fsa.Dn

/-! ## Maxima -/

section
variable {T : Type} [LinearOrder T] [OrderBot T]

/-- The largest element. -/
def mx (l : List T) : T := l.foldl max ⊥

theorem foldl_max_le (l : List T) (x y : T) : l.foldl max x ≤ y ↔ x ≤ y ∧ ∀ z ∈ l, z ≤ y := by
  induction l generalizing x with
  | nil => simp
  | cons a l ih => simp [ih, and_assoc]

theorem mx_le (l : List T) (y : T) : mx l ≤ y ↔ ∀ z ∈ l, z ≤ y := by
  rw [mx, foldl_max_le]; simp

theorem le_mx (l : List T) (z : T) (h : z ∈ l) : z ≤ mx l := (mx_le l _).mp le_rfl z h

theorem foldl_max_mem (l : List T) (x : T) : l.foldl max x = x ∨ l.foldl max x ∈ l := by
  induction l generalizing x with
  | nil => simp
  | cons a l ih =>
    rw [List.foldl_cons]
    rcases ih (max x a) with h | h
    · rcases max_choice x a with h' | h'
      · left; rw [h, h']
      · right; rw [h, h']; exact List.mem_cons_self
    · right; exact List.mem_cons_of_mem _ h

theorem mx_mem (l : List T) : mx l = ⊥ ∨ mx l ∈ l := foldl_max_mem l ⊥

/-- Two lists have the same maximum if they have the same elements up to ⊥. -/
theorem mx_congr (l l' : List T) (h : ∀ z, z ≠ ⊥ → (z ∈ l ↔ z ∈ l')) : mx l = mx l' := by
  apply le_antisymm
  · rw [mx_le]
    intro z hz
    by_cases hb : z = ⊥
    · rw [hb]; exact bot_le
    · exact le_mx _ _ ((h z hb).mp hz)
  · rw [mx_le]
    intro z hz
    by_cases hb : z = ⊥
    · rw [hb]; exact bot_le
    · exact le_mx _ _ ((h z hb).mpr hz)

theorem lt_mx (l : List T) (y : T) : y < mx l ↔ ∃ z ∈ l, y < z := by
  rw [← not_iff_not]; push Not; exact mx_le l y

end

section
variable {K : Type} [Field K] [LinearOrder K]

local notation "S" => WithBot K

/-- One sequence: its decoding graph, its frames, and where they are in the arrays: the number of its
first state and its first arc, and of its first frame. -/
structure Seq (K : Type) where
  f : List (List (Arc (WithBot K)))
  fr : List (List (WithBot K))
  soff : Nat
  aoff : Nat
  base : Nat

/-- The destination of an arc on frame `t`: with `pf` all arcs of the last frame are final. -/
def Seq.dst (c : Seq K) (pf : Bool) (t : Nat) (a : Arc S) : Nat :=
  if pf ∧ t + 1 = c.fr.length then c.f.length - 1 else a.dst

/-- The score of an arc on frame `t`. -/
def Seq.sc (c : Seq K) (pf : Bool) (t : Nat) (a : Arc S) : S :=
  if pf ∧ t + 1 = c.fr.length then a.score else labScore (c.fr.getD t []) a.label + a.score

/-- The best score at the end of an arc of frame `t`. -/
def Seq.best (c : Seq K) (pf : Bool) (t : Nat) (A : Nat → S) : S :=
  mx (c.f.flatten.map (fun a => A a.src + c.sc pf t a))

/-- The best score with which state `q` is entered. -/
def Seq.into (c : Seq K) (pf : Bool) (t : Nat) (A : Nat → S) (q : Nat) : S :=
  mx ((c.f.flatten.filter (fun a => c.dst pf t a = q)).map (fun a => A a.src + c.sc pf t a))

/-- The number of active states. -/
def Seq.active (c : Seq K) (A : Nat → S) : Nat :=
  ((List.range c.f.length).filter (fun q => A q ≠ ⊥)).length

/-- One step of the search. -/
def Seq.step (c : Seq K) (pf : Bool) (t : Nat) (A : Nat → S) (beam : K) (q : Nat) : S :=
  if sub (c.best pf t A) beam < c.into pf t A q then c.into pf t A q else ⊥

/-- The scores of the states on frame `t` (⊥ for those that are not active), and the beam of the frame
before. -/
def search (p : Args K) (c : Seq K) (pf : Bool) : Nat → (Nat → S) × K
  | 0 => (fun q => if q = 0 ∧ 0 < c.f.length then 0 else ⊥, p.searchBeam)
  | t + 1 =>
    let prev := search p c pf t
    let beam := nextBeam p t c.fr.length (c.active prev.1) prev.2
    (c.step pf t prev.1 beam, beam)

/-- An active state has an arc with label -1 on the last frame. -/
def finalSeen (p : Args K) (c : Seq K) : Bool :=
  decide (∃ a ∈ c.f.flatten, a.label = -1 ∧ (search p c false (c.fr.length - 1)).1 a.src ≠ ⊥)

/-- The last frame makes all arcs final. -/
def partFlag (p : Args K) (c : Seq K) : Bool := p.allowPartial && !finalSeen p c

/-- The score of state `q` on frame `t`. -/
def alpha (p : Args K) (c : Seq K) (t : Nat) : Nat → S := (search p c (partFlag p c) t).1

/-- The beam before frame `t`. -/
def beamAt (p : Args K) (c : Seq K) (t : Nat) : K := (search p c (partFlag p c) t).2

/-- What `IntersectDensePruned` needs of one sequence: the graph is a valid FSA (an empty graph is
allowed), there is a frame, all labels have a column, and the scores of the frames are as `DenseFsaVec`
documents: label -1 is impossible but on the last frame, where other labels are. -/
structure SeqOk (c : Seq K) : Prop where
  rows : RowsOk c.f
  pos : 0 < c.fr.length
  fin : ∀ a ∈ c.f.flatten, a.src + 1 < c.f.length
  lab : ∀ a ∈ c.f.flatten, a.label = -1 → a.dst + 1 = c.f.length
  last : ∀ a ∈ c.f.flatten, a.label ≠ -1 → labScore (c.fr.getD (c.fr.length - 1) []) a.label = ⊥
  others : ∀ t, t + 1 < c.fr.length → labScore (c.fr.getD t []) (-1) = ⊥

theorem search_part (p : Args K) (c : Seq K) (pf : Bool) (t : Nat) (h : t < c.fr.length) :
    search p c pf t = search p c false t := by
  induction t with
  | zero => rfl
  | succ t ih =>
    simp only [search]
    rw [ih (by omega)]
    have e1 : ∀ a, c.sc pf t a = c.sc false t a := by
      intro a; simp only [Seq.sc]; rw [if_neg (by omega), if_neg (by simp)]
    have e2 : ∀ a, c.dst pf t a = c.dst false t a := by
      intro a; simp only [Seq.dst]; rw [if_neg (by omega), if_neg (by simp)]
    have e3 : ∀ A, c.best pf t A = c.best false t A := by
      intro A; simp only [Seq.best, e1]
    have e4 : ∀ A q, c.into pf t A q = c.into false t A q := by
      intro A q; simp only [Seq.into, e1, e2]
    have e5 : ∀ A b, c.step pf t A b = c.step false t A b := by
      intro A b; funext q; simp only [Seq.step, e3, e4]
    rw [e5]

theorem alpha_succ (p : Args K) (c : Seq K) (t : Nat) (q : Nat) :
    alpha p c (t + 1) q = c.step (partFlag p c) t (alpha p c t) (beamAt p c (t + 1)) q := rfl

theorem beamAt_succ (p : Args K) (c : Seq K) (t : Nat) :
    beamAt p c (t + 1) = nextBeam p t c.fr.length (c.active (alpha p c t)) (beamAt p c t) := rfl

theorem alpha_zero (p : Args K) (c : Seq K) (q : Nat) :
    alpha p c 0 q = if q = 0 ∧ 0 < c.f.length then 0 else ⊥ := rfl

theorem step_ne_bot (c : Seq K) (pf : Bool) (t : Nat) (A : Nat → S) (beam : K) (q : Nat) :
    c.step pf t A beam q ≠ ⊥ ↔ sub (c.best pf t A) beam < c.into pf t A q := by
  unfold Seq.step
  split
  · rename_i h
    exact iff_of_true (ne_bot_of_gt h) h
  · rename_i h
    simp [h]

theorem into_ne_bot (c : Seq K) (pf : Bool) (t : Nat) (A : Nat → S) (q : Nat)
    (h : c.into pf t A q ≠ ⊥) :
    ∃ a ∈ c.f.flatten, c.dst pf t a = q ∧ A a.src + c.sc pf t a = c.into pf t A q := by
  rcases mx_mem ((c.f.flatten.filter (fun a => c.dst pf t a = q)).map
    (fun a => A a.src + c.sc pf t a)) with h' | h'
  · exact absurd h' h
  · obtain ⟨a, ha, he⟩ := List.mem_map.mp h'
    obtain ⟨h1, h2⟩ := List.mem_filter.mp ha
    exact ⟨a, h1, by simpa using h2, he⟩

/-- An active state was entered from an active state with exactly its score. -/
theorem alpha_from (p : Args K) (c : Seq K) (t q : Nat) (h : alpha p c (t + 1) q ≠ ⊥) :
    ∃ a ∈ c.f.flatten, c.dst (partFlag p c) t a = q ∧
      alpha p c t a.src + c.sc (partFlag p c) t a = alpha p c (t + 1) q := by
  rw [alpha_succ] at h ⊢
  have h1 := (step_ne_bot _ _ _ _ _ _).mp h
  obtain ⟨a, h2, h3, h4⟩ := into_ne_bot c (partFlag p c) t (alpha p c t) q (ne_bot_of_gt h1)
  refine ⟨a, h2, h3, ?_⟩
  rw [h4, Seq.step, if_pos h1]

/-- The score of an active state is not below that of any arc that enters it. -/
theorem alpha_ge (p : Args K) (c : Seq K) (t : Nat) (a : Arc S) (ha : a ∈ c.f.flatten)
    (h : alpha p c (t + 1) (c.dst (partFlag p c) t a) ≠ ⊥) :
    alpha p c t a.src + c.sc (partFlag p c) t a ≤ alpha p c (t + 1) (c.dst (partFlag p c) t a) := by
  rw [alpha_succ] at h ⊢
  have h1 := (step_ne_bot _ _ _ _ _ _).mp h
  rw [Seq.step, if_pos h1]
  apply le_mx
  exact List.mem_map.mpr ⟨a, List.mem_filter.mpr ⟨ha, by simp⟩, rfl⟩

/-- A state is active as soon as an arc with a score above the cutoff enters it. -/
theorem alpha_enter (p : Args K) (c : Seq K) (t : Nat) (a : Arc S) (ha : a ∈ c.f.flatten)
    (h : sub (c.best (partFlag p c) t (alpha p c t)) (beamAt p c (t + 1)) <
      alpha p c t a.src + c.sc (partFlag p c) t a) :
    alpha p c (t + 1) (c.dst (partFlag p c) t a) ≠ ⊥ := by
  rw [alpha_succ, step_ne_bot]
  refine lt_of_lt_of_le h (le_mx _ _ ?_)
  exact List.mem_map.mpr ⟨a, List.mem_filter.mpr ⟨ha, by simp⟩, rfl⟩

section
variable (p : Args K) {c : Seq K} (hc : SeqOk c)
include hc

theorem SeqOk.dst_lt (pf : Bool) (t : Nat) (a : Arc S) (ha : a ∈ c.f.flatten) :
    c.dst pf t a < c.f.length := by
  unfold Seq.dst
  have := hc.fin a ha
  split
  · omega
  · obtain ⟨row, hr, ha'⟩ := List.mem_flatten.mp ha
    obtain ⟨s, hs⟩ := List.getElem?_of_mem hr
    exact (hc.rows s row hs a ha').2

theorem SeqOk.alpha_lt (t q : Nat) (h : alpha p c t q ≠ ⊥) : q < c.f.length := by
  cases t with
  | zero =>
    rw [alpha_zero] at h
    split at h
    · rename_i h'; omega
    · exact absurd rfl h
  | succ t =>
    obtain ⟨a, h1, h2, -⟩ := alpha_from p c t q h
    rw [← h2]; exact hc.dst_lt _ _ _ h1

/-- After the last frame only the final state is active. -/
theorem SeqOk.alpha_last (q : Nat) (h : alpha p c c.fr.length q ≠ ⊥) : q + 1 = c.f.length := by
  have hp := hc.pos
  obtain ⟨m, hm⟩ : ∃ m, c.fr.length = m + 1 := ⟨c.fr.length - 1, by omega⟩
  rw [hm] at h
  obtain ⟨a, h1, h2, h3⟩ := alpha_from p c m q h
  rw [← h2, Seq.dst]
  have h4 := hc.fin a h1
  split
  · omega
  · rename_i hpf
    have h5 : c.sc (partFlag p c) m a ≠ ⊥ := by
      intro h5; rw [← h3, h5] at h; simp at h
    rw [Seq.sc, if_neg hpf] at h5
    have h6 : a.label = -1 := by
      by_contra h6
      have := hc.last a h1 h6
      rw [show c.fr.length - 1 = m by omega] at this
      rw [this] at h5; simp at h5
    exact hc.lab a h1 h6

/-- Nothing is active later. -/
theorem SeqOk.alpha_after (t q : Nat) (h : c.fr.length < t) : alpha p c t q = ⊥ := by
  obtain ⟨k, rfl⟩ : ∃ k, t = c.fr.length + k + 1 := ⟨t - c.fr.length - 1, by omega⟩
  clear h
  induction k generalizing q with
  | zero =>
    by_contra hcon
    obtain ⟨a, h1, h2, h3⟩ := alpha_from p c _ q hcon
    have h4 : alpha p c c.fr.length a.src ≠ ⊥ := by
      intro h4; rw [← h3] at hcon; rw [h4] at hcon; simp at hcon
    have := hc.alpha_last p a.src h4
    have := hc.fin a h1
    omega
  | succ k ih =>
    by_contra hcon
    obtain ⟨a, h1, h2, h3⟩ := alpha_from p c _ q hcon
    rw [show c.fr.length + (k + 1) = c.fr.length + k + 1 by omega, ih, WithBot.bot_add] at h3
    exact hcon h3.symm

/-- States that have arcs are active only on frames of the sequence. -/
theorem SeqOk.alpha_arc (t : Nat) (a : Arc S) (ha : a ∈ c.f.flatten) (h : alpha p c t a.src ≠ ⊥) :
    t < c.fr.length := by
  rcases Nat.lt_trichotomy t c.fr.length with h' | h' | h'
  · exact h'
  · rw [h'] at h
    have := hc.alpha_last p _ h
    have := hc.fin a ha
    omega
  · exact absurd (hc.alpha_after p t a.src h') h

end

end

end Verif.Fsa.Dp
