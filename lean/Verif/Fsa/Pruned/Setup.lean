import Verif.Fsa.Pruned.Search

/-!
# A batch of sequences, and its rows

`Setup` says where the sequences `c i` are in the arrays.  The ragged tensors of a frame are then
determined by the order `L` of the active states and by which arcs are still there.
-/

set_option linter.unusedSectionVars false

namespace Verif.Fsa.Dp
open Verif.Ragged Verif.Util Verif.Fsa.Dn

/-! ## Lists -/

theorem zipIdx_map_range {α : Type} (N : Nat) (g : Nat → α) :
    ((List.range N).map g).zipIdx = (List.range N).map (fun i => (g i, i)) := by
  apply List.ext_getElem?
  intro i
  by_cases h : i < N
  · simp [List.getElem?_zipIdx, h]
  · simp [List.getElem?_zipIdx, h]

theorem mapM_map' {α β γ : Type} (l : List α) (g : α → β) (F : β → Option γ) (h : α → γ)
    (hF : ∀ x ∈ l, F (g x) = some (h x)) : (l.map g).mapM F = some (l.map h) := by
  induction l with
  | nil => rfl
  | cons x l ih =>
    rw [List.map_cons, List.mapM_cons, hF x List.mem_cons_self,
      ih (fun y hy => hF y (List.mem_cons_of_mem _ hy))]
    rfl

theorem mapM_id' {α γ : Type} (l : List α) (F : α → Option γ) (h : α → γ)
    (hF : ∀ x ∈ l, F x = some (h x)) : l.mapM F = some (l.map h) := by
  have := mapM_map' l id F h hF
  rwa [List.map_id] at this

theorem map_range_get {α : Type} (N : Nat) (g : Nat → α) (i : Nat) (h : i < N) :
    ((List.range N).map g)[i]? = some (g i) := by simp [h]

section
variable {K : Type} [Field K] [LinearOrder K]

local notation "S" => WithBot K

/-- The sequences of a batch and their places in the arrays. -/
structure Setup (p : Args K) (c : Nat → Seq K) : Prop where
  frames : ∀ i < p.seqs, p.frames i = some (c i).fr.length
  base : ∀ i < p.seqs, p.b.splits[i]? = some (c i).base
  lo : ∀ i < p.seqs, p.v.sp1[i * p.stride]? = some (c i).soff
  hi : ∀ i < p.seqs, p.v.sp1[i * p.stride + 1]? = some ((c i).soff + (c i).f.length)
  id1 : ∀ i < p.seqs, ∀ q < (c i).f.length, p.v.id1[(c i).soff + q]? = some (i * p.stride)
  row : ∀ i < p.seqs, ∀ (q : Nat) (row : List (Arc S)), (c i).f[q]? = some row →
    rowElems p.v.sp2 ((c i).soff + q) = some (List.range' ((c i).aoff + splits (c i).f q) row.length)
  arc : ∀ i < p.seqs, ∀ (j : Nat) (a : Arc S), (c i).f.flatten[j]? = some a →
    p.v.arcs[(c i).aoff + j]? = some a
  lab : ∀ i < p.seqs, ∀ a ∈ (c i).f.flatten, 0 ≤ a.label + 1 ∧ a.label + 1 < p.b.cols
  mem : ∀ i < p.seqs, ∀ a ∈ (c i).f.flatten, ∀ t < (c i).fr.length,
    p.b.mem[((c i).base + t) * p.b.stride + (a.label + 1).toNat]? =
      some (labScore ((c i).fr.getD t []) a.label)
  key : ∀ i < p.seqs, ∀ i' < p.seqs, ∀ q < (c i).f.length, ∀ q' < (c i').f.length,
    (c i).soff + q + i * p.keyStride = (c i').soff + q' + i' * p.keyStride → i = i' ∧ q = q'
  ok : ∀ i < p.seqs, SeqOk (c i)
  maxT : ∀ i < p.seqs, (c i).fr.length ≤ p.maxFrames

/-- The arcs of state `q` with their numbers. -/
def posArcs (f : List (List (Arc S))) (q : Nat) : List (Arc S × Nat) :=
  (f.getD q []).zipIdx (splits f q)

theorem mem_posArcs (f : List (List (Arc S))) (hf : RowsOk f) (q : Nat) (x : Arc S × Nat) :
    x ∈ posArcs f q ↔ f.flatten[x.2]? = some x.1 ∧ x.1.src = q := by
  obtain ⟨a, j⟩ := x
  rw [posArcs, List.mk_mem_zipIdx_iff_le_and_getElem?_sub]
  constructor
  · rintro ⟨h1, h2⟩
    have hq : q < f.length := by
      by_contra hq
      rw [List.getD_eq_getElem?_getD, List.getElem?_eq_none (l := f) (by omega)] at h2
      simp at h2
    have hr := List.getElem?_eq_getElem hq
    rw [List.getD_eq_getElem?_getD, hr, Option.getD_some] at h2
    have hk := (List.getElem?_eq_some_iff.mp h2).1
    refine ⟨?_, (hf q _ hr a (List.mem_of_getElem? h2)).1⟩
    have := flatten_get f q _ hr (j - splits f q) hk
    rw [h2, Nat.add_sub_cancel' h1] at this
    exact this
  · rintro ⟨h1, h2⟩
    have hj := (List.getElem?_eq_some_iff.mp h1).1
    obtain ⟨s, r, k, h3, h4, rfl⟩ := flatten_pos f j hj
    rw [flatten_get f s r h3 k h4] at h1
    have := (hf s r h3 a (List.mem_of_getElem? h1)).1
    obtain rfl : s = q := by simp only at h2; omega
    refine ⟨Nat.le_add_right _ _, ?_⟩
    rw [List.getD_eq_getElem?_getD, h3, Option.getD_some, Nat.add_sub_cancel_left, h1]

/-- An arc before the states of the next frame are numbered. -/
def rawAi (c : Seq K) (pf : Bool) (t : Nat) (A : Nat → S) (q : Nat) (x : Arc S × Nat) : Ai S :=
  ⟨c.aoff + x.2, c.sc pf t x.1, ((c.soff + c.dst pf t x.1 : Nat) : Int), A q + c.sc pf t x.1⟩

/-- The number of the destination on the next frame, whose states are `L'`. -/
def dstIn (L' : List Nat) (d : Nat) : Int := if d ∈ L' then (L'.idxOf d : Int) else -1

/-- An arc; `L'` are the states of the next frame. -/
def aiOf (c : Seq K) (pf : Bool) (t : Nat) (A : Nat → S) (L' : List Nat) (q : Nat) (x : Arc S × Nat) :
    Ai S :=
  ⟨c.aoff + x.2, c.sc pf t x.1, dstIn L' (c.dst pf t x.1), A q + c.sc pf t x.1⟩

/-- The states of a frame, in the order `L`. -/
def stRow (c : Seq K) (A bw : Nat → S) (L : List Nat) : List (St S) :=
  L.map (fun q => ⟨c.soff + q, A q, bw q⟩)

/-- The arcs of a frame for which `R` holds. -/
def arcRow (c : Seq K) (pf : Bool) (t : Nat) (A : Nat → S) (L L' : List Nat) (R : Arc S × Nat → Bool) :
    List (List (Ai S)) :=
  L.map (fun q => ((posArcs c.f q).filter R).map (aiOf c pf t A L' q))

/-- The list has the active states of frame `t`, each once. -/
def Lists (p : Args K) (c : Seq K) (t : Nat) (L : List Nat) : Prop :=
  L.Nodup ∧ ∀ q, q ∈ L ↔ alpha p c t q ≠ ⊥

end

end Verif.Fsa.Dp
