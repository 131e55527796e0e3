import Verif.Fsa.Pruned.Props

/-!
# The two threads of `IntersectDensePruned`

`Intersect` runs the forward pass (k2/csrc/intersect_dense_pruned.cu 206-240) while a task of the thread
pool runs `BackwardPass` (lines 403-424).  They are synchronised by two semaphores.  A step of the forward
pass and a round of pruning are atomic here: at the same time they only touch different frames, but for the
states of the frame after the pruned ones, of which the forward pass reads `a_fsas_state_idx01` and
`forward_loglike` while pruning writes `backward_loglike`.
-/

set_option linter.unusedSectionVars false

namespace Verif.Fsa.Dp
open Verif.Ragged Verif.Util Verif.Fsa.Dn

section
variable {K : Type} [Field K] [LinearOrder K]

local notation "S" => WithBot K

/-- `frames_`: the frames whose arcs are known, and the states of the last one; and the dynamic beams. -/
structure Pend (K : Type) where
  fs : List (Frame (WithBot K))
  cur : List (List (St (WithBot K)))
  beams : List K

/-- `PropagateForward` and `push_back`, lines 216-223. -/
def fstep (p : Args K) (order : Nat → Nat → List Nat) (s : Pend K) : Option (Pend K) :=
  (propagateForward p (order s.fs.length) s.fs.length s.cur s.beams).map
    (fun x => ⟨s.fs ++ [⟨s.cur, x.1⟩], x.2.2, x.2.1⟩)

/-- `PruneTimeRange` while the forward pass runs: the frame after the pruned ones may be the last one. -/
def pstep (p : Args K) (r : Nat × Nat) (s : Pend K) : Option (Pend K) :=
  if r.2 < s.fs.length then (pruneTimeRange p r.1 r.2 s.fs).map (fun fs => { s with fs := fs })
  else if r.2 = s.fs.length then
    (pruneFrames p (s.fs.drop r.1) s.cur).map (fun x => ⟨s.fs.take r.1 ++ x.1, x.2, s.beams⟩)
  else none

/-- The threads.  `fpc` is 0 before a step of the forward pass, 1 before `Signal`, and 2 before `acquire`;
`bpc` is 0 before `Wait`, 1 before `PruneTimeRange`, and 2 before `release`. -/
structure Th (K : Type) where
  s : Pend K
  fpc : Nat
  bpc : Nat
  bsem : Nat
  fsem : Nat
  rs : List (Nat × Nat)

/-- One step of one of the threads; `all` are the rounds, `T` the number of frames. -/
inductive Step (p : Args K) (order : Nat → Nat → List Nat) (T : Nat) (all : List (Nat × Nat)) :
    Th K → Th K → Prop
  /-- lines 215-225 -/
  | fwd (x : Th K) (s : Pend K) : x.fpc = 0 → x.s.fs.length ≤ T → fstep p order x.s = some s →
      Step p order T all x
        { x with s := s, fpc := if ∃ r ∈ all, r.2 = x.s.fs.length + 1 then 1 else 0 }
  /-- line 228 -/
  | signal (x : Th K) : x.fpc = 1 → Step p order T all x { x with fpc := 2, bsem := x.bsem + 1 }
  /-- line 232 -/
  | acquire (x : Th K) : x.fpc = 2 → 0 < x.fsem → Step p order T all x { x with fpc := 0, fsem := x.fsem - 1 }
  /-- line 418 -/
  | wait (x : Th K) : x.bpc = 0 → x.rs ≠ [] → 0 < x.bsem →
      Step p order T all x { x with bpc := 1, bsem := x.bsem - 1 }
  /-- lines 419-421 -/
  | prune (x : Th K) (r : Nat × Nat) (rs : List (Nat × Nat)) (s : Pend K) : x.bpc = 1 → x.rs = r :: rs →
      pstep p r x.s = some s → Step p order T all x { x with s := s, bpc := 2, rs := rs }
  /-- line 422 -/
  | release (x : Th K) : x.bpc = 2 → Step p order T all x { x with bpc := 0, fsem := x.fsem + 1 }

/-- Any number of steps. -/
inductive Reach (p : Args K) (order : Nat → Nat → List Nat) (T : Nat) (all : List (Nat × Nat)) :
    Th K → Th K → Prop
  | refl (x : Th K) : Reach p order T all x x
  | step (x y z : Th K) : Reach p order T all x y → Step p order T all y z → Reach p order T all x z

/-- The start: the backward semaphore is 0 and the forward semaphore is 1 (line 95). -/
def thInit (p : Args K) (s0 : List (List (St S))) : Th K :=
  ⟨⟨[], s0, List.replicate p.seqs p.searchBeam⟩, 0, 0, 0, 1, pruneRanges p.maxFrames 0⟩

/-- Both threads are at the end; the frame after the last is dropped (line 238). -/
def Th.finished (x : Th K) (T : Nat) : Prop := x.fpc = 0 ∧ x.s.fs.length = T + 1 ∧ x.bpc = 0 ∧ x.rs = []

/-! ## Forward steps and rounds commute -/

theorem bind_map {α β γ : Type} (x : Option α) (f : α → β) (g : β → Option γ) :
    (x.map f).bind g = x.bind (fun a => g (f a)) := by cases x <;> rfl

theorem pruneLoop_length (p : Args K) (last : List (List (St S))) (fs : List (Frame S))
    (r : List (Frame S) × List (List (St S)) × List (List Bool)) (h : pruneLoop p last fs = some r) :
    r.1.length = fs.length := by
  induction fs generalizing r with
  | nil => rw [pruneLoop] at h; obtain rfl := Option.some.inj h; rfl
  | cons f fs ih =>
    rw [pruneLoop] at h
    obtain ⟨⟨out, next, flags⟩, h1, h⟩ := Option.bind_eq_some_iff.mp h
    obtain ⟨marks, h2, h⟩ := Option.bind_eq_some_iff.mp h
    obtain rfl := Option.some.inj h
    have := ih _ h1
    simp only [List.length_cons] at this ⊢
    omega

theorem pruneFrames_shape (p : Args K) (fs : List (Frame S)) (last : List (List (St S)))
    (r : List (Frame S) × List (List (St S))) (h : pruneFrames p fs last = some r) :
    r.1.length = fs.length ∧ r.2 = setFinal last := by
  cases fs with
  | nil => rw [pruneFrames] at h; obtain rfl := Option.some.inj h; exact ⟨rfl, rfl⟩
  | cons f fs =>
    rw [pruneFrames] at h
    obtain ⟨⟨out, next, flags⟩, h1, h⟩ := Option.bind_eq_some_iff.mp h
    obtain ⟨marks, h2, h⟩ := Option.bind_eq_some_iff.mp h
    obtain rfl := Option.some.inj h
    have := pruneLoop_length p last fs _ h1
    simp only [List.length_cons] at this ⊢
    exact ⟨by omega, trivial⟩

theorem mapM_comp {α β γ : Type} (l : List α) (g : α → β) (f : β → Option γ) :
    (l.map g).mapM f = l.mapM (fun a => f (g a)) := by
  induction l with
  | nil => rfl
  | cons x l ih => rw [List.map_cons, List.mapM_cons, List.mapM_cons, ih]

theorem zipIdx_map' {α β : Type} (l : List α) (g : α → β) (n : Nat) :
    (l.map g).zipIdx n = (l.zipIdx n).map (fun x => (g x.1, x.2)) := by
  induction l generalizing n with
  | nil => rfl
  | cons x l ih => rw [List.map_cons, List.zipIdx_cons, List.zipIdx_cons, List.map_cons, ih]

/-- The forward pass does not look at backward scores. -/
theorem getArcs_setFinal (p : Args K) (t : Nat) (st : List (List (St S))) :
    getArcs p t (setFinal st) = getArcs p t st := by
  unfold getArcs setFinal
  rw [zipIdx_map', mapM_comp]
  congr 1
  funext q
  have h1 : hasFinalArc p t q.2 (q.1.map (fun s => { s with bwd := neg s.fwd })) = hasFinalArc p t q.2 q.1 := by
    unfold hasFinalArc
    rw [mapM_comp]
  simp only [h1, mapM_comp]
  rfl

theorem propagate_setFinal (p : Args K) (o : Nat → List Nat) (t : Nat) (st : List (List (St S))) (beams : List K) :
    propagateForward p o t (setFinal st) beams = propagateForward p o t st beams := by
  unfold propagateForward
  rw [getArcs_setFinal]

theorem pstep_length (p : Args K) (r : Nat × Nat) (hr : r.1 ≤ r.2) (s s' : Pend K) (h : pstep p r s = some s') :
    s'.fs.length = s.fs.length := by
  unfold pstep at h
  split at h
  · rename_i hlt
    obtain ⟨fs, h1, rfl⟩ := Option.map_eq_some_iff.mp h
    unfold pruneTimeRange at h1
    obtain ⟨f, h2, h1⟩ := Option.bind_eq_some_iff.mp h1
    obtain ⟨⟨out, last⟩, h3, h1⟩ := Option.bind_eq_some_iff.mp h1
    obtain rfl := Option.some.inj h1
    have := (pruneFrames_shape p _ _ _ h3).1
    simp only [List.length_append, List.length_take, List.length_drop, List.length_cons] at this ⊢
    omega
  · split at h
    · rename_i h1 h2
      obtain ⟨x, h3, rfl⟩ := Option.map_eq_some_iff.mp h
      have := (pruneFrames_shape p _ _ _ h3).1
      simp only [List.length_append, List.length_take, List.length_drop] at this ⊢
      omega
    · simp at h

theorem fstep_length (p : Args K) (order : Nat → Nat → List Nat) (s s' : Pend K) (h : fstep p order s = some s') :
    s'.fs.length = s.fs.length + 1 := by
  obtain ⟨x, -, rfl⟩ := Option.map_eq_some_iff.mp h
  simp

/-- A round of pruning may be done before or after a step of the forward pass. -/
theorem commute (p : Args K) (order : Nat → Nat → List Nat) (r : Nat × Nat) (hr : r.1 ≤ r.2) (s : Pend K)
    (h : r.2 ≤ s.fs.length) :
    (fstep p order s).bind (pstep p r) = (pstep p r s).bind (fstep p order) := by
  rcases Nat.eq_or_lt_of_le h with heq | hlt
  · -- the states after the pruned frames are the current ones
    have e1 : pstep p r s = (pruneFrames p (s.fs.drop r.1) s.cur).map
        (fun x => ⟨s.fs.take r.1 ++ x.1, x.2, s.beams⟩) := by
      rw [pstep, if_neg (by omega), if_pos heq]
    rw [e1, fstep, bind_map, bind_map]
    cases h1 : pruneFrames p (s.fs.drop r.1) s.cur with
    | none =>
      cases h2 : propagateForward p (order s.fs.length) s.fs.length s.cur s.beams with
      | none => rfl
      | some y =>
        rw [Option.bind_some, Option.bind_none, pstep, if_pos (by simp; omega), pruneTimeRange]
        simp only [heq]
        rw [List.getElem?_append_right le_rfl, Nat.sub_self, List.getElem?_cons_zero, List.take_left]
        simp [h1]
    | some x =>
      obtain ⟨g1, g2⟩ := pruneFrames_shape p _ _ _ h1
      have elen : (s.fs.take r.1 ++ x.1).length = s.fs.length := by
        rw [List.length_append, g1, List.length_take, List.length_drop]; omega
      rw [Option.bind_some, fstep, elen]
      simp only [g2, propagate_setFinal]
      cases h2 : propagateForward p (order s.fs.length) s.fs.length s.cur s.beams with
      | none => rfl
      | some y =>
        rw [Option.bind_some, Option.map_some, pstep, if_pos (by simp; omega), pruneTimeRange]
        simp only [heq]
        rw [List.getElem?_append_right le_rfl, Nat.sub_self, List.getElem?_cons_zero, List.take_left]
        simp only [Option.bind_eq_bind, Option.bind_some, h1, Option.map_some, g2]
        rw [List.take_append_of_le_length (by omega), List.drop_of_length_le (by simp)]
  · have e1 : pstep p r s = (pruneTimeRange p r.1 r.2 s.fs).map (fun fs => { s with fs := fs }) := by
      rw [pstep, if_pos hlt]
    have hget := List.getElem?_eq_getElem hlt
    have e2 : ∀ (x : Frame S), pruneTimeRange p r.1 r.2 (s.fs ++ [x]) =
        (pruneTimeRange p r.1 r.2 s.fs).map (fun fs => fs ++ [x]) := by
      intro x
      unfold pruneTimeRange
      rw [List.getElem?_append_left hlt, hget, List.take_append_of_le_length (by omega)]
      simp only [Option.bind_eq_bind, Option.bind_some]
      cases pruneFrames p ((s.fs.take r.2).drop r.1) s.fs[r.2].states with
      | none => rfl
      | some y =>
        simp only [Option.bind_some, Option.map_some, Option.some.injEq]
        rw [List.take_append_of_le_length (by omega), List.drop_append_of_le_length (by omega)]
        simp
    rw [e1, fstep, bind_map, bind_map]
    cases h2 : propagateForward p (order s.fs.length) s.fs.length s.cur s.beams with
    | none =>
      rw [Option.bind_none]
      cases h3 : pruneTimeRange p r.1 r.2 s.fs with
      | none => rfl
      | some fs =>
        have : fs.length = s.fs.length :=
          pstep_length p r hr s { s with fs := fs } (by rw [e1, h3]; rfl)
        rw [Option.bind_some, fstep, this, h2]; rfl
    | some y =>
      rw [Option.bind_some, pstep, if_pos (by simp; omega), e2]
      cases h3 : pruneTimeRange p r.1 r.2 s.fs with
      | none => rfl
      | some fs =>
        have : fs.length = s.fs.length :=
          pstep_length p r hr s { s with fs := fs } (by rw [e1, h3]; rfl)
        rw [Option.bind_some, fstep, this, h2]; rfl

/-! ## What is left to do -/

/-- `k` steps of the forward pass. -/
def fsteps (p : Args K) (order : Nat → Nat → List Nat) : Nat → Pend K → Option (Pend K)
  | 0, s => some s
  | k + 1, s => (fstep p order s).bind (fsteps p order k)

/-- Rounds of pruning. -/
def psteps (p : Args K) : List (Nat × Nat) → Pend K → Option (Pend K)
  | [], s => some s
  | r :: rs, s => (pstep p r s).bind (psteps p rs)

theorem psteps_cons (p : Args K) (r : Nat × Nat) (rs : List (Nat × Nat)) :
    psteps p (r :: rs) = fun s => (pstep p r s).bind (psteps p rs) := rfl

theorem commute_all (p : Args K) (order : Nat → Nat → List Nat) (r : Nat × Nat) (hr : r.1 ≤ r.2) (k : Nat)
    (s : Pend K) (h : r.2 ≤ s.fs.length) :
    (fsteps p order k s).bind (pstep p r) = (pstep p r s).bind (fsteps p order k) := by
  induction k generalizing s with
  | zero => rw [fsteps, Option.bind_some]; cases pstep p r s <;> rfl
  | succ k ih =>
    have e : (pstep p r s).bind (fsteps p order (k + 1)) =
        ((pstep p r s).bind (fstep p order)).bind (fsteps p order k) := by
      cases pstep p r s <;> rfl
    rw [e, ← commute p order r hr s h, fsteps, Option.bind_assoc, Option.bind_assoc]
    cases h1 : fstep p order s with
    | none => rfl
    | some s' =>
      rw [Option.bind_some, Option.bind_some]
      exact ih s' (by have := fstep_length p order s s' h1; omega)

/-- The forward pass, as in the model that runs the threads one after the other. -/
theorem fsteps_forward (p : Args K) (order : Nat → Nat → List Nat) (k : Nat) (s : Pend K) :
    (fsteps p order k s).map Pend.fs =
      (forward p order s.fs.length k s.cur s.beams).map (fun x => s.fs ++ x.1) := by
  induction k generalizing s with
  | zero => simp [fsteps, forward]
  | succ k ih =>
    rw [fsteps, forward, fstep, bind_map]
    cases h : propagateForward p (order s.fs.length) s.fs.length s.cur s.beams with
    | none => rfl
    | some x =>
      rw [Option.bind_some, ih]
      simp only [Option.bind_eq_bind, Option.bind_some, List.length_append, List.length_singleton]
      cases forward p order (s.fs.length + 1) k x.2.2 x.2.1 with
      | none => rfl
      | some y => simp

/-- The rounds, as in that model. -/
theorem psteps_backward (p : Args K) (rs : List (Nat × Nat)) (s : Pend K)
    (h : ∀ r ∈ rs, r.1 ≤ r.2 ∧ r.2 < s.fs.length) : (psteps p rs s).map Pend.fs = backwardPass p rs s.fs := by
  induction rs generalizing s with
  | nil => rfl
  | cons r rs ih =>
    rw [psteps, backwardPass, pstep, if_pos (h r List.mem_cons_self).2, bind_map]
    cases h1 : pruneTimeRange p r.1 r.2 s.fs with
    | none => rfl
    | some fs =>
      have : fs.length = s.fs.length :=
        pstep_length p r (h r List.mem_cons_self).1 s { s with fs := fs } (by
          rw [pstep, if_pos (h r List.mem_cons_self).2, h1]; rfl)
      rw [Option.bind_some, Option.bind_some]
      exact ih _ (fun r' hr' => by
        have := h r' (List.mem_cons_of_mem _ hr'); simp only; omega)

/-! ## The invariant -/

/-- The number of rounds that end at most at `t`. -/
def cnt (all : List (Nat × Nat)) (t : Nat) : Nat := (all.filter (fun r => r.2 ≤ t)).length

/-- The rounds: their ends increase, and are at most `T`. -/
structure RangesOk (T : Nat) (all : List (Nat × Nat)) : Prop where
  le : ∀ r ∈ all, r.1 ≤ r.2 ∧ 0 < r.2 ∧ r.2 ≤ T
  sorted : all.Pairwise (fun r r' => r.2 < r'.2)

/-- What holds in all reachable states; `V` is the result. -/
structure Inv (p : Args K) (order : Nat → Nat → List Nat) (T : Nat) (all : List (Nat × Nat)) (V : Option (Pend K))
    (x : Th K) : Prop where
  value : (fsteps p order (T + 1 - x.s.fs.length) x.s).bind (psteps p x.rs) = V
  len : x.s.fs.length ≤ T + 1
  fpc : x.fpc ≤ 2
  bpc : x.bpc ≤ 2
  bound : x.rs.length ≤ all.length
  rest : x.rs = all.drop (all.length - x.rs.length)
  signals : cnt all x.s.fs.length = (if x.fpc = 1 then 1 else 0) + (all.length - x.rs.length) +
    (if x.bpc = 1 then 1 else 0) + x.bsem
  permits : x.fsem + cnt all x.s.fs.length + (if x.bpc = 2 then 1 else 0) =
    1 + (all.length - x.rs.length) + (if 1 ≤ x.fpc then 1 else 0)
  busy : x.bpc = 1 → x.rs ≠ []
  begun : x.bpc = 2 → x.rs.length < all.length

theorem cnt_get (all : List (Nat × Nat)) (hs : all.Pairwise (fun r r' => r.2 < r'.2)) (t i : Nat) (r : Nat × Nat)
    (hr : all[i]? = some r) (hi : i < cnt all t) : r.2 ≤ t := by
  induction all generalizing i with
  | nil => simp at hr
  | cons a all ih =>
    have hs' := List.pairwise_cons.mp hs
    unfold cnt at hi
    rw [List.filter_cons] at hi
    by_cases ha : a.2 ≤ t
    · rw [if_pos (by simpa using ha), List.length_cons] at hi
      cases i with
      | zero => obtain rfl := Option.some.inj hr; exact ha
      | succ i => exact ih hs'.2 i hr (by unfold cnt; omega)
    · rw [if_neg (by simpa using ha)] at hi
      have : all.filter (fun r => decide (r.2 ≤ t)) = [] := by
        rw [List.filter_eq_nil_iff]
        intro b hb
        have := hs'.1 b hb
        simp; omega
      rw [this] at hi
      simp at hi

theorem cnt_succ (all : List (Nat × Nat)) (hs : all.Pairwise (fun r r' => r.2 < r'.2)) (t : Nat) :
    cnt all (t + 1) = cnt all t + (if ∃ r ∈ all, r.2 = t + 1 then 1 else 0) := by
  induction all with
  | nil => simp [cnt]
  | cons a all ih =>
    have hs' := List.pairwise_cons.mp hs
    have ih := ih hs'.2
    unfold cnt at ih ⊢
    rw [List.filter_cons, List.filter_cons]
    by_cases h1 : a.2 ≤ t
    · rw [if_pos (by simp; omega), if_pos (by simpa using h1), List.length_cons, List.length_cons, ih]
      have : (∃ r ∈ a :: all, r.2 = t + 1) ↔ ∃ r ∈ all, r.2 = t + 1 := by
        constructor
        · rintro ⟨r, hr, he⟩
          rcases List.mem_cons.mp hr with rfl | hr
          · omega
          · exact ⟨r, hr, he⟩
        · rintro ⟨r, hr, he⟩; exact ⟨r, List.mem_cons_of_mem _ hr, he⟩
      simp only [this]
      omega
    · by_cases h2 : a.2 = t + 1
      · have hno : ∀ u, u ≤ t + 1 → (all.filter (fun r => decide (r.2 ≤ u))) = [] := by
          intro u hu
          rw [List.filter_eq_nil_iff]
          intro b hb
          have := hs'.1 b hb
          simp; omega
        rw [if_pos (by simp; omega), if_neg (by simpa using h1), List.length_cons, hno _ le_rfl, hno _ (by omega),
          if_pos ⟨a, List.mem_cons_self, h2⟩]
      · rw [if_neg (by simp; omega), if_neg (by simpa using h1), ih]
        have : (∃ r ∈ a :: all, r.2 = t + 1) ↔ ∃ r ∈ all, r.2 = t + 1 := by
          constructor
          · rintro ⟨r, hr, he⟩
            rcases List.mem_cons.mp hr with rfl | hr
            · omega
            · exact ⟨r, hr, he⟩
          · rintro ⟨r, hr, he⟩; exact ⟨r, List.mem_cons_of_mem _ hr, he⟩
        simp only [this]

theorem drop_next {α : Type} (all rs : List α) (r : α) (hb : (r :: rs).length ≤ all.length)
    (h : r :: rs = all.drop (all.length - (r :: rs).length)) :
    all[all.length - (r :: rs).length]? = some r ∧ rs = all.drop (all.length - rs.length) := by
  rw [List.length_cons] at *
  have hlt : all.length - (rs.length + 1) < all.length := by omega
  rw [List.drop_eq_getElem_cons hlt] at h
  obtain ⟨h1, h2⟩ := List.cons.inj h
  refine ⟨by rw [List.getElem?_eq_getElem hlt, h1], ?_⟩
  rw [show all.length - rs.length = all.length - (rs.length + 1) + 1 by omega]
  exact h2

variable {p : Args K} {order : Nat → Nat → List Nat} {T : Nat} {all : List (Nat × Nat)} {V : Option (Pend K)}

/-- The next round is over frames that the forward pass has left. -/
theorem Inv.ready (hr : RangesOk T all) {x : Th K} (hI : Inv p order T all V x) (hb : x.bpc = 1) (r : Nat × Nat)
    (rs : List (Nat × Nat)) (hrs : x.rs = r :: rs) : r.1 ≤ r.2 ∧ r.2 ≤ x.s.fs.length := by
  have h1 := hI.rest
  have h2 := hI.bound
  have h3 := hI.signals
  rw [hrs] at h1 h2 h3
  obtain ⟨h4, -⟩ := drop_next all rs r h2 h1
  refine ⟨(hr.le r (List.mem_of_getElem? h4)).1, cnt_get all hr.sorted _ _ r h4 ?_⟩
  rw [if_pos hb] at h3
  omega

theorem Inv.step (hr : RangesOk T all) {x y : Th K} (hI : Inv p order T all V x) (h : Step p order T all x y) :
    Inv p order T all V y := by
  have hv := hI.value
  have hl := hI.len
  have hf := hI.fpc
  have hb := hI.bpc
  have hbd := hI.bound
  have hre := hI.rest
  have hsg := hI.signals
  have hpm := hI.permits
  have hbz := hI.busy
  have hbg := hI.begun
  cases h with
  | fwd s h1 h2 h3 =>
    have hlen := fstep_length p order _ s h3
    have hc := cnt_succ all hr.sorted x.s.fs.length
    rw [show T + 1 - x.s.fs.length = (T + 1 - s.fs.length) + 1 by omega, fsteps, h3, Option.bind_some] at hv
    rw [h1] at hsg hpm
    refine ⟨hv, by simp only; omega, by simp only; split <;> omega, hb, hbd, hre, ?_, ?_, hbz, hbg⟩
    · simp only [hlen, hc]
      by_cases hex : ∃ r ∈ all, r.2 = x.s.fs.length + 1
      · simp only [if_pos hex, if_true]; simp only [show ¬ (0 = 1) by omega, if_false] at hsg; omega
      · simp only [if_neg hex]; omega
    · simp only [hlen, hc]
      by_cases hex : ∃ r ∈ all, r.2 = x.s.fs.length + 1
      · simp only [if_pos hex, le_refl, if_true]; simp only [show ¬ (1 ≤ 0) by omega, if_false] at hpm; omega
      · simp only [if_neg hex]; omega
  | signal h1 =>
    rw [h1] at hsg hpm
    simp only [le_refl, if_true] at hsg hpm
    refine ⟨hv, hl, by simp, hb, hbd, hre, ?_, ?_, hbz, hbg⟩
    · simp only [show ¬ (2 = 1) by omega, if_false]; omega
    · simp only [show 1 ≤ 2 by omega, if_true]; omega
  | acquire h1 h2 =>
    rw [h1] at hsg hpm
    simp only [show ¬ (2 = 1) by omega, show 1 ≤ 2 by omega, if_false, if_true] at hsg hpm
    refine ⟨hv, hl, by simp, hb, hbd, hre, ?_, ?_, hbz, hbg⟩
    · simp only [show ¬ (0 = 1) by omega, if_false]; omega
    · simp only [show ¬ (1 ≤ 0) by omega, if_false]; omega
  | wait h1 h2 h3 =>
    rw [h1] at hsg hpm
    simp only [show ¬ (0 = 1) by omega, show ¬ (0 = 2) by omega, if_false] at hsg hpm
    refine ⟨hv, hl, hf, by simp, hbd, hre, ?_, ?_, fun _ => h2, by simp⟩
    · simp only [if_true]; omega
    · simp only [show ¬ (1 = 2) by omega, if_false]; omega
  | prune r rs s h1 h2 h3 =>
    obtain ⟨hle, hen⟩ := hI.ready hr h1 r rs h2
    have hlen := pstep_length p r hle _ s h3
    rw [h2] at hv hbd hre hsg hpm
    rw [psteps_cons, ← Option.bind_assoc, commute_all p order r hle _ _ hen, h3, Option.bind_some, ← hlen] at hv
    obtain ⟨-, hre'⟩ := drop_next all rs r hbd hre
    rw [List.length_cons] at hbd hsg hpm
    rw [h1] at hsg hpm
    simp only [show ¬ (1 = 2) by omega, if_false, if_true] at hsg hpm
    refine ⟨hv, by simp only; omega, hf, by simp, by simp only; omega, hre', ?_, ?_, by simp, fun _ => by simp only; omega⟩
    · simp only [hlen, show ¬ (2 = 1) by omega, if_false]; omega
    · simp only [hlen, if_true]; omega
  | release h1 =>
    rw [h1] at hsg hpm
    simp only [show ¬ (2 = 1) by omega, if_false, if_true] at hsg hpm
    refine ⟨hv, hl, hf, by simp, hbd, hre, ?_, ?_, by simp, by simp⟩
    · simp only [show ¬ (0 = 1) by omega, if_false]; omega
    · simp only [show ¬ (0 = 2) by omega, if_false]; omega

/-- If the threads run one after the other do not fail, neither do these, and they do not block each
other. -/
theorem Inv.progress (hr : RangesOk T all) {x : Th K} (hI : Inv p order T all V x) (hV : V ≠ none)
    (hx : ¬ x.finished T) : ∃ y, Step p order T all x y := by
  have hf := hI.fpc
  have hb := hI.bpc
  have hl := hI.len
  have hsg := hI.signals
  have hpm := hI.permits
  have hbd := hI.bound
  have hcnt : ∀ t, cnt all t ≤ all.length := fun t => List.length_filter_le _ _
  by_cases hb1 : x.bpc = 1
  · obtain ⟨r, rs, hrs⟩ := List.exists_cons_of_ne_nil (hI.busy hb1)
    obtain ⟨hle, hen⟩ := hI.ready hr hb1 r rs hrs
    cases h : pstep p r x.s with
    | some s => exact ⟨_, .prune x r rs s hb1 hrs h⟩
    | none =>
      exfalso
      apply hV
      rw [← hI.value, hrs, psteps_cons, ← Option.bind_assoc, commute_all p order r hle _ _ hen, h]; rfl
  · by_cases hb2 : x.bpc = 2
    · exact ⟨_, .release x hb2⟩
    · have hb0 : x.bpc = 0 := by omega
      rw [if_neg hb1] at hsg
      rw [if_neg hb2] at hpm
      by_cases hw : x.rs ≠ [] ∧ 0 < x.bsem
      · exact ⟨_, .wait x hb0 hw.1 hw.2⟩
      · by_cases hf1 : x.fpc = 1
        · exact ⟨_, .signal x hf1⟩
        · rw [if_neg hf1] at hsg
          by_cases hf2 : x.fpc = 2
          · by_cases hs : 0 < x.fsem
            · exact ⟨_, .acquire x hf2 hs⟩
            · exfalso
              rw [if_pos (by omega)] at hpm
              apply hw
              have := hcnt x.s.fs.length
              refine ⟨?_, by omega⟩
              intro h
              rw [h, List.length_nil] at hpm
              omega
          · have hf0 : x.fpc = 0 := by omega
            by_cases ht : x.s.fs.length ≤ T
            · cases h : fstep p order x.s with
              | some s => exact ⟨_, .fwd x s hf0 ht h⟩
              | none =>
                exfalso
                apply hV
                rw [← hI.value, show T + 1 - x.s.fs.length = (T - x.s.fs.length) + 1 by omega, fsteps, h]; rfl
            · exfalso
              apply hx
              refine ⟨hf0, by omega, hb0, ?_⟩
              by_contra hne
              have hall : cnt all x.s.fs.length = all.length := by
                unfold cnt
                rw [List.filter_eq_self.mpr]
                intro r hr'
                have := (hr.le r hr').2.2
                simp; omega
              have h0 : ¬ 0 < x.bsem := fun h => hw ⟨hne, h⟩
              have : 0 < x.rs.length := List.length_pos_of_ne_nil hne
              omega

/-- The work that is left. -/
def work (T : Nat) (x : Th K) : Nat :=
  4 * (T + 1 - x.s.fs.length) + (if x.fpc = 1 then 2 else if x.fpc = 2 then 1 else 0) +
    4 * x.rs.length + (if x.bpc = 0 then 2 else if x.bpc = 1 then 1 else 3)

theorem Inv.decreases (hr : RangesOk T all) {x y : Th K} (hI : Inv p order T all V x) (h : Step p order T all x y) :
    work T y < work T x := by
  unfold work
  cases h with
  | fwd s h1 h2 h3 =>
    have hlen := fstep_length p order _ s h3
    simp only [hlen, h1]
    split_ifs <;> simp_all <;> omega
  | signal h1 => simp [h1]
  | acquire h1 h2 => simp [h1]
  | wait h1 h2 h3 => simp [h1]
  | prune r rs s h1 h2 h3 =>
    obtain ⟨hle, -⟩ := hI.ready hr h1 r rs h2
    have hlen := pstep_length p r hle _ s h3
    simp only [hlen, h1, h2, List.length_cons]
    simp
    omega
  | release h1 => simp [h1]

/-! ## The rounds of the code -/

theorem ranges_ok (T k : Nat) (h : 20 * k < T) : RangesOk T (pruneRanges T k) ∧
    ∀ r ∈ pruneRanges T k, 20 * k < r.2 := by
  induction hn : T - 20 * k using Nat.strong_induction_on generalizing k with
  | _ n ih =>
    rw [pruneRanges]
    split
    · refine ⟨⟨?_, by simp⟩, ?_⟩
      · intro r hr
        rw [List.mem_singleton.mp hr]
        simp only
        omega
      · intro r hr
        rw [List.mem_singleton.mp hr]
        exact h
    · rename_i h1
      obtain ⟨g1, g2⟩ := ih (T - 20 * (k + 1)) (by omega) (k + 1) (by omega) rfl
      refine ⟨⟨?_, ?_⟩, ?_⟩
      · intro r hr
        rcases List.mem_cons.mp hr with rfl | hr
        · simp only; omega
        · exact g1.le r hr
      · refine List.pairwise_cons.mpr ⟨?_, g1.sorted⟩
        intro r hr
        have := g2 r hr
        simp only
        omega
      · intro r hr
        rcases List.mem_cons.mp hr with rfl | hr
        · simp only; omega
        · have := g2 r hr; omega

theorem sequential (p : Args K) (order : Nat → Nat → List Nat) (hT : 0 < p.maxFrames) (s0 : List (List (St S))) :
    ((fsteps p order (p.maxFrames + 1) ⟨[], s0, List.replicate p.seqs p.searchBeam⟩).bind
      (psteps p (pruneRanges p.maxFrames 0))).map Pend.fs =
    (forward p order 0 (p.maxFrames + 1) s0 (List.replicate p.seqs p.searchBeam)).bind
      (fun x => backwardPass p (pruneRanges p.maxFrames 0) x.1) := by
  have h1 := fsteps_forward p order (p.maxFrames + 1) ⟨[], s0, List.replicate p.seqs p.searchBeam⟩
  simp only [List.length_nil, List.nil_append] at h1
  have hlen : ∀ (k : Nat) (s s' : Pend K), fsteps p order k s = some s' → s'.fs.length = s.fs.length + k := by
    intro k
    induction k with
    | zero => intro s s' h; obtain rfl := Option.some.inj h; rfl
    | succ k ih =>
      intro s s' h
      obtain ⟨s1, h2, h3⟩ := Option.bind_eq_some_iff.mp h
      have e1 := ih _ _ h3
      have e2 := fstep_length p order _ _ h2
      omega
  cases h2 : fsteps p order (p.maxFrames + 1) ⟨[], s0, List.replicate p.seqs p.searchBeam⟩ with
  | none =>
    rw [h2] at h1
    cases h3 : forward p order 0 (p.maxFrames + 1) s0 (List.replicate p.seqs p.searchBeam) with
    | none => rfl
    | some x => rw [h3] at h1; simp at h1
  | some s =>
    rw [h2] at h1
    cases h3 : forward p order 0 (p.maxFrames + 1) s0 (List.replicate p.seqs p.searchBeam) with
    | none => rw [h3] at h1; simp at h1
    | some x =>
      rw [h3] at h1
      have h4 : s.fs = x.1 := by simpa using h1
      rw [Option.bind_some, Option.bind_some, psteps_backward, h4]
      intro r hr
      have := (ranges_ok p.maxFrames 0 (by omega)).1.le r hr
      have := hlen _ _ _ h2
      simp only [List.length_nil] at this
      omega

/-- The threads: whatever the steps they have taken, if the function does not fail when they run one after
the other, they have finished with the same result, or one of them can take a step; and the work that is
left decreases with every step. -/
theorem threads_result (p : Args K) (order : Nat → Nat → List Nat) (s0 : List (List (St S)))
    (res : FsaVec S × List Int × List Nat) (h0 : initialFrame p = some s0)
    (h : intersectDensePruned p order = some res) (x : Th K)
    (hx : Reach p order p.maxFrames (pruneRanges p.maxFrames 0) (thInit p s0) x) :
    (x.finished p.maxFrames → formatOutput p x.s.fs = some res) ∧
    (¬ x.finished p.maxFrames → ∃ y, Step p order p.maxFrames (pruneRanges p.maxFrames 0) x y) ∧
    ∀ y, Step p order p.maxFrames (pruneRanges p.maxFrames 0) x y → work p.maxFrames y < work p.maxFrames x := by
  unfold intersectDensePruned at h
  split at h
  on_goal 2 => simp at h
  rename_i hok
  rw [h0] at h
  have hr := (ranges_ok p.maxFrames 0 (by omega)).1
  set V := (fsteps p order (p.maxFrames + 1) ⟨[], s0, List.replicate p.seqs p.searchBeam⟩).bind
    (psteps p (pruneRanges p.maxFrames 0)) with hV
  have hseq := sequential p order hok.2 s0
  rw [← hV] at hseq
  have hres : (V.map Pend.fs).bind (formatOutput p) = some res := by
    rw [hseq, Option.bind_assoc]
    exact h
  have hI : Inv p order p.maxFrames (pruneRanges p.maxFrames 0) V x := by
    induction hx with
    | refl =>
      have hc : cnt (pruneRanges p.maxFrames 0) 0 = 0 := by
        unfold cnt
        rw [List.filter_eq_nil_iff.mpr]; · rfl
        intro r hr'
        have := (hr.le r hr').2.1
        simp; omega
      refine ⟨?_, by simp [thInit], by simp [thInit], by simp [thInit], by simp [thInit], by simp [thInit], ?_, ?_, by
        simp [thInit], by simp [thInit]⟩
      · rw [hV]; rfl
      · simp [thInit, hc]
      · simp [thInit, hc]
    | step y z _ hstep ih => exact ih.step hr hstep
  refine ⟨?_, ?_, fun y hy => hI.decreases hr hy⟩
  · rintro ⟨-, h2, -, h4⟩
    have := hI.value
    rw [h2, h4, Nat.sub_self, fsteps, Option.bind_some, psteps] at this
    rw [← this] at hres
    exact hres
  · apply hI.progress hr
    intro hn
    rw [hn] at hres
    simp at hres

end

end Verif.Fsa.Dp
