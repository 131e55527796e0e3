import Verif.Fsa.Pruned.Layers

/-!
# The output of one sequence
-/

set_option linter.unusedSectionVars false

namespace Verif.Fsa.Dp
open Verif.Ragged Verif.Util Verif.Fsa.Dn

theorem map_flat2 {α β γ : Type} (l : List α) (g : α → List (List β)) (F : β → γ) :
    (l.map g).flatten.flatten.map F = (l.map (fun i => (g i).flatten.map F)).flatten := by
  induction l with
  | nil => rfl
  | cons x l ih => simp only [List.map_cons, List.flatten_cons, List.flatten_append, List.map_append, ih]

section
variable {K : Type} [Field K] [LinearOrder K] [IsStrictOrderedRing K]

local notation "S" => WithBot K

/-- What holds for the states and arcs that are left at the end. -/
structure Good (p : Args K) (c : Seq K) (s : (Nat → List Nat) × (Nat → Arc S × Nat → Bool)) : Prop where
  nodup : ∀ t, (s.1 t).Nodup
  active : Active p c s.1
  start : s.1 0 = if 0 < c.f.length then [0] else []
  linked : ∀ t < c.fr.length, Linked p c s t
  real : ∀ t < c.fr.length, ∀ x, s.2 t x = true → c.sc (partFlag p c) t x.1 ≠ ⊥

/-- The states of layer `t`; the final state is added if it was not reached. -/
def lay (c : Seq K) (L : Nat → List Nat) (t : Nat) : List Nat :=
  if t = c.fr.length ∧ L t = [] ∧ 0 < c.f.length then [c.f.length - 1] else L t

/-- The arc becomes a final arc although it is none. -/
def faked (c : Seq K) (t : Nat) (a : Arc S) : Prop := t + 1 = c.fr.length ∧ a.label ≠ -1

instance (c : Seq K) (t : Nat) (a : Arc S) : Decidable (faked c t a) := by unfold faked; infer_instance

/-- The place of the score of arc `a` on frame `t`. -/
def scoreAt (p : Args K) (c : Seq K) (t : Nat) (a : Arc S) : Nat := (c.base + t) * p.b.cols + (a.label + 1).toNat

/-- The arc of the output for arc `x` from state `q` on frame `t`. -/
def entry (p : Args K) (c : Seq K) (M : Nat → List Nat) (t q : Nat) (x : Arc S × Nat) : Arc S × Int × Nat :=
  (⟨num M t q, num M (t + 1) (c.dst (partFlag p c) t x.1), if faked c t x.1 then -1 else x.1.label,
      c.sc (partFlag p c) t x.1⟩,
    if faked c t x.1 then -1 else ((c.aoff + x.2 : Nat) : Int), scoreAt p c t x.1)

/-- The arcs of the output that leave state `q` of layer `t`. -/
def entries (p : Args K) (c : Seq K) (s : (Nat → List Nat) × (Nat → Arc S × Nat → Bool)) (t q : Nat) :
    List (Arc S × Int × Nat) :=
  if t < c.fr.length then ((posArcs c.f q).filter (s.2 t)).map (entry p c (lay c s.1) t q) else []

/-- The output of one sequence. -/
def outRows (p : Args K) (c : Seq K) (s : (Nat → List Nat) × (Nat → Arc S × Nat → Bool)) :
    List (List (Arc S × Int × Nat)) := layRows (lay c s.1) c.fr.length (entries p c s)

theorem lay_lt (c : Seq K) (L : Nat → List Nat) (t : Nat) (h : t ≠ c.fr.length) : lay c L t = L t := by
  rw [lay, if_neg (by tauto)]

theorem lay_sub (c : Seq K) (L : Nat → List Nat) (t q : Nat) (h : q ∈ L t) : q ∈ lay c L t := by
  unfold lay
  split
  · rename_i h'; rw [h'.2.1] at h; simp at h
  · exact h

theorem num_lay (c : Seq K) (L : Nat → List Nat) (t q : Nat) (ht : t ≤ c.fr.length) (h : q ∈ L t) :
    num (lay c L) t q = num L t q := by
  unfold num
  rw [off_congr (lay c L) L t (fun s hs => lay_lt c L s (by omega))]
  congr 2
  unfold lay
  split
  · rename_i h'; rw [h'.2.1] at h; simp at h
  · rfl

variable {p : Args K} {c : Nat → Seq K} (hp : Setup p c)
include hp

/-- The formatting of an arc. -/
theorem Setup.formatArc_eq (i : Nat) (hi : i < p.seqs) (s : (Nat → List Nat) × (Nat → Arc S × Nat → Bool))
    (hs : Good p (c i) s) (t q : Nat) (hq : q ∈ s.1 t) (x : Arc S × Nat)
    (hx : x ∈ (posArcs (c i).f q).filter (s.2 t)) :
    t < (c i).fr.length ∧
    formatArc p t i (c i).fr.length (num s.1 t q) (off s.1 (t + 1))
      (aiOf (c i) (partFlag p (c i)) t (alpha p (c i) t) (s.1 (t + 1)) q x) =
    some (entry p (c i) (lay (c i) s.1) t q x) := by
  have hc := hp.ok i hi
  obtain ⟨hx1, hx2⟩ := List.mem_filter.mp hx
  obtain ⟨ha, hsrc⟩ := (mem_posArcs _ hc.rows q x).mp hx1
  have ht : t < (c i).fr.length := by
    apply hc.alpha_arc p t x.1 (List.mem_of_getElem? ha)
    rw [hsrc]; exact hs.active t q hq
  refine ⟨ht, ?_⟩
  have hd := hs.linked t ht x hx2
  have hr := hs.real t ht x hx2
  have e1 : dstIn (s.1 (t + 1)) ((c i).dst (partFlag p (c i)) t x.1) =
      ((s.1 (t + 1)).idxOf ((c i).dst (partFlag p (c i)) t x.1) : Int) := by rw [dstIn, if_pos hd]
  have e2 : num (lay (c i) s.1) (t + 1) ((c i).dst (partFlag p (c i)) t x.1) =
      off s.1 (t + 1) + (s.1 (t + 1)).idxOf ((c i).dst (partFlag p (c i)) t x.1) := by
    rw [num_lay (c i) s.1 (t + 1) _ ht hd]; rfl
  have e3 := num_lay (c i) s.1 t q (by omega) hq
  unfold formatArc
  simp only [aiOf, hp.arc i hi x.2 x.1 ha, hp.base i hi, Option.bind_eq_bind, Option.bind_some, e1]
  rw [if_neg (by omega), Int.toNat_natCast]
  by_cases hf : faked (c i) t x.1
  · have hpf : partFlag p (c i) = true := by
      by_contra hpf
      apply hr
      rw [Seq.sc, if_neg (by tauto)]
      have := hc.last x.1 (List.mem_of_getElem? ha) hf.2
      rw [show (c i).fr.length - 1 = t by have := hf.1; omega] at this
      rw [this, WithBot.bot_add]
    have hap : p.allowPartial = true := by
      unfold partFlag at hpf
      rw [Bool.and_eq_true] at hpf
      exact hpf.1
    have hf' : t + 1 = (c i).fr.length ∧ x.1.label ≠ -1 := hf
    rw [if_pos hf', if_pos hap, entry, if_pos hf, if_pos hf, e2, e3]; rfl
  · have hf' : ¬ (t + 1 = (c i).fr.length ∧ x.1.label ≠ -1) := hf
    rw [if_neg hf', entry, if_neg hf, if_neg hf, e2, e3]; rfl

theorem Setup.formatFrames_eq (i : Nat) (hi : i < p.seqs)
    (s : (Nat → List Nat) × (Nat → Arc S × Nat → Bool)) (hs : Good p (c i) s) (e k t : Nat) :
    formatFrames p i (c i).fr.length t (off s.1 t)
      ((List.range' t k).map (fun t => arcRow (c i) (partFlag p (c i)) t (alpha p (c i) t) (s.1 t) (s.1 (t + 1))
        (s.2 t)) ++ [List.replicate e []]) =
    some (((List.range' t k).map (fun t => (s.1 t).map (entries p (c i) s t))).flatten ++ List.replicate e []) := by
  induction k generalizing t with
  | zero =>
    simp only [List.range'_zero, List.map_nil, List.nil_append, formatFrames, Option.bind_eq_bind,
      List.flatten_nil]
    have : (List.replicate e ([] : List (Ai S))).zipIdx.mapM (fun q => q.1.mapM (formatArc p t i (c i).fr.length
        (off s.1 t + q.2) (off s.1 t + (List.replicate e ([] : List (Ai S))).length))) =
        some ((List.replicate e ([] : List (Ai S))).zipIdx.map (fun _ => [])) := by
      apply mapM_id'
      intro q hq
      have : q.1 = [] := List.eq_of_mem_replicate (List.fst_mem_of_mem_zipIdx hq)
      rw [this]; rfl
    rw [this]
    simp
  | succ k ih =>
    rw [List.range'_succ, List.map_cons, List.cons_append, formatFrames]
    have h1 : (arcRow (c i) (partFlag p (c i)) t (alpha p (c i) t) (s.1 t) (s.1 (t + 1)) (s.2 t)).length =
        (s.1 t).length := by simp [arcRow]
    have h2 : (arcRow (c i) (partFlag p (c i)) t (alpha p (c i) t) (s.1 t) (s.1 (t + 1)) (s.2 t)).zipIdx =
        (s.1 t).map (fun q => (((posArcs (c i).f q).filter (s.2 t)).map
          (aiOf (c i) (partFlag p (c i)) t (alpha p (c i) t) (s.1 (t + 1)) q), (s.1 t).idxOf q)) := by
      rw [arcRow, List.zipIdx_map, zipIdx_nodup _ (hs.nodup t), List.map_map]
      rfl
    have h3 : (arcRow (c i) (partFlag p (c i)) t (alpha p (c i) t) (s.1 t) (s.1 (t + 1)) (s.2 t)).zipIdx.mapM
        (fun q => q.1.mapM (formatArc p t i (c i).fr.length (off s.1 t + q.2) (off s.1 (t + 1)))) =
        some ((s.1 t).map (entries p (c i) s t)) := by
      rw [h2]
      apply mapM_map'
      intro q hq
      simp only
      have : entries p (c i) s t q =
          ((posArcs (c i).f q).filter (s.2 t)).map (entry p (c i) (lay (c i) s.1) t q) := by
        unfold entries
        split
        · rfl
        · rename_i ht
          cases hl : (posArcs (c i).f q).filter (s.2 t) with
          | nil => rfl
          | cons x l =>
            exact absurd (hp.formatArc_eq i hi s hs t q hq x (by rw [hl]; exact List.mem_cons_self)).1 ht
      rw [this]
      apply mapM_map'
      intro x hx
      exact (hp.formatArc_eq i hi s hs t q hq x hx).2
    rw [h1, ← off_succ, h3, ih (t + 1)]
    simp

theorem Setup.formatSeq_eq (i : Nat) (hi : i < p.seqs)
    (s : Nat → (Nat → List Nat) × (Nat → Arc S × Nat → Bool)) (hs : Good p (c i) (s i))
    (bw : Nat → Nat → Nat → S) :
    formatSeq p ((List.range (p.maxFrames + 1)).map (frameOf p c (fun i => (s i).1) (fun i => (s i).2) bw)) i =
      some (outRows p (c i) (s i)) := by
  have hc := hp.ok i hi
  have hn := hp.maxT i hi
  unfold formatSeq
  have h1 : ((List.range (p.maxFrames + 1)).map (frameOf p c (fun i => (s i).1) (fun i => (s i).2) bw)).mapM
      (fun f => f.arcs[i]?) = some ((List.range (p.maxFrames + 1)).map (fun t =>
        arcRow (c i) (partFlag p (c i)) t (alpha p (c i) t) ((s i).1 t) ((s i).1 (t + 1)) ((s i).2 t))) := by
    apply mapM_map'
    intro t _
    simp only [frameOf]
    rw [map_range_get _ _ _ hi]
  simp only [hp.frames i hi, h1, Option.bind_eq_bind, Option.bind_some]
  rw [map_range_get _ _ _ (by omega), Option.bind_some]
  have hlen : (arcRow (c i) (partFlag p (c i)) (c i).fr.length (alpha p (c i) (c i).fr.length)
      ((s i).1 (c i).fr.length) ((s i).1 ((c i).fr.length + 1)) ((s i).2 (c i).fr.length)).length =
      ((s i).1 (c i).fr.length).length := by simp [arcRow]
  have hone : ∀ q ∈ (s i).1 (c i).fr.length, q = (c i).f.length - 1 := by
    intro q hq
    have := hc.alpha_last p q (hs.active _ q hq)
    omega
  have hafter : ∀ t, (c i).fr.length < t → (s i).1 t = [] := by
    intro t ht
    apply List.eq_nil_iff_forall_not_mem.mpr
    intro q hq
    exact hs.active t q hq (hc.alpha_after p t q ht)
  rw [hlen]
  have hle : ((s i).1 (c i).fr.length).length ≤ 1 := by
    cases h : (s i).1 (c i).fr.length with
    | nil => simp
    | cons q l =>
      rw [nodup_single _ _ (hs.nodup _) (by rw [h]; exact List.mem_cons_self) (fun y hy => by
        rw [hone y hy, hone q (by rw [h]; exact List.mem_cons_self)])] at h
      rw [← h]; simp
  rw [if_pos hle]
  simp only [hp.lo i hi, hp.hi i hi, Option.bind_some]
  have h2 := hp.formatFrames_eq i hi (s i) hs
    (if (c i).soff < (c i).soff + (c i).f.length then 1 - ((s i).1 (c i).fr.length).length else 0)
    (p.maxFrames + 1) 0
  rw [← List.range_eq_range', show off (s i).1 0 = 0 from rfl] at h2
  rw [h2, Option.some.injEq, outRows, layRows]
  have h3 : List.range (p.maxFrames + 1) =
      List.range (c i).fr.length ++ (c i).fr.length :: List.range' ((c i).fr.length + 1) (p.maxFrames - (c i).fr.length) := by
    rw [List.range_eq_range', List.range_eq_range', ← List.range'_succ]
    have := List.range'_append_1 (s := 0) (m := (c i).fr.length) (n := p.maxFrames - (c i).fr.length + 1)
    rw [show (c i).fr.length + (p.maxFrames - (c i).fr.length + 1) = p.maxFrames + 1 by omega, Nat.zero_add] at this
    exact this.symm
  have h4 : ((List.range' ((c i).fr.length + 1) (p.maxFrames - (c i).fr.length)).map
      (fun t => ((s i).1 t).map (entries p (c i) (s i) t))).flatten = [] := by
    rw [List.flatten_eq_nil_iff]
    intro l hl
    obtain ⟨t, ht, rfl⟩ := List.mem_map.mp hl
    have := List.mem_range'_1.mp ht
    rw [hafter t (by omega)]; rfl
  have h5 : (List.range (c i).fr.length).map (fun t => ((s i).1 t).map (entries p (c i) (s i) t)) =
      (List.range (c i).fr.length).map (fun t => (lay (c i) (s i).1 t).map (entries p (c i) (s i) t)) := by
    apply List.map_congr_left
    intro t ht
    rw [lay_lt _ _ _ (by have := List.mem_range.mp ht; omega)]
  rw [h3, List.map_append, List.map_cons, List.flatten_append, List.flatten_cons, h4, List.append_nil,
    List.range_succ, List.map_append, List.flatten_append, h5, List.append_assoc]
  congr 1
  simp only [List.map_cons, List.map_nil, List.flatten_cons, List.flatten_nil, List.append_nil]
  unfold lay
  by_cases hf : 0 < (c i).f.length
  · rw [if_pos (by omega)]
    by_cases hl : (s i).1 (c i).fr.length = []
    · rw [if_pos ⟨rfl, hl, hf⟩, hl]
      simp [entries]
    · rw [if_neg (by tauto)]
      have : 1 - ((s i).1 (c i).fr.length).length = 0 := by
        have := List.length_pos_iff.mpr hl
        omega
      rw [this]; simp
  · rw [if_neg (by omega), if_neg (by tauto)]; simp

theorem Setup.formatOutput_eq (s : Nat → (Nat → List Nat) × (Nat → Arc S × Nat → Bool))
    (hs : ∀ i < p.seqs, Good p (c i) (s i)) (bw : Nat → Nat → Nat → S) :
    formatOutput p ((List.range (p.maxFrames + 1)).map (frameOf p c (fun i => (s i).1) (fun i => (s i).2) bw)) =
      some (flat ((List.range p.seqs).map (fun i => (outRows p (c i) (s i)).map (fun row => row.map Prod.fst))),
        ((List.range p.seqs).map (fun i => (outRows p (c i) (s i)).flatten.map (fun x => x.2.1))).flatten,
        ((List.range p.seqs).map (fun i => (outRows p (c i) (s i)).flatten.map (fun x => x.2.2))).flatten) := by
  unfold formatOutput
  rw [mapM_id' _ _ (fun i => outRows p (c i) (s i))
    (fun i hi => hp.formatSeq_eq i (List.mem_range.mp hi) s (hs i (List.mem_range.mp hi)) bw)]
  simp only [Option.bind_eq_bind, Option.bind_some, List.map_map, Option.some.injEq, Prod.mk.injEq]
  exact ⟨rfl, map_flat2 _ _ _, map_flat2 _ _ _⟩

end

end Verif.Fsa.Dp
