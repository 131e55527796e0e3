import Verif.Fsa.Pruned.Forward
import Mathlib.Algebra.Order.Ring.Basic

/-!
# One round of pruning
-/

set_option linter.unusedSectionVars false

namespace Verif.Fsa.Dp
open Verif.Ragged Verif.Util Verif.Fsa.Dn

/-! ## Lists -/

theorem keepBy_map {α β : Type} (l : List α) (g : α → Bool) (h : α → β) :
    keepBy (l.map g) (l.map h) = (l.filter g).map h := by
  induction l with
  | nil => rfl
  | cons x l ih =>
    simp only [keepBy, List.map_cons, List.zip_cons_cons, List.filter_cons] at ih ⊢
    split
    · simp only [List.map_cons]; rw [← ih]
    · exact ih

theorem idxOf_filter (L : List Nat) (k : Nat → Bool) (d : Nat) (h : d ∈ L) (hk : k d = true) :
    (((L.map k).take (L.idxOf d)).filter id).length = (L.filter k).idxOf d := by
  induction L with
  | nil => simp at h
  | cons x L ih =>
    by_cases hx : x = d
    · subst hx
      simp [hk]
    · have hd : d ∈ L := by
        rcases List.mem_cons.mp h with h' | h'
        · exact absurd h'.symm hx
        · exact h'
      rw [List.idxOf_cons_ne _ hx, List.map_cons, List.take_succ_cons, List.filter_cons, List.filter_cons]
      cases hkx : k x
      · simp only [id, Bool.false_eq_true, if_false]; exact ih hd
      · simp only [id, if_true, List.length_cons, List.idxOf_cons_ne _ hx]; rw [← ih hd]

section
variable {K : Type} [Field K] [LinearOrder K]

local notation "S" => WithBot K

/-! ## One sequence -/

/-- An arc from `q` is kept: its destination is still there (`L'`), and a path through it is within the
output beam; `nb` are the backward scores of the next frame. -/
def keepArc (p : Args K) (c : Seq K) (t : Nat) (L' : List Nat) (nb : Nat → S) (q : Nat) (x : Arc S × Nat) :
    Bool :=
  decide (c.dst (partFlag p c) t x.1 ∈ L') &&
    decide (((-p.outputBeam : K) : S) ≤
      c.sc (partFlag p c) t x.1 + nb (c.dst (partFlag p c) t x.1) + alpha p c t q)

/-- The backward score of a state. -/
def stepBack (p : Args K) (c : Seq K) (t : Nat) (L' : List Nat) (R : Arc S × Nat → Bool) (nb : Nat → S)
    (q : Nat) : S :=
  if c.f.length ≤ q + 1 then neg (alpha p c t q)
  else mx (((posArcs c.f q).filter R).map (fun x =>
    if keepArc p c t L' nb q x then c.sc (partFlag p c) t x.1 + nb (c.dst (partFlag p c) t x.1) else ⊥))

/-- The backward scores of frame `hi - k` when the frames before `hi` are pruned. -/
def back (p : Args K) (c : Seq K) (L : Nat → List Nat) (R : Nat → Arc S × Nat → Bool) (hi : Nat) :
    Nat → Nat → S
  | 0 => fun q => neg (alpha p c hi q)
  | k + 1 => stepBack p c (hi - (k + 1)) (L (hi - k)) (R (hi - (k + 1))) (back p c L R hi k)

/-- The arcs `R` of frame `t` belong to states of the graph. -/
def newR (p : Args K) (c : Seq K) (L : Nat → List Nat) (R : Nat → Arc S × Nat → Bool) (lo hi t : Nat)
    (x : Arc S × Nat) : Bool :=
  if lo ≤ t ∧ t < hi then
    R t x && keepArc p c t (L (t + 1)) (back p c L R hi (hi - (t + 1))) x.1.src x
  else R t x

/-- A state is kept. -/
def keepSt (p : Args K) (c : Seq K) (L : Nat → List Nat) (R : Nat → Arc S × Nat → Bool) (lo hi t q : Nat) :
    Bool :=
  !(decide (lo < t) && decide (t < hi)) || decide (back p c L R hi (hi - t) q ≠ ⊥)

/-- The states after a round. -/
def newL (p : Args K) (c : Seq K) (L : Nat → List Nat) (R : Nat → Arc S × Nat → Bool) (lo hi t : Nat) :
    List Nat := (L t).filter (keepSt p c L R lo hi t)

theorem newL_out (p : Args K) (c : Seq K) (L : Nat → List Nat) (R : Nat → Arc S × Nat → Bool)
    (lo hi t : Nat) (h : ¬ (lo < t ∧ t < hi)) : newL p c L R lo hi t = L t := by
  rw [newL, List.filter_eq_self]
  intro q _
  unfold keepSt
  by_cases h1 : lo < t
  · by_cases h2 : t < hi
    · exact absurd ⟨h1, h2⟩ h
    · simp [h2]
  · simp [h1]

theorem neg_add (x : S) (h : x ≠ ⊥) : neg x + x = 0 := by
  obtain ⟨k, rfl⟩ := WithBot.ne_bot_iff_exists.mp h
  change ((-k : K) : S) + (k : S) = 0
  rw [← WithBot.coe_add, neg_add_cancel]; rfl

theorem neg_ne_bot (x : S) : neg x ≠ ⊥ ↔ x ≠ ⊥ := by
  cases x with
  | bot => simp [neg]
  | coe k => simp [neg]

end

section
variable {K : Type} [Field K] [LinearOrder K] [IsStrictOrderedRing K]

local notation "S" => WithBot K

theorem stepBack_le (p : Args K) (c : Seq K) (hc : SeqOk c) (t : Nat) (L' : List Nat)
    (R : Arc S × Nat → Bool) (nb : Nat → S) (hL' : ∀ q ∈ L', alpha p c (t + 1) q ≠ ⊥)
    (hnb : ∀ q ∈ L', nb q + alpha p c (t + 1) q ≤ 0) (q : Nat) :
    stepBack p c t L' R nb q + alpha p c t q ≤ 0 := by
  by_cases hA : alpha p c t q = ⊥
  · rw [hA, WithBot.add_bot]; exact bot_le
  · unfold stepBack
    split
    · rw [neg_add _ hA]
    · rcases mx_mem (((posArcs c.f q).filter R).map (fun x =>
        if keepArc p c t L' nb q x then c.sc (partFlag p c) t x.1 + nb (c.dst (partFlag p c) t x.1)
          else ⊥)) with h | h
      · rw [h, WithBot.bot_add]; exact bot_le
      · obtain ⟨x, hx, he⟩ := List.mem_map.mp h
        rw [← he]
        split
        · rename_i hk
          obtain ⟨h1, h2⟩ := (mem_posArcs _ hc.rows q x).mp (List.mem_filter.mp hx).1
          have hd : c.dst (partFlag p c) t x.1 ∈ L' := by
            simp only [keepArc, Bool.and_eq_true, decide_eq_true_eq] at hk; exact hk.1
          have h3 := alpha_ge p c t x.1 (List.mem_of_getElem? h1) (hL' _ hd)
          rw [h2] at h3
          calc c.sc (partFlag p c) t x.1 + nb (c.dst (partFlag p c) t x.1) + alpha p c t q
              = nb (c.dst (partFlag p c) t x.1) + (alpha p c t q + c.sc (partFlag p c) t x.1) := by
                rw [add_comm (c.sc _ _ _), add_assoc, add_comm (c.sc _ _ _)]
            _ ≤ nb (c.dst (partFlag p c) t x.1) + alpha p c (t + 1) (c.dst (partFlag p c) t x.1) := by
                gcongr
            _ ≤ 0 := hnb _ hd
        · rw [WithBot.bot_add]; exact bot_le

/-- A path through a state is not better than the best. -/
theorem back_le (p : Args K) (c : Seq K) (hc : SeqOk c) (L : Nat → List Nat)
    (R : Nat → Arc S × Nat → Bool) (hL : ∀ t, ∀ q ∈ L t, alpha p c t q ≠ ⊥) (hi k q : Nat) (hk : k ≤ hi) :
    back p c L R hi k q + alpha p c (hi - k) q ≤ 0 := by
  induction k generalizing q with
  | zero =>
    change neg (alpha p c hi q) + alpha p c hi q ≤ 0
    by_cases hA : alpha p c hi q = ⊥
    · rw [hA, WithBot.add_bot]; exact bot_le
    · rw [neg_add _ hA]
  | succ k ih =>
    have e : hi - (k + 1) + 1 = hi - k := by omega
    apply stepBack_le p c hc
    · rw [e]; exact hL _
    · intro q _
      rw [e]; exact ih q (by omega)

/-! ## The batch -/

/-- The tensors of a frame. -/
def frameOf (p : Args K) (c : Nat → Seq K) (L : Nat → Nat → List Nat) (R : Nat → Nat → Arc S × Nat → Bool)
    (bw : Nat → Nat → Nat → S) (t : Nat) : Frame S :=
  ⟨(List.range p.seqs).map (fun i => stRow (c i) (alpha p (c i) t) (bw i t) (L i t)),
    (List.range p.seqs).map (fun i =>
      arcRow (c i) (partFlag p (c i)) t (alpha p (c i) t) (L i t) (L i (t + 1)) (R i t))⟩

/-- The states that are left are active. -/
def Active (p : Args K) (c : Seq K) (L : Nat → List Nat) : Prop :=
  ∀ t, ∀ q ∈ L t, alpha p c t q ≠ ⊥

variable {p : Args K} {c : Nat → Seq K} (hp : Setup p c)
include hp

theorem Setup.arcBack_eq (i : Nat) (hi : i < p.seqs) (t q : Nat) (L' : List Nat) (nb bw : Nat → S)
    (hL' : ∀ q ∈ L', alpha p (c i) (t + 1) q ≠ ⊥)
    (hnb : ∀ q ∈ L', nb q + alpha p (c i) (t + 1) q ≤ 0) (x : Arc S × Nat)
    (hx : x ∈ posArcs (c i).f q) :
    arcBack p (stRow (c i) (alpha p (c i) (t + 1)) nb L') ⟨(c i).soff + q, alpha p (c i) t q, bw q⟩
      (aiOf (c i) (partFlag p (c i)) t (alpha p (c i) t) L' q x) =
      some (if keepArc p (c i) t L' nb q x then
        (c i).sc (partFlag p (c i)) t x.1 + nb ((c i).dst (partFlag p (c i)) t x.1) else ⊥,
        keepArc p (c i) t L' nb q x) := by
  unfold arcBack keepArc
  by_cases hd : (c i).dst (partFlag p (c i)) t x.1 ∈ L'
  · simp only [aiOf, dstIn, hd, if_true, decide_true, Bool.true_and, decide_eq_true_eq]
    rw [if_neg (by omega), if_neg (by omega), Int.toNat_natCast]
    rw [stRow, List.getElem?_map, List.getElem?_idxOf hd]
    simp only [Option.map_some, Option.bind_eq_bind, Option.bind_some]
    rw [if_pos]
    · split
      · rename_i h; simp [h]
      · rename_i h; simp [h]
    · obtain ⟨h1, h2⟩ := (mem_posArcs _ (hp.ok i hi).rows q x).mp hx
      have h3 := alpha_ge p (c i) t x.1 (List.mem_of_getElem? h1) (hL' _ hd)
      rw [h2] at h3
      calc (c i).sc (partFlag p (c i)) t x.1 + nb ((c i).dst (partFlag p (c i)) t x.1) + alpha p (c i) t q
          = nb ((c i).dst (partFlag p (c i)) t x.1) +
              (alpha p (c i) t q + (c i).sc (partFlag p (c i)) t x.1) := by
            rw [add_comm ((c i).sc _ _ _), add_assoc, add_comm ((c i).sc _ _ _)]
        _ ≤ nb ((c i).dst (partFlag p (c i)) t x.1) +
              alpha p (c i) (t + 1) ((c i).dst (partFlag p (c i)) t x.1) := by gcongr
        _ ≤ 0 := hnb _ hd
        _ ≤ ((2 : K) : S) := by
            rw [← WithBot.coe_zero, WithBot.coe_le_coe]; exact zero_le_two
  · simp [aiOf, dstIn, hd]

theorem Setup.stateBack_eq (i : Nat) (hi : i < p.seqs) (t q : Nat) (hq : q < (c i).f.length)
    (L' : List Nat) (nb bw : Nat → S) (R : Arc S × Nat → Bool)
    (hL' : ∀ q ∈ L', alpha p (c i) (t + 1) q ≠ ⊥)
    (hnb : ∀ q ∈ L', nb q + alpha p (c i) (t + 1) q ≤ 0) :
    stateBack p (stRow (c i) (alpha p (c i) (t + 1)) nb L') ⟨(c i).soff + q, alpha p (c i) t q, bw q⟩
      (((posArcs (c i).f q).filter R).map (aiOf (c i) (partFlag p (c i)) t (alpha p (c i) t) L' q)) =
      some (⟨(c i).soff + q, alpha p (c i) t q, stepBack p (c i) t L' R nb q⟩,
        decide (stepBack p (c i) t L' R nb q ≠ ⊥),
        ((posArcs (c i).f q).filter R).map (keepArc p (c i) t L' nb q)) := by
  unfold stateBack
  rw [mapM_map' ((posArcs (c i).f q).filter R) _ _ (fun x =>
    (if keepArc p (c i) t L' nb q x then
        (c i).sc (partFlag p (c i)) t x.1 + nb ((c i).dst (partFlag p (c i)) t x.1) else ⊥,
        keepArc p (c i) t L' nb q x))
    (fun x hx => hp.arcBack_eq i hi t q L' nb bw hL' hnb x (List.mem_filter.mp hx).1)]
  simp only [Option.bind_eq_bind, Option.bind_some, hp.id1 i hi q hq, hp.hi i hi, List.map_map]
  have e : (if (c i).soff + (c i).f.length ≤ (c i).soff + q + 1 then neg (alpha p (c i) t q)
      else (((posArcs (c i).f q).filter R).map (Prod.fst ∘ fun x =>
        (if keepArc p (c i) t L' nb q x then
          (c i).sc (partFlag p (c i)) t x.1 + nb ((c i).dst (partFlag p (c i)) t x.1) else ⊥,
          keepArc p (c i) t L' nb q x))).foldl Max.max ⊥) = stepBack p (c i) t L' R nb q := by
    unfold stepBack
    by_cases h : (c i).f.length ≤ q + 1
    · rw [if_pos h, if_pos (by omega)]
    · rw [if_neg h, if_neg (by omega)]; rfl
  rw [e]
  rfl

variable (L : Nat → Nat → List Nat) (R : Nat → Nat → Arc (WithBot K) × Nat → Bool)
  (hL : ∀ i < p.seqs, Active p (c i) (L i))
include hL

/-- The marks that `PropagateBackward` makes. -/
def marks (p : Args K) (c : Nat → Seq K) (L : Nat → Nat → List Nat) (R : Nat → Nat → Arc S × Nat → Bool)
    (hi t i : Nat) : List (St S × Bool × List Bool) :=
  (L i t).map (fun q => (⟨(c i).soff + q, alpha p (c i) t q, back p (c i) (L i) (R i) hi (hi - t) q⟩,
    decide (back p (c i) (L i) (R i) hi (hi - t) q ≠ ⊥),
    ((posArcs (c i).f q).filter (R i t)).map
      (keepArc p (c i) t (L i (t + 1)) (back p (c i) (L i) (R i) hi (hi - (t + 1))) q)))

theorem Setup.propagateBackward_eq (bw : Nat → Nat → Nat → S) (hi t : Nat) (ht : t < hi) :
    propagateBackward p (frameOf p c L R bw t)
      ((List.range p.seqs).map (fun i => stRow (c i) (alpha p (c i) (t + 1))
        (back p (c i) (L i) (R i) hi (hi - (t + 1))) (L i (t + 1)))) =
      some ((List.range p.seqs).map (marks p c L R hi t)) := by
  unfold propagateBackward frameOf
  rw [List.zip_map', zipIdx_map_range]
  apply mapM_map'
  intro i hi'
  rw [List.mem_range] at hi'
  simp only [map_range_get _ _ i hi', Option.bind_eq_bind, Option.bind_some]
  rw [show stRow (c i) (alpha p (c i) t) (bw i t) (L i t) = (L i t).map (fun q =>
    ⟨(c i).soff + q, alpha p (c i) t q, bw i t q⟩) from rfl, arcRow, List.zip_map']
  apply mapM_map'
  intro q hq
  have hA := hL i hi' t q hq
  have hq' := (hp.ok i hi').alpha_lt p t q hA
  rw [hp.stateBack_eq i hi' t q hq' _ _ _ _ (hL i hi' (t + 1))]
  · obtain ⟨k, hk⟩ : ∃ k, hi - t = k + 1 := ⟨hi - t - 1, by omega⟩
    have e1 : hi - (t + 1) = k := by omega
    have e2 : hi - (k + 1) = t := by omega
    have e3 : hi - k = t + 1 := by omega
    rw [hk, e1]
    simp only [back, e2, e3]
  · intro q' _
    have := back_le p (c i) (hp.ok i hi') (L i) (R i) (hL i hi') hi (hi - (t + 1)) q' (by omega)
    rwa [show hi - (hi - (t + 1)) = t + 1 by omega] at this

omit hL hp in
theorem arcs_rebuilt (i t : Nat) (L0 L' : List Nat) (k0 k' : Nat → Bool) (ka : Arc S × Nat → Bool)
    (hka : ∀ x, ka x = true → (c i).dst (partFlag p (c i)) t x.1 ∈ L' ∧
      k' ((c i).dst (partFlag p (c i)) t x.1) = true)
    (R0 : Arc S × Nat → Bool) (kf : Nat → Arc S × Nat → Bool)
    (hkf : ∀ q, ∀ x ∈ posArcs (c i).f q, kf q x = ka x) :
    keepBy (L0.map k0) (L0.map (fun q =>
      (keepBy (((posArcs (c i).f q).filter R0).map (kf q))
        (((posArcs (c i).f q).filter R0).map (aiOf (c i) (partFlag p (c i)) t (alpha p (c i) t) L' q))).map
          (renumberDst (L'.map k')))) =
    arcRow (c i) (partFlag p (c i)) t (alpha p (c i) t) (L0.filter k0) (L'.filter k')
      (fun x => R0 x && ka x) := by
  rw [keepBy_map, arcRow]
  apply List.map_congr_left
  intro q hq
  rw [keepBy_map, List.map_map]
  have e : ((posArcs (c i).f q).filter R0).filter (kf q) = (posArcs (c i).f q).filter (fun x => R0 x && ka x) := by
    rw [List.filter_filter]
    apply List.filter_congr
    intro x hx
    rw [hkf q x hx, Bool.and_comm]
  rw [e]
  apply List.map_congr_left
  intro x hx
  have hx' := (List.mem_filter.mp hx).2
  rw [Bool.and_eq_true] at hx'
  obtain ⟨h1, h2⟩ := hka x hx'.2
  have h3 : (c i).dst (partFlag p (c i)) t x.1 ∈ L'.filter k' := List.mem_filter.mpr ⟨h1, h2⟩
  simp only [Function.comp, renumberDst, aiOf, dstIn, h1, if_true, h3, Int.toNat_natCast,
    idxOf_filter L' k' _ h1 h2]

/-- A kept arc leads to a kept state. -/
theorem Setup.keepArc_dst (i : Nat) (hi : Nat) (lo t : Nat) (q : Nat) (x : Arc S × Nat)
    (h : keepArc p (c i) t (L i (t + 1)) (back p (c i) (L i) (R i) hi (hi - (t + 1))) q x = true) :
    (c i).dst (partFlag p (c i)) t x.1 ∈ L i (t + 1) ∧
      keepSt p (c i) (L i) (R i) lo hi (t + 1) ((c i).dst (partFlag p (c i)) t x.1) = true := by
  simp only [keepArc, Bool.and_eq_true, decide_eq_true_eq] at h
  refine ⟨h.1, ?_⟩
  unfold keepSt
  rw [Bool.or_eq_true]
  right
  rw [decide_eq_true_eq]
  intro hb
  rw [hb, WithBot.add_bot, WithBot.bot_add] at h
  exact absurd h.2 (by simp)

/-- The loop of `PruneTimeRange` over the last `k` frames before `hi`. -/
theorem Setup.pruneLoop_eq (bw : Nat → Nat → Nat → S) (lo hi k : Nat) (hk : lo + k < hi) :
    pruneLoop p (frameOf p c L R bw hi).states ((List.range' (hi - k) k).map (frameOf p c L R bw)) =
      some ((List.range' (hi - k) k).map (frameOf p c
          (fun i => newL p (c i) (L i) (R i) lo hi) (fun i => newR p (c i) (L i) (R i) lo hi)
          (fun i t => back p (c i) (L i) (R i) hi (hi - t))),
        (List.range p.seqs).map (fun i =>
          stRow (c i) (alpha p (c i) (hi - k)) (back p (c i) (L i) (R i) hi k) (L i (hi - k))),
        (List.range p.seqs).map (fun i =>
          (L i (hi - k)).map (keepSt p (c i) (L i) (R i) lo hi (hi - k)))) := by
  induction k with
  | zero =>
    simp only [pruneLoop, frameOf, setFinal, List.range'_zero, List.map_nil, List.map_map, Nat.sub_zero,
      Option.some.injEq, Prod.mk.injEq, true_and]
    refine ⟨?_, ?_⟩
    · apply List.map_congr_left
      intro i _
      simp only [Function.comp, stRow, List.map_map]
      rfl
    · apply List.map_congr_left
      intro i _
      simp only [Function.comp, stRow, List.map_map]
      apply List.map_congr_left
      intro q _
      simp [keepSt]
  | succ k ih =>
    have e1 : hi - (k + 1) + 1 = hi - k := by omega
    rw [List.range'_succ, e1, List.map_cons, List.map_cons, pruneLoop, ih (by omega)]
    simp only [Option.bind_eq_bind, Option.bind_some]
    have hpb := hp.propagateBackward_eq L R hL bw hi (hi - (k + 1)) (by omega)
    rw [e1, show hi - (hi - k) = k by omega] at hpb
    rw [hpb, Option.bind_some]
    have hks : ∀ i q, keepSt p (c i) (L i) (R i) lo hi (hi - (k + 1)) q =
        decide (back p (c i) (L i) (R i) hi (k + 1) q ≠ ⊥) := by
      intro i q
      unfold keepSt
      rw [show hi - (hi - (k + 1)) = k + 1 by omega, decide_eq_true (show lo < hi - (k + 1) by omega),
        decide_eq_true (show hi - (k + 1) < hi by omega)]
      rfl
    have e2 : hi - (hi - (k + 1)) = k + 1 := by omega
    simp only [Option.some.injEq, Prod.mk.injEq, List.cons.injEq, and_true]
    refine ⟨?_, ?_, ?_⟩
    · unfold rebuild frameOf
      simp only [List.map_map, List.zip_map', Frame.mk.injEq]
      refine ⟨?_, ?_⟩
      · apply List.map_congr_left
        intro i _
        simp only [Function.comp, marks, newL, List.filter_map, List.map_map, stRow, e2]
        congr 1
        apply List.filter_congr
        intro q _
        simp only [Function.comp, hks]
      · apply List.map_congr_left
        intro i hi'
        rw [List.mem_range] at hi'
        simp only [Function.comp, marks, e2, e1]
        rw [arcRow, List.zip_map']
        simp only [List.map_map, Function.comp]
        have := arcs_rebuilt (p := p) (c := c) i (hi - (k + 1)) (L i (hi - (k + 1))) (L i (hi - k))
          (keepSt p (c i) (L i) (R i) lo hi (hi - (k + 1))) (keepSt p (c i) (L i) (R i) lo hi (hi - k))
          (fun x => keepArc p (c i) (hi - (k + 1)) (L i (hi - k))
            (back p (c i) (L i) (R i) hi (hi - (hi - k))) x.1.src x)
          (fun x hx => by
            have := hp.keepArc_dst L R hL i hi lo (hi - (k + 1)) x.1.src x (by rw [e1]; exact hx)
            rw [e1] at this
            exact this)
          (R i (hi - (k + 1)))
          (fun q => keepArc p (c i) (hi - (k + 1)) (L i (hi - k)) (back p (c i) (L i) (R i) hi (hi - (hi - k))) q)
          (fun q x hx => by rw [((mem_posArcs _ (hp.ok i hi').rows q x).mp hx).2])
        have e3 : (fun q => decide (back p (c i) (L i) (R i) hi (k + 1) q ≠ ⊥)) =
            keepSt p (c i) (L i) (R i) lo hi (hi - (k + 1)) := by funext q; rw [hks]
        refine Eq.trans (by rw [← e3]; rfl) (this.trans ?_)
        have e4 : newR p (c i) (L i) (R i) lo hi (hi - (k + 1)) = fun x => R i (hi - (k + 1)) x &&
            keepArc p (c i) (hi - (k + 1)) (L i (hi - k))
            (back p (c i) (L i) (R i) hi (hi - (hi - k))) x.1.src x := by
          funext x
          rw [newR, if_pos ⟨by omega, by omega⟩, e1]
        rw [e4]
        rfl
    · rw [List.map_map]
      apply List.map_congr_left
      intro i _
      simp only [Function.comp, marks, List.map_map, stRow, e2]
      rfl
    · rw [List.map_map]
      apply List.map_congr_left
      intro i _
      simp only [Function.comp, marks, List.map_map]
      apply List.map_congr_left
      intro q _
      simp only [Function.comp, hks, e2]

/-- One round of pruning. -/
theorem Setup.pruneFrames_eq (bw : Nat → Nat → Nat → S) (lo hi : Nat) (h : lo < hi) :
    pruneFrames p ((List.range' lo (hi - lo)).map (frameOf p c L R bw)) (frameOf p c L R bw hi).states =
      some ((List.range' lo (hi - lo)).map (frameOf p c
          (fun i => newL p (c i) (L i) (R i) lo hi) (fun i => newR p (c i) (L i) (R i) lo hi)
          (fun i t => back p (c i) (L i) (R i) hi (hi - t))),
        (List.range p.seqs).map (fun i =>
          stRow (c i) (alpha p (c i) hi) (back p (c i) (L i) (R i) hi 0) (L i hi))) := by
  obtain ⟨k, hk⟩ : ∃ k, hi - lo = k + 1 := ⟨hi - lo - 1, by omega⟩
  have hlo : lo = hi - (k + 1) := by omega
  have e1 : lo + 1 = hi - k := by omega
  rw [hk, List.range'_succ, List.map_cons, List.map_cons, e1, pruneFrames,
    hp.pruneLoop_eq L R hL bw lo hi k (by omega)]
  simp only [Option.bind_eq_bind, Option.bind_some]
  have hpb := hp.propagateBackward_eq L R hL bw hi lo (by omega)
  rw [e1, show hi - (hi - k) = k by omega] at hpb
  rw [hpb, Option.bind_some]
  have e2 : hi - lo = k + 1 := hk
  have hks : ∀ i q, keepSt p (c i) (L i) (R i) lo hi lo q = true := by
    intro i q; simp [keepSt]
  simp only [Option.some.injEq, Prod.mk.injEq, List.cons.injEq, and_true]
  refine ⟨?_, ?_⟩
  · unfold rebuild keepAll frameOf
    simp only [List.map_map, List.zip_map', Frame.mk.injEq]
    refine ⟨?_, ?_⟩
    · apply List.map_congr_left
      intro i _
      simp only [Function.comp, marks, newL, List.filter_map, List.map_map, stRow, e2]
      congr 1
      apply List.filter_congr
      intro q _
      simp only [Function.comp, hks]
    · apply List.map_congr_left
      intro i hi'
      rw [List.mem_range] at hi'
      simp only [Function.comp, marks, e1, List.map_map]
      rw [arcRow, List.zip_map']
      simp only [List.map_map, Function.comp]
      have := arcs_rebuilt (p := p) (c := c) i lo (L i lo) (L i (hi - k))
        (keepSt p (c i) (L i) (R i) lo hi lo) (keepSt p (c i) (L i) (R i) lo hi (hi - k))
        (fun x => keepArc p (c i) lo (L i (hi - k))
          (back p (c i) (L i) (R i) hi (hi - (hi - k))) x.1.src x)
        (fun x hx => by
          have := hp.keepArc_dst L R hL i hi lo lo x.1.src x (by rw [e1]; exact hx)
          rw [e1] at this
          exact this)
        (R i lo)
        (fun q => keepArc p (c i) lo (L i (hi - k)) (back p (c i) (L i) (R i) hi (hi - (hi - k))) q)
        (fun q x hx => by rw [((mem_posArcs _ (hp.ok i hi').rows q x).mp hx).2])
      have e3 : (fun _ : Nat => true) = keepSt p (c i) (L i) (R i) lo hi lo := by funext q; rw [hks]
      refine Eq.trans (by rw [← e3]; rfl) (this.trans ?_)
      have e4 : newR p (c i) (L i) (R i) lo hi lo = fun x => R i lo x &&
          keepArc p (c i) lo (L i (hi - k))
          (back p (c i) (L i) (R i) hi (hi - (hi - k))) x.1.src x := by
        funext x
        rw [newR, if_pos ⟨by omega, by omega⟩, e1]
      rw [e4]
      rfl
  · simp only [frameOf, setFinal, List.map_map]
    apply List.map_congr_left
    intro i _
    simp only [Function.comp, stRow, List.map_map]
    rfl

end

end Verif.Fsa.Dp
