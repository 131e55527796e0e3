import Verif.Fsa.Pruned.Setup
import Verif.Fsa.Pruned.Number

/-!
# The forward pass computes the beam search
-/

set_option linter.unusedSectionVars false

namespace Verif.Fsa.Dp
open Verif.Ragged Verif.Util Verif.Fsa.Dn

section
variable {K : Type} [Field K] [LinearOrder K]

local notation "S" => WithBot K

variable {p : Args K} {c : Nat → Seq K} (hp : Setup p c)
include hp

theorem Setup.arcInfo_eq (i : Nat) (hi : i < p.seqs) (t q : Nat) (s : St S)
    (hs : s.st = (c i).soff + q) (part pf : Bool) (hpf : t + 1 = (c i).fr.length → part = pf)
    (ht : t < (c i).fr.length) (x : Arc S × Nat) (hx : x ∈ posArcs (c i).f q) :
    arcInfo p t i part s ((c i).aoff + x.2) = some (rawAi (c i) pf t (fun _ => s.fwd) q x) := by
  obtain ⟨a, j⟩ := x
  obtain ⟨h1, h2⟩ := (mem_posArcs _ (hp.ok i hi).rows q _).mp hx
  simp only at h1 h2
  have ha := List.mem_of_getElem? h1
  have hq : q < (c i).f.length := by have := (hp.ok i hi).fin a ha; omega
  obtain ⟨hl1, hl2⟩ := hp.lab i hi a ha
  unfold arcInfo
  simp only [hp.arc i hi j a h1, hp.base i hi, hp.frames i hi, Option.bind_eq_bind, Option.bind_some]
  rw [if_pos ⟨hl1, hl2⟩, hp.mem i hi a ha t ht, Option.bind_some]
  by_cases hn : t + 1 = (c i).fr.length ∧ part = true
  · rw [if_pos hn, hs, hp.id1 i hi q hq, Option.bind_some, hp.lo i hi, Option.bind_some, hp.hi i hi,
      Option.bind_some]
    have e := hpf hn.1
    have e' : pf = true := by rw [← e]; exact hn.2
    simp only [rawAi, Seq.sc, Seq.dst, zero_add]
    rw [if_pos ⟨e', hn.1⟩, if_pos ⟨e', hn.1⟩]
    congr 2
    have := (hp.ok i hi).fin a ha
    push_cast
    omega
  · have hn' : ¬ (pf = true ∧ t + 1 = (c i).fr.length) := by
      rintro ⟨h3, h4⟩
      exact hn ⟨h4, by rw [hpf h4, h3]⟩
    rw [if_neg hn]
    simp only [rawAi, Seq.sc, Seq.dst]
    rw [if_neg hn', if_neg hn']
    congr 2
    rw [hs]; push_cast; omega

theorem Setup.row_eq (i : Nat) (hi : i < p.seqs) (q : Nat) (hq : q < (c i).f.length) :
    rowElems p.v.sp2 ((c i).soff + q) = some ((posArcs (c i).f q).map (fun x => (c i).aoff + x.2)) := by
  have hr := List.getElem?_eq_getElem hq
  rw [hp.row i hi q _ hr]
  congr 1
  rw [posArcs, List.getD_eq_getElem?_getD, hr, Option.getD_some]
  apply List.ext_getElem?
  intro k
  by_cases h : k < (c i).f[q].length
  · simp [h]; omega
  · simp [h]

variable (t : Nat) (L : Nat → List Nat) (hL : ∀ i < p.seqs, Lists p (c i) t (L i))
include hL

theorem Setup.hasFinalArc_eq (i : Nat) (hi : i < p.seqs) (ht : t + 1 = (c i).fr.length)
    (bw : Nat → S) :
    hasFinalArc p t i (stRow (c i) (alpha p (c i) t) bw (L i)) = some (finalSeen p (c i)) := by
  unfold hasFinalArc
  rw [hp.frames i hi]
  have h1 : (stRow (c i) (alpha p (c i) t) bw (L i)).mapM (fun s => do
      let arcs ← rowElems p.v.sp2 s.st
      arcs.mapM (fun j => p.v.arcs[j]?)) = some ((L i).map (fun q => (posArcs (c i).f q).map Prod.fst)) := by
    apply mapM_map'
    intro q hq
    have hq' := (hp.ok i hi).alpha_lt p t q (((hL i hi).2 q).mp hq)
    rw [hp.row_eq i hi q hq', Option.bind_eq_bind, Option.bind_some]
    apply mapM_map'
    intro x hx
    exact hp.arc i hi _ _ ((mem_posArcs _ (hp.ok i hi).rows q _).mp hx).1
  simp only [Option.bind_eq_bind, Option.bind_some]
  simp only [Option.bind_eq_bind] at h1
  rw [h1, Option.bind_some]
  congr 1
  rw [decide_eq_true ht, Bool.true_and, finalSeen, Bool.eq_iff_iff]
  simp only [List.any_eq_true, decide_eq_true_eq]
  have he : (search p (c i) false ((c i).fr.length - 1)).1 = alpha p (c i) t := by
    rw [show (c i).fr.length - 1 = t by omega, alpha, search_part p (c i) (partFlag p (c i)) t (by omega)]
  rw [he]
  constructor
  · rintro ⟨a, ha, hl⟩
    obtain ⟨row, hr, ha'⟩ := List.mem_flatten.mp ha
    obtain ⟨q, hq, rfl⟩ := List.mem_map.mp hr
    obtain ⟨x, hx, rfl⟩ := List.mem_map.mp ha'
    obtain ⟨h2, h3⟩ := (mem_posArcs _ (hp.ok i hi).rows q _).mp hx
    exact ⟨x.1, List.mem_of_getElem? h2, hl, by rw [h3]; exact ((hL i hi).2 q).mp hq⟩
  · rintro ⟨a, ha, hl, hA⟩
    obtain ⟨j, hj⟩ := List.getElem?_of_mem ha
    refine ⟨a, List.mem_flatten.mpr ⟨_, List.mem_map.mpr ⟨a.src, ((hL i hi).2 _).mpr hA, rfl⟩, ?_⟩, hl⟩
    exact List.mem_map.mpr ⟨(a, j), (mem_posArcs _ (hp.ok i hi).rows _ _).mpr ⟨hj, rfl⟩, rfl⟩

/-- The arcs of a frame before the states of the next frame are numbered. -/
def rawRow (p : Args K) (c : Seq K) (t : Nat) (L : List Nat) : List (List (Ai S)) :=
  L.map (fun q => (posArcs c.f q).map (rawAi c (partFlag p c) t (alpha p c t) q))

theorem Setup.getArcs_eq (bw : Nat → Nat → S) :
    getArcs p t ((List.range p.seqs).map (fun i => stRow (c i) (alpha p (c i) t) (bw i) (L i))) =
      some ((List.range p.seqs).map (fun i => rawRow p (c i) t (L i))) := by
  unfold getArcs
  rw [zipIdx_map_range]
  apply mapM_map'
  intro i hi
  rw [List.mem_range] at hi
  have hfin : ∃ fin, (if p.allowPartial then hasFinalArc p t i (stRow (c i) (alpha p (c i) t) (bw i) (L i))
      else some true) = some fin ∧ (t + 1 = (c i).fr.length → (!fin) = partFlag p (c i)) := by
    unfold partFlag
    by_cases hpa : p.allowPartial
    · rw [if_pos hpa]
      by_cases ht : t + 1 = (c i).fr.length
      · exact ⟨_, hp.hasFinalArc_eq t L hL i hi ht (bw i), fun _ => by rw [hpa]; simp⟩
      · unfold hasFinalArc
        have h1 : (stRow (c i) (alpha p (c i) t) (bw i) (L i)).mapM (fun s => do
            let arcs ← rowElems p.v.sp2 s.st
            arcs.mapM (fun j => p.v.arcs[j]?)) =
              some ((L i).map (fun q => (posArcs (c i).f q).map Prod.fst)) := by
          apply mapM_map'
          intro q hq
          have hq' := (hp.ok i hi).alpha_lt p t q (((hL i hi).2 q).mp hq)
          rw [hp.row_eq i hi q hq', Option.bind_eq_bind, Option.bind_some]
          apply mapM_map'
          intro x hx
          exact hp.arc i hi _ _ ((mem_posArcs _ (hp.ok i hi).rows q _).mp hx).1
        simp only [Option.bind_eq_bind] at h1
        simp only [hp.frames i hi, h1, Option.bind_eq_bind, Option.bind_some]
        exact ⟨_, rfl, fun h => absurd h ht⟩
    · rw [if_neg hpa]
      exact ⟨true, rfl, fun _ => by simp [hpa]⟩
  obtain ⟨fin, h1, h2⟩ := hfin
  suffices hgoal : (stRow (c i) (alpha p (c i) t) (bw i) (L i)).mapM (fun s =>
      (rowElems p.v.sp2 s.st).bind fun arcs => arcs.mapM (arcInfo p t i (!fin) s)) =
        some (rawRow p (c i) t (L i)) by
    by_cases hpa : p.allowPartial
    · rw [if_pos hpa] at h1
      simp only [hpa, if_true, h1, Option.bind_eq_bind, Option.bind_some]
      exact hgoal
    · rw [if_neg hpa] at h1
      obtain rfl := Option.some.inj h1
      simp only [hpa, Option.bind_eq_bind]
      exact hgoal
  apply mapM_map'
  intro q hq
  have hA := ((hL i hi).2 q).mp hq
  have hq' := (hp.ok i hi).alpha_lt p t q hA
  simp only [hp.row_eq i hi q hq', Option.bind_some]
  apply mapM_map'
  intro x hx
  have hx' := (mem_posArcs _ (hp.ok i hi).rows q _).mp hx
  refine hp.arcInfo_eq i hi t q _ rfl (!fin) _ h2 ?_ x hx
  exact (hp.ok i hi).alpha_arc p t x.1 (List.mem_of_getElem? hx'.1) (by rw [hx'.2]; exact hA)

omit hp hL in
theorem rawRow_fin (i : Nat) (x : Ai S) :
    x ∈ (rawRow p (c i) t (L i)).flatten ↔ ∃ q ∈ L i, ∃ y ∈ posArcs (c i).f q,
      rawAi (c i) (partFlag p (c i)) t (alpha p (c i) t) q y = x := by
  simp only [rawRow, List.mem_flatten, List.mem_map]
  constructor
  · rintro ⟨_, ⟨q, hq, rfl⟩, hx⟩
    obtain ⟨y, hy, rfl⟩ := List.mem_map.mp hx
    exact ⟨q, hq, y, hy, rfl⟩
  · rintro ⟨q, hq, y, hy, rfl⟩
    exact ⟨_, ⟨q, hq, rfl⟩, List.mem_map.mpr ⟨y, hy, rfl⟩⟩

theorem Setup.best_eq (i : Nat) (hi : i < p.seqs) :
    ((rawRow p (c i) t (L i)).flatten.map Ai.fin).foldl max ⊥ =
      (c i).best (partFlag p (c i)) t (alpha p (c i) t) := by
  change mx _ = mx _
  apply mx_congr
  intro z hz
  rw [List.mem_map, List.mem_map]
  constructor
  · rintro ⟨x, hx, rfl⟩
    obtain ⟨q, hq, y, hy, rfl⟩ := (rawRow_fin t L i x).mp hx
    obtain ⟨h1, h2⟩ := (mem_posArcs _ (hp.ok i hi).rows q _).mp hy
    exact ⟨y.1, List.mem_of_getElem? h1, by rw [h2]; rfl⟩
  · rintro ⟨a, ha, rfl⟩
    obtain ⟨j, hj⟩ := List.getElem?_of_mem ha
    have hA : alpha p (c i) t a.src ≠ ⊥ := by
      intro h; rw [h, WithBot.bot_add] at hz; exact hz rfl
    exact ⟨_, (rawRow_fin t L i _).mpr ⟨a.src, ((hL i hi).2 _).mpr hA, (a, j),
      (mem_posArcs _ (hp.ok i hi).rows _ _).mpr ⟨hj, rfl⟩, rfl⟩, rfl⟩

omit hL in
theorem Setup.lists_length (i : Nat) (hi : i < p.seqs) (t : Nat) (l : List Nat) (hl : Lists p (c i) t l) :
    l.length = (c i).active (alpha p (c i) t) := by
  apply List.Perm.length_eq
  rw [List.perm_ext_iff_of_nodup hl.1 ((List.nodup_range).filter _)]
  intro q
  rw [hl.2, List.mem_filter, List.mem_range]
  simp only [decide_eq_true_eq, ne_eq]
  exact ⟨fun h => ⟨(hp.ok i hi).alpha_lt p t q h, h⟩, fun h => h.2⟩

/-- The cutoff of a sequence on a frame. -/
def cutAt (p : Args K) (c : Seq K) (t : Nat) : K × S :=
  (beamAt p c (t + 1), sub (c.best (partFlag p c) t (alpha p c t)) (beamAt p c (t + 1)))

theorem Setup.cutoffs_eq :
    cutoffs p t ((List.range p.seqs).map (fun i => beamAt p (c i) t))
      ((List.range p.seqs).map (fun i => rawRow p (c i) t (L i))) =
      some ((List.range p.seqs).map (fun i => cutAt p (c i) t)) := by
  unfold cutoffs
  rw [zipIdx_map_range]
  apply mapM_map'
  intro i hi
  rw [List.mem_range] at hi
  have hlen : (rawRow p (c i) t (L i)).length = (c i).active (alpha p (c i) t) := by
    rw [rawRow, List.length_map, hp.lists_length i hi t _ (hL i hi)]
  simp only [hp.frames i hi, map_range_get _ _ i hi, Option.bind_eq_bind, Option.bind_some, hlen,
    hp.best_eq t L hL i hi]
  rfl

omit hp hL in
theorem mem_numbered (x : Nat × Ai S) :
    x ∈ numbered ((List.range p.seqs).map (fun i => rawRow p (c i) t (L i))) ↔
      x.1 < p.seqs ∧ ∃ q ∈ L x.1, ∃ y ∈ posArcs (c x.1).f q,
        rawAi (c x.1) (partFlag p (c x.1)) t (alpha p (c x.1) t) q y = x.2 := by
  rw [numbered, zipIdx_map_range, List.map_map, List.mem_flatten]
  constructor
  · rintro ⟨_, h1, h2⟩
    obtain ⟨i, hi, rfl⟩ := List.mem_map.mp h1
    obtain ⟨a, ha, rfl⟩ := List.mem_map.mp h2
    exact ⟨List.mem_range.mp hi, (rawRow_fin t L i a).mp ha⟩
  · rintro ⟨h1, h2⟩
    exact ⟨_, List.mem_map.mpr ⟨x.1, List.mem_range.mpr h1, rfl⟩,
      List.mem_map.mpr ⟨x.2, (rawRow_fin t L x.1 x.2).mpr h2, rfl⟩⟩

omit hp hL in
theorem numbered_sorted (N : Nat) (g : Nat → List (List (Ai S))) :
    (numbered ((List.range N).map g)).Pairwise (fun x y => x.1 ≤ y.1) := by
  rw [numbered, zipIdx_map_range, List.map_map, ← List.flatMap_def, List.pairwise_flatMap]
  refine ⟨?_, ?_⟩
  · intro i hi
    apply List.pairwise_of_forall_mem_list
    intro x hx y hy
    obtain ⟨a, -, rfl⟩ := List.mem_map.mp hx
    obtain ⟨b, -, rfl⟩ := List.mem_map.mp hy
    exact Nat.le_refl _
  · refine (List.pairwise_lt_range).imp ?_
    intro i j hij x hx y hy
    obtain ⟨a, -, rfl⟩ := List.mem_map.mp hx
    obtain ⟨b, -, rfl⟩ := List.mem_map.mp hy
    exact Nat.le_of_lt hij

/-- One step of the forward pass is one step of the search. -/
theorem Setup.forward_step (order : Nat → List Nat) (ho : ∀ n, (order n).Perm (List.range n)) :
    ∃ L' : Nat → List Nat, (∀ i < p.seqs, Lists p (c i) (t + 1) (L' i)) ∧
      propagateForward p order t
        ((List.range p.seqs).map (fun i => stRow (c i) (alpha p (c i) t) (fun _ => ⊥) (L i)))
        ((List.range p.seqs).map (fun i => beamAt p (c i) t)) =
      some ((List.range p.seqs).map (fun i =>
          arcRow (c i) (partFlag p (c i)) t (alpha p (c i) t) (L i) (L' i) (fun _ => true)),
        (List.range p.seqs).map (fun i => beamAt p (c i) (t + 1)),
        (List.range p.seqs).map (fun i => stRow (c i) (alpha p (c i) (t + 1)) (fun _ => ⊥) (L' i))) := by
  generalize hall : numbered ((List.range p.seqs).map (fun i => rawRow p (c i) t (L i))) = all
  have hmem : ∀ x, x ∈ all ↔ x.1 < p.seqs ∧ ∃ q ∈ L x.1, ∃ y ∈ posArcs (c x.1).f q,
      rawAi (c x.1) (partFlag p (c x.1)) t (alpha p (c x.1) t) q y = x.2 := by
    intro x; rw [← hall]; exact mem_numbered t L x
  have harc : ∀ x ∈ all, ∃ a ∈ (c x.1).f.flatten, a.src ∈ L x.1 ∧
      x.2.dst = (((c x.1).soff + (c x.1).dst (partFlag p (c x.1)) t a : Nat) : Int) ∧
      x.2.fin = alpha p (c x.1) t a.src + (c x.1).sc (partFlag p (c x.1)) t a := by
    intro x hx
    obtain ⟨h0, q, h1, y, h2, h3⟩ := (hmem x).mp hx
    obtain ⟨h4, h5⟩ := (mem_posArcs _ (hp.ok _ h0).rows q _).mp h2
    refine ⟨y.1, List.mem_of_getElem? h4, by rw [h5]; exact h1, by rw [← h3]; rfl, ?_⟩
    rw [← h3, h5]; rfl
  have hseq : ∀ x ∈ all, x.1 < p.seqs := fun x hx => ((hmem x).mp hx).1
  obtain ⟨m, kept, h1, h2, h3, h4, h5, h6, h7, h8⟩ := numbering p
    ((List.range p.seqs).map (fun i => cutAt p (c i) t)) all
    (by rw [← hall]; exact numbered_sorted _ _)
    (fun x hx => ⟨_, map_range_get _ _ _ (hseq x hx)⟩)
    (by
      intro x hx y hy he
      obtain ⟨a, ha1, ha2, ha3, -⟩ := harc x hx
      obtain ⟨b, hb1, hb2, hb3, -⟩ := harc y hy
      have hx0 := hseq x hx
      have hy0 := hseq y hy
      rw [keyOf, keyOf, ha3, hb3] at he
      obtain ⟨e1, e2⟩ := hp.key x.1 hx0 y.1 hy0 _ ((hp.ok _ hx0).dst_lt (partFlag p (c x.1)) t a ha1)
        _ ((hp.ok _ hy0).dst_lt (partFlag p (c y.1)) t b hb1) (by exact_mod_cast he)
      refine ⟨e1, ?_⟩
      rw [ha3, hb3, e2, e1])
    (order all.length) (ho _)
  have habove : ∀ x ∈ all, (Above ((List.range p.seqs).map (fun i => cutAt p (c i) t)) x ↔
      (cutAt p (c x.1) t).2 < x.2.fin) := by
    intro x hx
    rw [Above, map_range_get _ _ _ (hseq x hx)]
    constructor
    · rintro ⟨_, h, h'⟩; rw [Option.some.inj h]; exact h'
    · intro h; exact ⟨_, rfl, h⟩
  -- the destinations are the active states
  have hdest : ∀ i < p.seqs, ∀ d, d ∈ dests kept i ↔
      ∃ q : Nat, d = (((c i).soff + q : Nat) : Int) ∧ alpha p (c i) (t + 1) q ≠ ⊥ := by
    intro i hi d
    rw [h6]
    constructor
    · rintro ⟨x, hx, rfl, rfl, ha⟩
      obtain ⟨a, ha1, ha2, ha3, ha4⟩ := harc x hx
      refine ⟨_, ha3, alpha_enter p (c x.1) t a ha1 ?_⟩
      rw [← ha4]
      exact (habove x hx).mp ha
    · rintro ⟨q, rfl, hq⟩
      obtain ⟨a, ha, hd, hs⟩ := alpha_from p (c i) t q hq
      have hA : alpha p (c i) t a.src ≠ ⊥ := by
        intro h; rw [h, WithBot.bot_add] at hs; exact hq hs.symm
      obtain ⟨j, hj⟩ := List.getElem?_of_mem ha
      have hx : (i, rawAi (c i) (partFlag p (c i)) t (alpha p (c i) t) a.src (a, j)) ∈ all :=
        (hmem _).mpr ⟨hi, a.src, ((hL i hi).2 _).mpr hA, (a, j),
          (mem_posArcs _ (hp.ok i hi).rows _ _).mpr ⟨hj, rfl⟩, rfl⟩
      refine ⟨_, hx, rfl, by rw [rawAi, hd], (habove _ hx).mpr ?_⟩
      change (cutAt p (c i) t).2 < alpha p (c i) t a.src + (c i).sc (partFlag p (c i)) t a
      rw [alpha_succ] at hq
      rw [hs, alpha_succ]
      have := (step_ne_bot _ _ _ _ _ _).mp hq
      rw [Seq.step, if_pos this]
      exact this
  let L' : Nat → List Nat := fun i => (dests kept i).map (fun d => d.toNat - (c i).soff)
  have hL'd : ∀ i < p.seqs, ∀ d ∈ dests kept i, d = (((c i).soff + (d.toNat - (c i).soff) : Nat) : Int) := by
    intro i hi d hd
    obtain ⟨q, rfl, -⟩ := (hdest i hi d).mp hd
    push_cast; omega
  have hdst : ∀ i < p.seqs, ∀ q : Nat,
      ((((c i).soff + q : Nat) : Int) ∈ dests kept i ↔ q ∈ L' i) := by
    intro i hi q
    simp only [L', List.mem_map]
    constructor
    · intro h; exact ⟨_, h, by omega⟩
    · rintro ⟨d, hd, rfl⟩
      rw [← hL'd i hi d hd]; exact hd
  have hlists : ∀ i < p.seqs, Lists p (c i) (t + 1) (L' i) := by
    intro i hi
    constructor
    · refine (h5 i).map_on ?_
      intro d hd d' hd' he
      rw [hL'd i hi d hd, hL'd i hi d' hd', he]
    · intro q
      rw [← hdst i hi, hdest i hi]
      constructor
      · rintro ⟨q', he, h⟩
        obtain rfl : q = q' := by omega
        exact h
      · intro h; exact ⟨q, rfl, h⟩
  have hidx : ∀ i < p.seqs, ∀ q ∈ L' i,
      (dests kept i).idxOf (((c i).soff + q : Nat) : Int) = (L' i).idxOf q := by
    intro i hi q hq
    have hd := (hdst i hi q).mpr hq
    have h9 := List.getElem?_idxOf hd
    have h10 : (L' i)[(dests kept i).idxOf (((c i).soff + q : Nat) : Int)]? = some q := by
      simp only [L', List.getElem?_map, h9, Option.map_some, Option.some.injEq]
      omega
    obtain ⟨hlt, hge⟩ := List.getElem?_eq_some_iff.mp h10
    have := List.Nodup.idxOf_getElem (hlists i hi).1 _ hlt
    rw [hge] at this
    exact this.symm
  refine ⟨L', hlists, ?_⟩
  unfold propagateForward
  rw [hp.getArcs_eq t L hL (fun _ _ => ⊥)]
  simp only [Option.bind_eq_bind, Option.bind_some]
  rw [hp.cutoffs_eq t L hL, Option.bind_some, hall, h1, Option.bind_some]
  obtain ⟨n2o, hn, hk⟩ := Option.bind_eq_some_iff.mp h2
  rw [hn, Option.bind_some, hk, Option.bind_some]
  rw [rowIdsToRowSplits_eq (kept.map Prod.fst) p.seqs (by rw [List.pairwise_map]; exact h4)
    (by
      intro x hx
      obtain ⟨y, hy, rfl⟩ := List.mem_map.mp hx
      exact hseq y (h3 y hy)), Option.bind_some]
  have hsp : ∀ i < p.seqs, ((List.range (p.seqs + 1)).map (fun r =>
      (kept.map Prod.fst).countP (fun x => x < r)))[i]? = some (before kept i) := by
    intro i hi
    rw [map_range_get _ _ _ (by omega), List.countP_map]
    rfl
  have harcs : (((List.range p.seqs).map (fun i => rawRow p (c i) t (L i))).zipIdx.mapM (fun q =>
      q.1.mapM (fun row => row.mapM (setDst p m (keepFlags p all m)
        ((List.range (p.seqs + 1)).map (fun r => (kept.map Prod.fst).countP (fun x => x < r))) q.2)))) =
      some ((List.range p.seqs).map (fun i =>
          arcRow (c i) (partFlag p (c i)) t (alpha p (c i) t) (L i) (L' i) (fun _ => true))) := by
    rw [zipIdx_map_range]
    apply mapM_map'
    intro i hi
    rw [List.mem_range] at hi
    apply mapM_map'
    intro q hq
    rw [List.filter_eq_self.mpr (by simp)]
    apply mapM_map'
    intro y hy
    have hx : (i, rawAi (c i) (partFlag p (c i)) t (alpha p (c i) t) q y) ∈ all :=
      (hmem _).mpr ⟨hi, q, hq, y, hy, rfl⟩
    unfold setDst
    rw [h7 _ hx]
    by_cases hd : (c i).dst (partFlag p (c i)) t y.1 ∈ L' i
    · have hd' := (hdst i hi _).mpr hd
      simp only [rawAi, hd', if_true, hsp i hi, Option.bind_some, aiOf, dstIn, hd, hidx i hi _ hd]
      congr 2
      push_cast; omega
    · have hd' : ¬ (((c i).soff + (c i).dst (partFlag p (c i)) t y.1 : Nat) : Int) ∈ dests kept i :=
        fun h => hd ((hdst i hi _).mp h)
      simp only [rawAi, hd', if_false, aiOf, dstIn, hd]
  rw [harcs, Option.bind_some]
  simp only [List.map_map, Option.some.injEq, Prod.mk.injEq]
  refine ⟨trivial, rfl, ?_⟩
  apply List.map_congr_left
  intro i hi
  rw [List.mem_range] at hi
  rw [sorted_filter (fun z : Nat × Ai S => z.1) i kept 0 h4]
  rw [stRow]
  simp only [L', dests, List.map_map]
  apply List.ext_getElem?
  intro k
  rw [List.getElem?_map, List.getElem?_map, List.getElem?_zipIdx]
  cases hx : (kept.filter (fun x => decide (x.1 = i)))[k]? with
  | none => rfl
  | some x =>
    have hxm := List.mem_of_getElem? hx
    obtain ⟨hxk, hxi⟩ := List.mem_filter.mp hxm
    have hxi' : x.1 = i := by simpa using hxi
    have hxall := h3 x hxk
    have hd : x.2.dst ∈ dests kept i := List.mem_map.mpr ⟨x, hxm, rfl⟩
    have e := hL'd i hi _ hd
    obtain ⟨q, hq, hqA⟩ := (hdest i hi _).mp hd
    have hq' : x.2.dst.toNat - (c i).soff = q := by omega
    simp only [Option.map_some, Function.comp, hq']
    have hg : kept[0 + kept.countP (fun x => decide (x.1 < i)) + k]? = some x := by
      have : (x, 0 + kept.countP (fun x => decide (x.1 < i)) + k) ∈
          (kept.zipIdx 0).filter (fun z => z.1.1 = i) := by
        rw [sorted_filter (fun z : Nat × Ai S => z.1) i kept 0 h4,
          List.mk_mem_zipIdx_iff_le_and_getElem?_sub]
        exact ⟨by omega, by rw [Nat.add_sub_cancel_left]; exact hx⟩
      exact List.mem_zipIdx_iff_getElem?.mp (List.mem_filter.mp this).1
    congr 2
    · omega
    · rw [alpha_succ]
      have hqA' := hqA
      rw [alpha_succ] at hqA'
      rw [Seq.step, if_pos ((step_ne_bot _ _ _ _ _ _).mp hqA')]
      change mx _ = mx _
      apply mx_congr
      intro z hz
      rw [List.mem_map, List.mem_map]
      constructor
      · rintro ⟨y, hy, rfl⟩
        obtain ⟨hy1, hy2⟩ := List.mem_filter.mp hy
        obtain ⟨x', hx', e1, e2⟩ := (h8 y hy1 _).mp (by simpa using hy2)
        have hx' := (show kept[0 + kept.countP (fun x => decide (x.1 < i)) + k]? = some x' by
          simpa using hx')
        rw [hg] at hx'
        obtain rfl := Option.some.inj hx'
        obtain ⟨a, ha1, ha2, ha3, ha4⟩ := harc y hy1
        rw [← e1, hxi'] at ha1 ha2 ha3 ha4
        refine ⟨a, List.mem_filter.mpr ⟨ha1, ?_⟩, ha4.symm⟩
        simp only [decide_eq_true_eq]
        omega
      · rintro ⟨a, ha, rfl⟩
        obtain ⟨ha1, ha2⟩ := List.mem_filter.mp ha
        have ha2' : (c i).dst (partFlag p (c i)) t a = q := by simpa using ha2
        obtain ⟨j, hj⟩ := List.getElem?_of_mem ha1
        have hA : alpha p (c i) t a.src ≠ ⊥ := by
          intro h; rw [h, WithBot.bot_add] at hz; exact hz rfl
        have hy : (i, rawAi (c i) (partFlag p (c i)) t (alpha p (c i) t) a.src (a, j)) ∈ all :=
          (hmem _).mpr ⟨hi, a.src, ((hL i hi).2 _).mpr hA, (a, j),
            (mem_posArcs _ (hp.ok i hi).rows _ _).mpr ⟨hj, rfl⟩, rfl⟩
        refine ⟨_, List.mem_filter.mpr ⟨hy, ?_⟩, rfl⟩
        simp only [decide_eq_true_eq]
        exact (h8 _ hy _).mpr ⟨x, hg, hxi', by rw [hq, rawAi, ha2']⟩

end

end Verif.Fsa.Dp
