import Verif.Fsa.Dense.Result
import Verif.Fsa.Dense.LatticeProps

/-!
# `IntersectDense` computes the lattices
-/

set_option linter.unusedSectionVars false

namespace Verif.Fsa.Dn
open Verif.Ragged Verif.Util Verif.Fsa.Sco Verif.Fsa.Best
variable {K : Type} [AddCommGroup K] [LinearOrder K] [IsOrderedAddMonoid K]

local notation "S" => WithBot K

/-- The lattice of one FSA. -/
def latOf (neg : S) (stride : Nat) (p : Job S) : List (List (Arc S)) :=
  outFsa p.f p.fr (cutOf p.f p.fr neg) p.base stride

/-- The arc maps of all FSAs. -/
def mapAOf (P : List (Job S)) (neg : S) (stride : Nat) : List (List Nat) :=
  P.mapIdx (fun r p => (outMapA p.f p.fr (cutOf p.f p.fr neg) p.base stride).map (ao P r + ·))

/-- The maps to the scores of all FSAs. -/
def mapBOf (P : List (Job S)) (neg : S) (stride : Nat) : List (List Nat) :=
  P.map (fun p => outMapB p.f p.fr (cutOf p.f p.fr neg) p.base stride)

theorem flatten_map_flatten {X : Type} (N : List (List (List X))) :
    N.flatten.flatten = (N.map List.flatten).flatten := by
  induction N with
  | nil => rfl
  | cons a N ih => simp only [List.map_cons, List.flatten_cons, List.flatten_append, ih]

theorem nest3_rows (P : List (Job S)) (neg : S) (stride : Nat) :
    (nest3 P neg (oRow P neg stride)).map List.flatten =
      P.mapIdx (fun r p => (outRows p.f p.fr (cutOf p.f p.fr neg) p.base stride).map
        (fun row => row.map (fun y => (y.1, ao P r + y.2.1, y.2.2)))) := by
  apply List.ext_getElem?
  intro r
  rw [List.getElem?_map, nest3, List.getElem?_mapIdx, List.getElem?_mapIdx]
  cases P[r]? with
  | none => rfl
  | some p =>
    simp only [Option.map_some, outRows, List.map_flatten, List.map_map]
    congr 3
    funext t
    simp [oRow, kept]

theorem O3_eq (P : List (Job S)) (neg : S) (stride : Nat) : O3 P neg stride =
    (P.mapIdx (fun r p => (outRows p.f p.fr (cutOf p.f p.fr neg) p.base stride).map
        (fun row => row.map (fun y => (y.1, ao P r + y.2.1, y.2.2))))).flatten := by
  rw [O3, flatten_map_flatten (nest3 P neg (oRow P neg stride)), nest3_rows]

theorem out_arcs (P : List (Job S)) (neg : S) (stride : Nat) :
    (O3 P neg stride).flatten.map Prod.fst = (P.map (latOf neg stride)).flatten.flatten := by
  rw [O3_eq, List.map_flatten, List.map_flatten]
  congr 1
  congr 1
  apply List.ext_getElem?
  intro r
  rw [List.getElem?_map, List.getElem?_mapIdx, List.getElem?_map]
  cases P[r]? with
  | none => rfl
  | some p => simp [latOf, outFsa, Function.comp_def]

theorem out_mapA (P : List (Job S)) (neg : S) (stride : Nat) :
    (O3 P neg stride).flatten.map (fun x => x.2.1) = (mapAOf P neg stride).flatten := by
  rw [O3_eq, flatten_map_flatten, List.map_flatten]
  congr 1
  apply List.ext_getElem?
  intro r
  rw [List.getElem?_map, List.getElem?_map, List.getElem?_mapIdx, mapAOf, List.getElem?_mapIdx]
  cases P[r]? with
  | none => rfl
  | some p =>
    simp only [Option.map_some, outMapA, ← List.map_flatten, List.map_map, Function.comp_def]

theorem out_mapB (P : List (Job S)) (neg : S) (stride : Nat) :
    (O3 P neg stride).flatten.map (fun x => x.2.2) = (mapBOf P neg stride).flatten := by
  rw [O3_eq, flatten_map_flatten, List.map_flatten]
  congr 1
  apply List.ext_getElem?
  intro r
  rw [List.getElem?_map, List.getElem?_map, List.getElem?_mapIdx, mapBOf, List.getElem?_map]
  cases P[r]? with
  | none => rfl
  | some p =>
    simp only [Option.map_some, outMapB, ← List.map_flatten, List.map_map, Function.comp_def]

theorem out_shape (P : List (Job S)) (neg : S) (stride : Nat) :
    removeAxis [(psum ((KK P neg).map List.length), idsFrom 0 ((KK P neg).map List.length)),
      (psum ((KK P neg).flatten.map List.length), idsFrom 0 ((KK P neg).flatten.map List.length)),
      (psum ((O3 P neg stride).map List.length), idsFrom 0 ((O3 P neg stride).map List.length))] 1 =
      some [((flat (P.map (latOf neg stride))).sp1, (flat (P.map (latOf neg stride))).id1),
        ((flat (P.map (latOf neg stride))).sp2, (flat (P.map (latOf neg stride))).id2)] := by
  set N := nest3 P neg (oRow P neg stride) with hN
  obtain ⟨n1, n2⟩ := nest3_lens P neg (oRow P neg stride)
  have h := removeAxis_middle (α := Arc S × Nat × Nat) 1 0 N
  have i1 : N.map (Nest.join (α := Arc S × Nat × Nat) (1 + 2) 0) = N := List.map_id' N
  have i2 : (N.map (Nest.map (β := List (Nest (Arc S × Nat × Nat) 1)) List.flatten 0)).map
      (Nest.join (α := Arc S × Nat × Nat) (1 + 1) 0) = N.map List.flatten := List.map_id' _
  rw [i1, i2] at h
  have a1 := fullLayers_succ (α := Arc S × Nat × Nat) 2 N
  have a2 := fullLayers_succ (α := Arc S × Nat × Nat) 1 N.flatten
  have a3 := fullLayers_succ (α := Arc S × Nat × Nat) 0 N.flatten.flatten
  have b1 := fullLayers_succ (α := Arc S × Nat × Nat) 1 (N.map List.flatten)
  have b2 := fullLayers_succ (α := Arc S × Nat × Nat) 0 (N.map List.flatten).flatten
  have z : ∀ l, fullLayers (α := Arc S × Nat × Nat) 0 l = [] := fun l => rfl
  rw [z] at a3 b2
  rw [n1, a2] at a1
  rw [n2, a3] at a1
  rw [b2] at b1
  have e1 : (N.map List.flatten).map List.length = (P.map (latOf neg stride)).map List.length := by
    rw [hN, nest3_rows]
    apply List.ext_getElem?
    intro r
    rw [List.getElem?_map, List.getElem?_mapIdx, List.getElem?_map, List.getElem?_map]
    cases P[r]? with
    | none => rfl
    | some p => simp [latOf, outFsa]
  have e2 : (N.map List.flatten).flatten.map List.length = (P.map (latOf neg stride)).flatten.map List.length := by
    rw [hN, nest3_rows, List.map_flatten, List.map_flatten]
    congr 1
    apply List.ext_getElem?
    intro r
    rw [List.getElem?_map, List.getElem?_mapIdx, List.getElem?_map, List.getElem?_map]
    cases P[r]? with
    | none => rfl
    | some p => simp [latOf, outFsa, Function.comp_def]
  rw [e1, e2] at b1
  change removeAxis (fullLayers (α := Arc S × Nat × Nat) (2 + 1) N) (0 + 1) =
    some (fullLayers (α := Arc S × Nat × Nat) (1 + 1) (N.map List.flatten)) at h
  rw [a1, b1] at h
  exact h

theorem formatOutput_eq (P : List (Job S)) (b : Dense S) (map : List Nat) (hP : InpOk P b map) (d : DenseInit S)
    (hd : InitOk P d) (hT : ∀ p ∈ P, p.fr.length ≤ d.T) (neg : S) (maxSize : Nat) (hm : 0 < maxSize)
    (hc : ((chunkPlan maxSize (F3 P neg).flatten.length (F3 P neg).length).1 - 1) *
      (chunkPlan maxSize (F3 P neg).flatten.length (F3 P neg).length).2 ≤ (F3 P neg).length) :
    formatOutput maxSize (flat (fsasOf P)) b d (allScores P d.T) (P.map (fun p => cutOf p.f p.fr neg))
      (allFlags P d.T neg) = some (flat (P.map (latOf neg b.stride)), (mapAOf P neg b.stride).flatten,
        (mapBOf P neg b.stride).flatten) := by
  have hsp1 : d.infos.map (fun info => info.T + 1) = (KK P neg).map List.length := by
    rw [hd.infos]
    apply List.ext_getElem?
    intro r
    rw [List.getElem?_map, List.getElem?_mapIdx, List.getElem?_map, KK, List.getElem?_map]
    cases P[r]? with
    | none => rfl
    | some p => simp [kstAll_length]
  have hlen : d.infos.length = ((KK P neg).map List.length).length := by rw [← hsp1, List.length_map]
  have htot : (psum ((KK P neg).map List.length))[d.infos.length]? = some ((KK P neg).map List.length).sum := by
    rw [hlen, psum_get _ _ (le_refl _), List.take_length]
  have hrow2 : rowIdsToRowSplits (idsFrom 0 ((KK P neg).flatten.map List.length))
      (idsFrom 0 ((KK P neg).map List.length)).length = some (psum ((KK P neg).flatten.map List.length)) := by
    have := rowIdsToRowSplits_idsFrom ((KK P neg).flatten.map List.length)
    rwa [List.length_map, List.length_flatten, ← idsFrom_length 0] at this
  have hk := newToOldRows_eq maxSize (F3 P neg) _ hm (keepArc_is P b map hP d hd hT neg) hc
  have hids := sel_ids (F3 P neg) 0
  have hrow3 : rowIdsToRowSplits (idsFrom 0 ((O3 P neg b.stride).map List.length))
      ((psum ((F3 P neg).map List.length)).length - 1) = some (psum ((O3 P neg b.stride).map List.length)) := by
    have := rowIdsToRowSplits_idsFrom ((O3 P neg b.stride).map List.length)
    rw [← oLens P neg b.stride] at this ⊢
    rwa [List.length_map, ← List.length_map (as := F3 P neg) (f := List.length), ← Nat.add_sub_cancel (n := List.length _) (m := 1),
      ← psum_length] at this
  have houts := outs_eq P b map hP d hd hT neg
  unfold formatOutput
  simp only [new2old_spec, Option.bind_eq_bind, Option.bind_some, hsp1, htot, rowSplitsToRowIds_psum,
    states_eq P d hd hT neg, id2_eq, hrow2, lens_eq]
  rw [show ((F3 P neg).map List.length).sum = (F3 P neg).flatten.length from List.length_flatten.symm]
  rw [show (⟨psum ((KK P neg).map List.length), idsFrom 0 ((KK P neg).map List.length),
    psum ((KK P neg).flatten.map List.length), idsFrom 0 ((KK P neg).flatten.map List.length),
    (stList P neg).map (fun x => x.2.1), psum ((F3 P neg).map List.length),
    old2new (allFlags P d.T neg)⟩ : AnsShape) = ansOf P d.T neg from rfl]
  simp only [hk, Option.bind_some, houts]
  simp only [hids, oLens P neg b.stride, hrow3, Option.bind_some, out_shape]
  rw [out_arcs, out_mapA, out_mapB]
  rfl

/-- When the pieces of `GetNew2OldAndRowIds` do not fit the rows, nothing is returned. -/
theorem formatOutput_none (P : List (Job S)) (b : Dense S) (d : DenseInit S)
    (hd : InitOk P d) (hT : ∀ p ∈ P, p.fr.length ≤ d.T) (neg : S) (maxSize : Nat)
    (hc : (F3 P neg).length < ((chunkPlan maxSize (F3 P neg).flatten.length (F3 P neg).length).1 - 1) *
      (chunkPlan maxSize (F3 P neg).flatten.length (F3 P neg).length).2) :
    formatOutput maxSize (flat (fsasOf P)) b d (allScores P d.T) (P.map (fun p => cutOf p.f p.fr neg))
      (allFlags P d.T neg) = none := by
  have hsp1 : d.infos.map (fun info => info.T + 1) = (KK P neg).map List.length := by
    rw [hd.infos]
    apply List.ext_getElem?
    intro r
    rw [List.getElem?_map, List.getElem?_mapIdx, List.getElem?_map, KK, List.getElem?_map]
    cases P[r]? with
    | none => rfl
    | some p => simp [kstAll_length]
  have hlen : d.infos.length = ((KK P neg).map List.length).length := by rw [← hsp1, List.length_map]
  have htot : (psum ((KK P neg).map List.length))[d.infos.length]? = some ((KK P neg).map List.length).sum := by
    rw [hlen, psum_get _ _ (le_refl _), List.take_length]
  have hrow2 : rowIdsToRowSplits (idsFrom 0 ((KK P neg).flatten.map List.length))
      (idsFrom 0 ((KK P neg).map List.length)).length = some (psum ((KK P neg).flatten.map List.length)) := by
    have := rowIdsToRowSplits_idsFrom ((KK P neg).flatten.map List.length)
    rwa [List.length_map, List.length_flatten, ← idsFrom_length 0] at this
  have hl : (psum ((F3 P neg).map List.length)).length = (F3 P neg).length + 1 := by
    rw [psum_length, List.length_map]
  have hk := newToOldRows_out_of_range maxSize (psum ((F3 P neg).map List.length)) (F3 P neg).flatten.length
    (keepArc (flat (fsasOf P)) b d.carcs d.infos d.T (allScores P d.T) (P.map (fun p => cutOf p.f p.fr neg))
      (ansOf P d.T neg)) (by
      intro h0
      rw [h0] at hc
      simp only [chunkPlan] at hc
      rcases Nat.eq_zero_or_pos maxSize with h1 | h1
      · rw [h1] at hc; simp at hc
      · rw [Nat.div_eq_of_lt (show 0 + maxSize - 1 < maxSize by omega)] at hc
        simp at hc) (by
      rw [hl, Nat.add_sub_cancel]; omega) (by
      intro h0; rw [h0] at hl; simp at hl)
  unfold formatOutput
  simp only [new2old_spec, Option.bind_eq_bind, Option.bind_some, hsp1, htot, rowSplitsToRowIds_psum,
    states_eq P d hd hT neg, id2_eq, hrow2, lens_eq]
  rw [show ((F3 P neg).map List.length).sum = (F3 P neg).flatten.length from List.length_flatten.symm]
  rw [show (⟨psum ((KK P neg).map List.length), idsFrom 0 ((KK P neg).map List.length),
    psum ((KK P neg).flatten.map List.length), idsFrom 0 ((KK P neg).flatten.map List.length),
    (stList P neg).map (fun x => x.2.1), psum ((F3 P neg).map List.length),
    old2new (allFlags P d.T neg)⟩ : AnsShape) = ansOf P d.T neg from rfl]
  rw [hk]
  rfl

/-- The pieces of `GetNew2OldAndRowIds` for the arcs of the kept states fit the number of these states. -/
def PiecesFit (P : List (Job S)) (neg : S) (maxSize : Nat) : Prop :=
  ((chunkPlan maxSize (F3 P neg).flatten.length (F3 P neg).length).1 - 1) *
    (chunkPlan maxSize (F3 P neg).flatten.length (F3 P neg).length).2 ≤ (F3 P neg).length

instance (P : List (Job S)) (neg : S) (maxSize : Nat) : Decidable (PiecesFit P neg maxSize) :=
  inferInstanceAs (Decidable (_ ≤ _))

/-- The whole function. -/
theorem intersectDense_eq (dev : Dev) (debug : Bool) (fuel maxSize : Nat) (dec : S → Nat → Nat → S)
    (P : List (Job S)) (b : Dense S) (map : List Nat) (neg : S) (maxStates maxArcs : Nat) (hP : InpOk P b map)
    (hmap : map.Pairwise (· ≤ ·)) (hneg : neg < 0) (hm : 0 < maxSize) :
    intersectDense dev debug fuel maxSize dec (flat (fsasOf P)) b map neg maxStates maxArcs =
      (beamOf P dec maxStates maxArcs fuel neg).bind (fun neg' => if PiecesFit P neg' maxSize then
        some (flat (P.map (latOf neg' b.stride)), (mapAOf P neg' b.stride).flatten,
          (mapBOf P neg' b.stride).flatten) else none) := by
  obtain ⟨d, h1, hd⟩ := denseInit_ok dev debug P b map hP
  have hT : ∀ p ∈ P, p.fr.length ≤ d.T := by
    intro p hp
    rw [hd.T]
    have hs := hP.sorted
    cases P with
    | nil => simp at hp
    | cons q P =>
      rw [List.map_cons, List.headD_cons]
      rcases List.mem_cons.mp hp with rfl | hp
      · exact le_refl _
      · rw [List.map_cons, List.pairwise_cons] at hs
        exact hs.1 _ (List.mem_map.mpr ⟨p, hp, rfl⟩)
  have hn : (flat (fsasOf P)).sp2.length - 1 = (fsasOf P).flatten.length := by
    change (psum ((fsasOf P).flatten.map List.length)).length - 1 = _
    rw [psum_length, List.length_map]; omega
  unfold intersectDense
  rw [if_pos ⟨hmap, hneg⟩]
  simp only [h1, hn, doStep0_eq P d hd, Option.bind_eq_bind, Option.bind_some,
    runSteps_eq P b map hP d hd d.T (le_refl _)]
  have hb := beamLoop_eq P hP.sorted d hd hT dec maxStates maxArcs fuel neg
  rw [allScores] at hb
  rw [hb]
  cases h : beamOf P dec maxStates maxArcs fuel neg with
  | none => rfl
  | some neg' =>
    simp only [Option.map_some, Option.bind_some]
    split
    · next hc => exact formatOutput_eq P b map hP d hd hT neg' maxSize hm hc
    · next hc => exact formatOutput_none P b d hd hT neg' maxSize (not_le.mp hc)

end Verif.Fsa.Dn
