import Verif.Fsa.Dense.Grid
import Verif.Ragged.AxisProps

/-!
# The output of `IntersectDense`
-/

set_option linter.unusedSectionVars false

namespace Verif.Fsa.Dn
open Verif.Ragged Verif.Util Verif.Fsa.Sco Verif.Fsa.Best
variable {K : Type} [AddCommGroup K] [LinearOrder K] [IsOrderedAddMonoid K]

local notation "S" => WithBot K

/-- The state scores of all steps. -/
def allScores (P : List (Job S)) (T : Nat) : List (List S) := (List.range (T + 1)).map (stepScores P)

theorem scoreAt_eq (P : List (Job S)) (hs : (P.map (fun p => p.fr.length)).Pairwise (· ≥ ·)) (T : Nat)
    (r : Nat) (p : Job S) (hp : P[r]? = some p) (hT : p.fr.length ≤ T) (t : Nat) (ht : t ≤ p.fr.length) (s : Nat)
    (hsl : s < p.f.length) :
    scoreAt (allScores P T) t (2 * so P r + s) = some (bwd p.f p.fr t s) ∧
    scoreAt (allScores P T) t (2 * so P r + p.f.length + s) = some (fwd p.f p.fr t s) := by
  have h := stepScores_get P hs t r p hp ht s hsl
  have e : (allScores P T)[t]? = some (stepScores P t) := by
    rw [allScores, List.getElem?_map, List.getElem?_range (by omega)]; rfl
  unfold scoreAt
  rw [e]
  exact h

theorem scoreCutoff_eq (P : List (Job S)) (hs : (P.map (fun p => p.fr.length)).Pairwise (· ≥ ·)) (T : Nat)
    (r : Nat) (p : Job S) (hp : P[r]? = some p) (hT : p.fr.length ≤ T) (neg : S) :
    scoreCutoff (allScores P T) neg ⟨p.fr.length, p.f.length, p.base, so P r, ao P r⟩ =
      some (cutOf p.f p.fr neg) := by
  unfold scoreCutoff cutOf
  by_cases h : p.f.length = 0
  · rw [if_pos h, if_pos h]
  rw [if_neg h, if_neg h]
  have h1 := (scoreAt_eq P hs T r p hp hT p.fr.length (le_refl _) 0 (by omega)).1
  have h2 := (scoreAt_eq P hs T r p hp hT p.fr.length (le_refl _) (p.f.length - 1) (by omega)).2
  simp only [Nat.add_zero] at h1
  rw [show 2 * so P r + p.f.length + (p.f.length - 1) = 2 * so P r + 2 * p.f.length - 1 by omega] at h2
  simp only [h1, h2, Option.bind_eq_bind, Option.bind_some]

theorem cutoffs_eq (P : List (Job S)) (hs : (P.map (fun p => p.fr.length)).Pairwise (· ≥ ·)) (d : DenseInit S)
    (hd : InitOk P d) (hT : ∀ p ∈ P, p.fr.length ≤ d.T) (neg : S) :
    d.infos.mapM (scoreCutoff (allScores P d.T) neg) = some (P.map (fun p => cutOf p.f p.fr neg)) := by
  apply mapM_some_of
  · rw [hd.infos, List.length_map, List.length_mapIdx]
  intro r info hi
  rw [hd.infos, List.getElem?_mapIdx, Option.map_eq_some_iff] at hi
  obtain ⟨p, hp, rfl⟩ := hi
  rw [scoreCutoff_eq P hs d.T r p hp (hT p (List.mem_of_getElem? hp)), List.getElem?_map, hp]; rfl

theorem unpack_eq (P : List (Job S)) (d : DenseInit S) (hd : InitOk P d) (T r : Nat) (p : Job S)
    (hp : P[r]? = some p) (t s : Nat) (ht : t ≤ T) (hs : s < p.f.length) :
    unpack (flat (fsasOf P)).id1 d.infos T ((T + 1) * so P r + t * p.f.length + s) =
      some (r, ⟨p.fr.length, p.f.length, p.base, so P r, ao P r⟩, t, s) := by
  have hlt := grid_lt T p.f.length t s ht hs
  have hq : ((T + 1) * so P r + t * p.f.length + s) / (T + 1) = so P r + (t * p.f.length + s) / (T + 1) := by
    rw [Nat.add_assoc, Nat.mul_add_div (by omega)]
  have hw : (t * p.f.length + s) / (T + 1) < p.f.length := Nat.div_lt_of_lt_mul hlt
  have e1 : (flat (fsasOf P)).id1[so P r + (t * p.f.length + s) / (T + 1)]? = some r :=
    flat_id1 _ r _ p.f (fsas_get P r p hp) hw
  have e2 : (T + 1) * so P r + t * p.f.length + s - (T + 1) * so P r = s + p.f.length * t := by
    rw [Nat.mul_comm p.f.length t]; omega
  unfold unpack
  simp only [hq, e1, infos_get P d hd r p hp, Option.bind_eq_bind, Option.bind_some, e2]
  rw [if_neg (by omega), Nat.add_mul_div_left _ _ (by omega), Nat.div_eq_of_lt hs, Nat.add_mul_mod_self_left,
    Nat.mod_eq_of_lt hs, Nat.zero_add]

theorem sp2_get (P : List (Job S)) (r : Nat) (p : Job S) (hp : P[r]? = some p) (s : Nat) (hs : s ≤ p.f.length) :
    (flat (fsasOf P)).sp2[so P r + s]? = some (ao P r + splits p.f s) := by
  have h1 := so_le P r p hp
  have h2 := apos_add (fsasOf P) r s p.f (fsas_get P r p hp) hs
  rw [flat_sp2 _ _ (by omega), so, h2, ao, fsasOf, List.map_map]; rfl

/-- The number of arcs of a state. -/
def arcsOf (p : Job S) (s : Nat) : Nat := (p.f.getD s []).length

theorem splits_next (f : List (List (Arc S))) (s : Nat) (hs : s < f.length) :
    splits f (s + 1) = splits f s + (f.getD s []).length := by
  rw [splits_succ f s _ (List.getElem?_eq_getElem hs), List.getD_eq_getElem?_getD, List.getElem?_eq_getElem hs]
  rfl

theorem keepState_eq (P : List (Job S)) (hs : (P.map (fun p => p.fr.length)).Pairwise (· ≥ ·)) (d : DenseInit S)
    (hd : InitOk P d) (hT : ∀ p ∈ P, p.fr.length ≤ d.T) (neg : S) (r : Nat) (p : Job S) (hp : P[r]? = some p)
    (t s : Nat) (ht : t ≤ d.T) (hsl : s < p.f.length) :
    keepState (flat (fsasOf P)) d.infos d.T (allScores P d.T) (P.map (fun p => cutOf p.f p.fr neg))
      ((d.T + 1) * so P r + t * p.f.length + s) =
      some (keepFlag neg p t s, if keepFlag neg p t s then arcsOf p s else 0) := by
  have hc : (P.map (fun p => cutOf p.f p.fr neg))[r]? = some (cutOf p.f p.fr neg) := by
    rw [List.getElem?_map, hp]; rfl
  have e1 := sp2_get P r p hp s (by omega)
  have e2 := sp2_get P r p hp (s + 1) (by omega)
  rw [← Nat.add_assoc] at e2
  unfold keepState
  simp only [unpack_eq P d hd d.T r p hp t s ht hsl, Option.bind_eq_bind, Option.bind_some, hc, e1, e2]
  by_cases h : t ≤ p.fr.length
  · have hm := hT p (List.mem_of_getElem? hp)
    have f1 := (scoreAt_eq P hs d.T r p hp hm t h s hsl).2
    have f2 := (scoreAt_eq P hs d.T r p hp hm (p.fr.length - t) (by omega) s hsl).1
    rw [Nat.add_right_comm] at f1
    rw [if_pos h]
    simp only [f1, f2, Option.bind_some]
    rw [splits_next p.f s hsl]
    simp only [keepFlag, h, decide_true, Bool.true_and, stFlag, arcsOf]
    congr 3
    omega
  · rw [if_neg h]
    simp [keepFlag, h]

/-- The number of states that a beam keeps. -/
def keptStates (P : List (Job S)) (neg : S) : Nat := (KK P neg).flatten.flatten.length

/-- The number of arcs that leave them. -/
def keptArcs (P : List (Job S)) (neg : S) : Nat :=
  ((P.map (fun p => ((List.range (p.fr.length + 1)).map
    (fun t => ((kept neg p t).map (arcsOf p)).sum)).sum))).sum

/-- The beam that the loop ends with. -/
def beamOf (P : List (Job S)) (dec : S → Nat → Nat → S) (maxStates maxArcs : Nat) : Nat → S → Option S
  | 0, _ => none
  | fuel + 1, neg =>
    if maxStates < keptStates P neg then
      beamOf P dec maxStates maxArcs fuel (dec neg maxStates (keptStates P neg))
    else if maxArcs < keptArcs P neg then
      beamOf P dec maxStates maxArcs fuel (dec neg maxArcs (keptArcs P neg))
    else some neg

theorem sel_sum (k : List Bool) (l : List Nat) (h : k.length = l.length) :
    (List.zipWith (fun b x => if b then x else 0) k l).sum = (sel k l).sum := by
  induction k generalizing l with
  | nil => rfl
  | cons b k ih =>
    cases l with
    | nil => simp at h
    | cons x l =>
      have := ih l (by simpa using h)
      cases b <;> simp [sel, this]

theorem flags_count (P : List (Job S)) (T : Nat) (neg : S) (hT : ∀ p ∈ P, p.fr.length ≤ T) :
    ((allFlags P T neg).filter id).length = keptStates P neg := by
  have h1 := sel_length_filter (allFlags P T neg) (allGrid P T (fun _ _ _ s => s)) (by
    rw [allFlags, allGrid_length, allGrid_length])
  rw [sel_allGrid P T neg hT, nest3_length] at h1
  exact h1.symm

theorem arcs_count (P : List (Job S)) (T : Nat) (neg : S) (hT : ∀ p ∈ P, p.fr.length ≤ T) :
    (allGrid P T (fun _ p t s => if keepFlag neg p t s then arcsOf p s else 0)).sum = keptArcs P neg := by
  have h1 : allGrid P T (fun _ p t s => if keepFlag neg p t s then arcsOf p s else 0) =
      List.zipWith (fun b x => if b then x else 0) (allFlags P T neg) (allGrid P T (fun _ p _ s => arcsOf p s)) := by
    apply List.ext_getElem?
    intro i
    by_cases hi : i < (T + 1) * (fsasOf P).flatten.length
    · obtain ⟨r, p, t, s, hp, ht, hs, rfl⟩ := grid_pos P T _ hi
      rw [List.getElem?_zipWith, allFlags, allGrid_get P T _ r p hp t s ht hs, allGrid_get P T _ r p hp t s ht hs,
        allGrid_get P T _ r p hp t s ht hs]
    · rw [List.getElem?_eq_none (by rw [allGrid_length]; omega), List.getElem?_eq_none (by
        rw [List.length_zipWith, allFlags, allGrid_length, allGrid_length]; omega)]
  rw [h1, sel_sum _ _ (by rw [allFlags, allGrid_length, allGrid_length]), sel_allGrid P T neg hT, keptArcs,
    List.sum_flatten, List.map_flatten, List.sum_flatten, List.map_map]
  congr 1
  apply List.ext_getElem?
  intro r
  rw [List.getElem?_map, nest3, List.getElem?_mapIdx, List.getElem?_map]
  cases P[r]? with
  | none => rfl
  | some p => simp [Function.comp_def]

theorem beamLoop_eq (P : List (Job S)) (hs : (P.map (fun p => p.fr.length)).Pairwise (· ≥ ·)) (d : DenseInit S)
    (hd : InitOk P d) (hT : ∀ p ∈ P, p.fr.length ≤ d.T) (dec : S → Nat → Nat → S) (maxStates maxArcs : Nat)
    (fuel : Nat) (neg : S) :
    beamLoop (flat (fsasOf P)) d.infos d.T (allScores P d.T) dec maxStates maxArcs fuel neg =
      (beamOf P dec maxStates maxArcs fuel neg).map
        (fun neg => (P.map (fun p => cutOf p.f p.fr neg), allFlags P d.T neg)) := by
  induction fuel generalizing neg with
  | zero => rfl
  | succ fuel ih =>
    have hn : (flat (fsasOf P)).sp2.length - 1 = (fsasOf P).flatten.length := by
      change (psum ((fsasOf P).flatten.map List.length)).length - 1 = _
      rw [psum_length, List.length_map]; omega
    have hk := mapM_grid P d.T (fun _ p t s => (keepFlag neg p t s, if keepFlag neg p t s then arcsOf p s else 0))
      (keepState (flat (fsasOf P)) d.infos d.T (allScores P d.T) (P.map (fun p => cutOf p.f p.fr neg)))
      (fun r p t s hp ht hsl => keepState_eq P hs d hd hT neg r p hp t s ht hsl)
    unfold beamLoop beamOf
    simp only [cutoffs_eq P hs d hd hT neg, hn, hk, Option.bind_eq_bind, Option.bind_some, allGrid_map]
    have e1 : ((allGrid P d.T (fun r p t s => keepFlag neg p t s)).filter id).length = keptStates P neg :=
      flags_count P d.T neg hT
    simp only [e1, arcs_count P d.T neg hT, ih]
    split
    · rfl
    · split <;> rfl

end Verif.Fsa.Dn
