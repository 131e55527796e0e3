import Verif.Fsa.Dense.Format

/-!
# `FormatOutput`
-/

set_option linter.unusedSectionVars false

namespace Verif.Fsa.Dn
open Verif.Ragged Verif.Util Verif.Fsa.Sco Verif.Fsa.Best
variable {K : Type} [AddCommGroup K] [LinearOrder K] [IsOrderedAddMonoid K]

local notation "S" => WithBot K

/-- What `ansState` computes. -/
def stVal (P : List (Job S)) (neg : S) (r : Nat) (p : Job S) (t s : Nat) : Nat × Nat × Nat :=
  (off (KK P neg) r + t, so P r + s, if t = p.fr.length then 0 else arcsOf p s)

theorem ansState_eq (P : List (Job S)) (d : DenseInit S) (hd : InitOk P d) (neg : S) (r : Nat) (p : Job S)
    (hp : P[r]? = some p) (t s : Nat) (ht : t ≤ d.T) (hsl : s < p.f.length) :
    ansState (flat (fsasOf P)) d.infos d.T (psum ((KK P neg).map List.length))
      ((d.T + 1) * so P r + t * p.f.length + s) = some (stVal P neg r p t s) := by
  have hrl := (List.getElem?_eq_some_iff.mp hp).1
  have e0 : (psum ((KK P neg).map List.length))[r]? = some (off (KK P neg) r) :=
    psum_get _ r (by simp [KK]; omega)
  have e1 := sp2_get P r p hp s (by omega)
  have e2 := sp2_get P r p hp (s + 1) (by omega)
  rw [← Nat.add_assoc] at e2
  unfold ansState
  simp only [unpack_eq P d hd d.T r p hp t s ht hsl, Option.bind_eq_bind, Option.bind_some, e0, e1, e2]
  rw [splits_next p.f s hsl, stVal, arcsOf, show ao P r + (splits p.f s + (p.f.getD s []).length) -
    (ao P r + splits p.f s) = (p.f.getD s []).length by omega]

/-- The values of the states of the result. -/
def stList (P : List (Job S)) (neg : S) : List (Nat × Nat × Nat) := (nest3 P neg (stVal P neg)).flatten.flatten

theorem states_eq (P : List (Job S)) (d : DenseInit S) (hd : InitOk P d) (hT : ∀ p ∈ P, p.fr.length ≤ d.T)
    (neg : S) :
    (sel (allFlags P d.T neg) (List.range (allFlags P d.T neg).length)).mapM
      (ansState (flat (fsasOf P)) d.infos d.T (psum ((KK P neg).map List.length))) = some (stList P neg) := by
  rw [stList, ← sel_allGrid P d.T neg hT]
  refine mapM_sel _ _ _ _ (by simp) (by rw [allFlags, allGrid_length, allGrid_length]) ?_
  intro i j hi hj
  have hil := (List.getElem?_eq_some_iff.mp hi).1
  rw [List.getElem?_range hil] at hj
  obtain rfl := Option.some.inj hj
  rw [allFlags, allGrid_length] at hil
  obtain ⟨r, p, t, s, hp, ht, hs, rfl⟩ := grid_pos P d.T _ hil
  rw [ansState_eq P d hd neg r p hp t s ht hs, allGrid_get P d.T _ r p hp t s ht hs]

theorem nest3_map {X Y : Type} (P : List (Job S)) (neg : S) (val : Nat → Job S → Nat → Nat → X) (q : X → Y) :
    (nest3 P neg val).flatten.flatten.map q = (nest3 P neg (fun r p t s => q (val r p t s))).flatten.flatten := by
  refine nest3_ext P neg _ _ (by rw [List.length_map, nest3_length]) ?_
  intro r p t s hp ht hs
  rw [List.getElem?_map, nest3_get P neg val r p hp t s ht hs]; rfl

theorem id2_eq (P : List (Job S)) (neg : S) :
    (stList P neg).map Prod.fst = idsFrom 0 ((KK P neg).flatten.map List.length) := by
  rw [stList, nest3_map]
  symm
  refine nest3_ext P neg _ _ (by rw [idsFrom_length, List.length_flatten]) ?_
  intro r p t s hp ht hs
  rw [gnum_eq P neg r p hp t s ht]
  refine ids_at ((KK P neg).flatten.map List.length) (off (KK P neg) r + t) (kept neg p t).length _ ?_
    (List.idxOf_lt_length_of_mem hs)
  rw [List.getElem?_map, KK_state P neg r p hp t ht]; rfl

/-! ## Candidate arcs -/

/-- The flags of the arcs of a state. -/
def fRow (neg : S) (p : Job S) (t s : Nat) : List Bool :=
  if t < p.fr.length then (p.f.getD s []).map (arcFlag p.f p.fr (cutOf p.f p.fr neg) t) else []

/-- The entries of the arcs of a state. -/
def eRow (P : List (Job S)) (neg : S) (stride r : Nat) (p : Job S) (t s : Nat) : List (Arc S × Nat × Nat) :=
  if t < p.fr.length then ((p.f.getD s []).zipIdx (splits p.f s)).map (fun x =>
    let y := outEntry p.f p.fr (cutOf p.f p.fr neg) p.base stride t s x
    (y.1, ao P r + y.2.1, y.2.2)) else []

/-- The entries that are kept. -/
def oRow (P : List (Job S)) (neg : S) (stride r : Nat) (p : Job S) (t s : Nat) : List (Arc S × Nat × Nat) :=
  (outRow p.f p.fr (cutOf p.f p.fr neg) p.base stride t s).map (fun y => (y.1, ao P r + y.2.1, y.2.2))

/-- The flags of all candidates. -/
def F3 (P : List (Job S)) (neg : S) : List (List Bool) := (nest3 P neg (fun _ p => fRow neg p)).flatten.flatten

/-- The entries of all candidates. -/
def E3 (P : List (Job S)) (neg : S) (stride : Nat) : List (List (Arc S × Nat × Nat)) :=
  (nest3 P neg (eRow P neg stride)).flatten.flatten

/-- The entries of the result. -/
def O3 (P : List (Job S)) (neg : S) (stride : Nat) : List (List (Arc S × Nat × Nat)) :=
  (nest3 P neg (oRow P neg stride)).flatten.flatten

theorem nest3_congr {X : Type} (P : List (Job S)) (neg : S) (v w : Nat → Job S → Nat → Nat → X)
    (h : ∀ r p t s, P[r]? = some p → t ≤ p.fr.length → s ∈ kept neg p t → v r p t s = w r p t s) :
    (nest3 P neg v).flatten.flatten = (nest3 P neg w).flatten.flatten := by
  refine nest3_ext P neg _ _ (nest3_length P neg v) ?_
  intro r p t s hp ht hs
  rw [nest3_get P neg v r p hp t s ht hs, h r p t s hp ht hs]

theorem lens_eq (P : List (Job S)) (neg : S) : (stList P neg).map (fun x => x.2.2) = (F3 P neg).map List.length := by
  rw [stList, F3, nest3_map, nest3_map]
  apply nest3_congr
  intro r p t s hp ht hs
  simp only [stVal, fRow, arcsOf]
  by_cases h : t = p.fr.length
  · rw [if_pos h, if_neg (by omega)]; rfl
  · rw [if_neg h, if_pos (by omega), List.length_map]

theorem eLens (P : List (Job S)) (neg : S) (stride : Nat) :
    (F3 P neg).map List.length = (E3 P neg stride).map List.length := by
  rw [F3, E3, nest3_map, nest3_map]
  apply nest3_congr
  intro r p t s hp ht hs
  simp only [fRow, eRow]
  split <;> simp

theorem zipWith_nest3 {X Y Z : Type} (P : List (Job S)) (neg : S) (v : Nat → Job S → Nat → Nat → X)
    (w : Nat → Job S → Nat → Nat → Y) (q : X → Y → Z) :
    List.zipWith q (nest3 P neg v).flatten.flatten (nest3 P neg w).flatten.flatten =
      (nest3 P neg (fun r p t s => q (v r p t s) (w r p t s))).flatten.flatten := by
  refine nest3_ext P neg _ _ (by rw [List.length_zipWith, nest3_length, nest3_length, Nat.min_self]) ?_
  intro r p t s hp ht hs
  rw [List.getElem?_zipWith, nest3_get P neg v r p hp t s ht hs, nest3_get P neg w r p hp t s ht hs]

theorem sel_rows (P : List (Job S)) (neg : S) (stride : Nat) :
    List.zipWith sel (F3 P neg) (E3 P neg stride) = O3 P neg stride := by
  rw [F3, E3, O3, zipWith_nest3]
  apply nest3_congr
  intro r p t s hp ht hs
  simp only [fRow, eRow, oRow, outRow]
  split
  · rw [← sel_map, List.map_map]
    have e : (p.f.getD s []).map (arcFlag p.f p.fr (cutOf p.f p.fr neg) t) =
        ((p.f.getD s []).zipIdx (splits p.f s)).map (fun x => arcFlag p.f p.fr (cutOf p.f p.fr neg) t x.1) := by
      conv_lhs => rw [← List.zipIdx_map_fst (splits p.f s) (p.f.getD s [])]
      rw [List.map_map]; rfl
    rw [e, sel_filter]; rfl
  · rfl

theorem sel_ids (F : List (List Bool)) (r : Nat) :
    sel F.flatten (idsFrom r (F.map List.length)) = idsFrom r (F.map (fun row => (row.filter id).length)) := by
  induction F generalizing r with
  | nil => rfl
  | cons row F ih =>
    rw [List.map_cons, List.map_cons, List.flatten_cons, idsFrom, idsFrom, sel_append _ _ _ _ (by simp), ih]
    congr 1
    have := sel_replicate id row r
    rwa [List.map_id] at this

theorem oLens (P : List (Job S)) (neg : S) (stride : Nat) :
    (F3 P neg).map (fun row => (row.filter id).length) = (O3 P neg stride).map List.length := by
  rw [← sel_rows, List.map_zipWith]
  apply List.ext_getElem?
  intro i
  rw [List.getElem?_map, List.getElem?_zipWith]
  have h := congrArg (fun l => l[i]?) (eLens P neg stride)
  simp only [List.getElem?_map] at h
  cases hF : (F3 P neg)[i]? with
  | none => rfl
  | some a =>
    cases hE : (E3 P neg stride)[i]? with
    | none => rw [hF, hE] at h; simp at h
    | some e =>
      rw [hF, hE] at h
      simp only [Option.map_some, Option.some.injEq] at h ⊢
      exact (sel_length_filter a e h).symm

end Verif.Fsa.Dn
