import Verif.Ragged.IndexLemmas

/-!
# C06: `Index` along axis 0 selects sub-lists

Specification: on the nested list, entry `i` of the index vector selects sub-list `i`, and -1
selects the empty list.
-/

namespace Verif.Ragged
open Verif.Util
variable {α : Type}

/-- The sub-lists selected by an index vector. -/
def pick (T : List (List α)) (idx : List Int) : List (List α) :=
  idx.map (fun i => if i = -1 then [] else (T[i.toNat]?).getD [])

/-- The row_splits and the row_ids of a nested list. -/
def fullLayers (n : Nat) (T : List (Nest α n)) : List (List Nat × List Nat) :=
  (layersOf n T).map (fun rs => (rs, rowSplitsToRowIdsGpu rs (rs.getLastD 0)))

theorem fullLayers_succ (n : Nat) (T : List (List (Nest α n))) :
    fullLayers (n + 1) (T : List (Nest α (n + 1))) =
      (psum (T.map List.length), idsFrom 0 (T.map List.length)) :: fullLayers n T.flatten := by
  have h := rowSplitsToRowIds_gpu (psum (T.map List.length)) (validSplits_psum _)
    (T.map List.length).sum (psum_last _)
  rw [rowSplitsToRowIds_psum] at h
  have h' := Option.some.inj h
  simp only [fullLayers, layersOf, List.map_cons]
  rw [psum_getLastD, h']

theorem indexGo_eq (n : Nat) (T : List (Nest α n)) (jobs : List (Nat × Nat))
    (h : JobsIn jobs T.length) :
    ∃ elems, indexGo (layersOf n T) jobs = some (fullLayers n (selected T jobs), elems) ∧
      elems.map (fun e => (valuesOf n T)[e]?) = (valuesOf n (selected T jobs)).map some := by
  induction n generalizing jobs with
  | zero =>
    refine ⟨selected (List.range T.length) jobs, ?_, ?_⟩
    · simp only [layersOf, indexGo, indexElems_eq jobs T.length h]
      rfl
    · show (selected (List.range T.length) jobs).map (fun e => T[e]?) = (selected T jobs).map some
      unfold selected
      rw [List.map_flatMap, List.map_flatMap]
      apply List.flatMap_congr
      intro p hp
      have hin := h p hp
      apply List.ext_getElem?
      intro k
      rw [List.getElem?_map, List.getElem?_map]
      by_cases hk : k < p.2 - p.1
      · rw [slice_get _ _ _ _ hk, slice_get _ _ _ _ hk, List.getElem?_range (by omega)]
        simp only [Option.map_some]
        rw [List.getElem?_eq_getElem (by omega)]
        rfl
      · rw [List.getElem?_eq_none (by rw [slice_length _ _ _ hin.1 (by simpa using hin.2)]; omega),
          List.getElem?_eq_none (by rw [slice_length _ _ _ hin.1 hin.2]; omega)]
        rfl
  | succ n ih =>
    have key : ∀ T : List (List (Nest α n)), JobsIn jobs T.length →
        ∃ elems, indexGo (psum (T.map List.length) :: layersOf n T.flatten) jobs =
          some ((psum ((selected T jobs).map List.length),
            idsFrom 0 ((selected T jobs).map List.length)) ::
            fullLayers n (selected T jobs).flatten, elems) ∧
          elems.map (fun e => (valuesOf n T.flatten)[e]?) =
            (valuesOf n (selected T jobs).flatten).map some := by
      intro T h
      obtain ⟨elems, h1, h2⟩ := ih T.flatten (elemJobs T jobs) (elemJobs_in T jobs h)
      rw [selected_flatten T jobs h] at h1 h2
      refine ⟨elems, ?_, h2⟩
      simp only [indexGo, nextJobs_eq T jobs h, indexSplits_eq T jobs h, psum_getLastD,
        rowSplitsToRowIds_psum, indexIds_eq T jobs h, h1, Option.bind_eq_bind, Option.bind_some]
    obtain ⟨elems, h1, h2⟩ := key T h
    refine ⟨elems, ?_, h2⟩
    have := fullLayers_succ n (selected T jobs)
    exact h1.trans (congrArg (fun l => some (l, elems)) this.symm)

theorem selected_jobs0 (T : List (List α)) (idx : List Int)
    (h : ∀ i ∈ idx, -1 ≤ i ∧ i < T.length) :
    JobsIn (jobs0 idx) T.length ∧ (selected T (jobs0 idx)).flatten = (pick T idx).flatten ∧
      sizes (elemJobs T (jobs0 idx)) = (pick T idx).map List.length := by
  refine ⟨?_, ?_, ?_⟩
  · intro p hp
    obtain ⟨i, hi, rfl⟩ := List.mem_map.mp hp
    have := h i hi
    split <;> simp only <;> omega
  · unfold selected jobs0 pick
    induction idx with
    | nil => rfl
    | cons i idx ih =>
      have hi := h i (by simp)
      rw [List.map_cons, List.map_cons, List.flatMap_cons, List.flatten_append, List.flatten_cons,
        ih (fun k hk => h k (by simp [hk]))]
      congr 1
      split
      · simp [slice]
      · next hne =>
        have hlt : i.toNat < T.length := by omega
        rw [List.getElem?_eq_getElem hlt]
        simp only [slice, Nat.add_sub_cancel_left, Option.getD_some]
        rw [List.drop_eq_getElem_cons hlt, List.take_succ_cons]
        simp
  · unfold sizes elemJobs jobs0 pick
    rw [List.map_map, List.map_map, List.map_map]
    apply List.map_congr_left
    intro i hi
    have hi := h i hi
    simp only [Function.comp_apply]
    split
    · simp
    · next hne =>
      have hlt : i.toNat < T.length := by omega
      rw [List.getElem?_eq_getElem hlt]
      simp only [List.take_add_one, List.getElem?_map, List.getElem?_eq_getElem hlt,
        Option.map_some, List.sum_append, Option.getD_some]
      simp

/-- **C06.** For every nested list (any depth) and every index vector with entries in
[-1, dim0), `Index` along axis 0 returns the row_splits and the row_ids of the list of the
selected sub-lists, and `elem_indexes` holds the positions of the selected values. -/
theorem index_axis0 (n : Nat) (T : List (Nest α (n + 1))) (idx : List Int)
    (h : ∀ i ∈ idx, -1 ≤ i ∧ i < T.length) :
    ∃ elems, indexAxis0 (layersOf (n + 1) T) idx =
        some (fullLayers (n + 1) (pick (α := Nest α n) T idx), elems) ∧
      elems.map (fun e => (valuesOf (n + 1) T)[e]?) =
        (valuesOf (n + 1) (pick (α := Nest α n) T idx)).map some := by
  by_cases h0 : idx.length = 0
  · have : idx = [] := List.eq_nil_of_length_eq_zero h0
    subst this
    refine ⟨[], ?_, ?_⟩
    · have key : ∀ (n : Nat) (T : List (Nest α n)),
          (layersOf n T).map (fun _ => (([0] : List Nat), ([] : List Nat))) =
            fullLayers n ([] : List (Nest α n)) := by
        intro n
        induction n with
        | zero => intro T; rfl
        | succ n ih =>
          intro T
          have := fullLayers_succ (α := α) n []
          rw [show fullLayers (n + 1) ([] : List (Nest α (n + 1))) = _ from this]
          simp only [layersOf, List.map_cons, List.map_nil, List.flatten_nil]
          rw [ih]
          rfl
      unfold indexAxis0
      rw [if_pos h0, key]
      rfl
    · have key : ∀ n : Nat, valuesOf n ([] : List (Nest α n)) = [] := by
        intro n
        induction n with
        | zero => rfl
        | succ n ih => exact ih
      show [] = (valuesOf (n + 1) ([] : List (Nest α (n + 1)))).map some
      rw [key]; rfl
  · have key : ∀ T : List (List (Nest α n)), (∀ i ∈ idx, -1 ≤ i ∧ i < T.length) →
        ∃ elems, indexAxis0 (psum (T.map List.length) :: layersOf n T.flatten) idx =
          some ((psum ((pick T idx).map List.length), idsFrom 0 ((pick T idx).map List.length)) ::
            fullLayers n (pick T idx).flatten, elems) ∧
          elems.map (fun e => (valuesOf n T.flatten)[e]?) =
            (valuesOf n (pick T idx).flatten).map some := by
      intro T h
      obtain ⟨g1, g2, g3⟩ := selected_jobs0 T idx h
      obtain ⟨elems, e1, e2⟩ := indexGo_eq n T.flatten (elemJobs T (jobs0 idx))
        (elemJobs_in T _ g1)
      rw [selected_flatten T _ g1, g2] at e1 e2
      refine ⟨elems, ?_, e2⟩
      unfold indexAxis0
      rw [if_neg h0]
      simp only [nextJobs_eq T _ g1, g3, rowSplitsToRowIds_psum, e1, Option.bind_eq_bind,
        Option.bind_some]
    obtain ⟨elems, e1, e2⟩ := key T h
    refine ⟨elems, ?_, e2⟩
    have := fullLayers_succ n (pick (α := Nest α n) T idx)
    exact e1.trans (congrArg (fun l => some (l, elems)) this.symm)

/-- The positions in `elem_indexes` are exactly those of the selected elements: taking as values
the positions themselves, the answer's values are `elem_indexes`. -/
theorem index_axis0_elems (n : Nat) (T : List (Nest Nat (n + 1))) (idx : List Int)
    (h : ∀ i ∈ idx, -1 ≤ i ∧ i < T.length)
    (hv : valuesOf (n + 1) T = List.range (valuesOf (n + 1) T).length) :
    ∃ r, indexAxis0 (layersOf (n + 1) T) idx =
      some (r, valuesOf (n + 1) (pick (α := Nest Nat n) T idx)) := by
  obtain ⟨elems, h1, h2⟩ := index_axis0 n T idx h
  suffices he : elems = valuesOf (n + 1) (pick (α := Nest Nat n) T idx) by
    exact ⟨_, by rw [← he]; exact h1⟩
  apply (List.map_inj_right (fun _ _ h => Option.some.inj h)).mp
  rw [← h2]
  apply List.map_congr_left
  intro e he
  have hsome : ∃ v, (valuesOf (n + 1) T)[e]? = some v := by
    have : (valuesOf (n + 1) T)[e]? ∈ elems.map (fun e => (valuesOf (n + 1) T)[e]?) :=
      List.mem_map.mpr ⟨e, he, rfl⟩
    rw [h2] at this
    obtain ⟨v, _, hv⟩ := List.mem_map.mp this
    exact ⟨v, hv.symm⟩
  obtain ⟨v, hv'⟩ := hsome
  have hlt := (List.getElem?_eq_some_iff.mp hv').1
  rw [hv, List.getElem?_range hlt]

/-! A shape with three axes, an index vector with a repeat and a -1. -/

def indexExample : List (Nest Nat 2) :=
  ([[[1, 2], []], [], [[3], [4, 5, 6]]] : List (List (List Nat)))

example : indexAxis0 (layersOf 2 indexExample) [2, -1, 2, 0] =
    some ([([0, 2, 2, 4, 6], [0, 0, 2, 2, 3, 3]), ([0, 1, 4, 5, 8, 10, 10], [0, 1, 1, 1, 2, 3, 3, 3, 4, 4])],
      [2, 3, 4, 5, 2, 3, 4, 5, 0, 1]) := by decide

example : ∀ i ∈ ([2, -1, 2, 0] : List Int), -1 ≤ i ∧ i < indexExample.length := by decide

end Verif.Ragged
