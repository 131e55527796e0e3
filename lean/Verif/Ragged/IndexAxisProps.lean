import Verif.Ragged.IndexAxisModel
import Verif.Ragged.UniqueProps
import Verif.Util.Ragged

/-!
# C06: `Index` along any axis; removing values
-/

namespace Verif.Ragged
variable {X Y : Type} {α : Type}

/-! ## Specification -/

/-- The positions, in the concatenation of the rows, of the elements with numbers `R` in their rows. -/
def globalIdx : Nat → List (List X) → List (List Nat) → List Nat
  | s, row :: V, is :: R => is.map (s + ·) ++ globalIdx (s + row.length) V R
  | _, _, _ => []

/-- From each row the elements with the given numbers, in the given order. -/
def picks : List (List X) → List (List Nat) → List (List X)
  | row :: V, is :: R => is.filterMap (fun i => row[i]?) :: picks V R
  | _, _ => []

/-- There is one list of numbers for each row, and they are in range. -/
def InRows (V : List (List X)) (R : List (List Nat)) : Prop :=
  List.Forall₂ (fun row is => ∀ i ∈ is, i < row.length) V R

/-! ## Lemmas -/

theorem picks_row (row : List X) (is : List Nat) (h : ∀ i ∈ is, i < row.length) :
    (is.filterMap (fun i => row[i]?)).map some = is.map (fun i => row[i]?) := by
  induction is with
  | nil => rfl
  | cons i is ih =>
    have h1 := h i (List.mem_cons_self ..)
    rw [List.filterMap_cons, List.getElem?_eq_getElem h1, List.map_cons, List.map_cons,
      ih (fun x hx => h x (List.mem_cons_of_mem _ hx)), List.getElem?_eq_getElem h1]

theorem picks_row_length (row : List X) (is : List Nat) (h : ∀ i ∈ is, i < row.length) :
    (is.filterMap (fun i => row[i]?)).length = is.length := by
  have := congrArg List.length (picks_row row is h)
  simpa using this

theorem picks_lengths (V : List (List X)) (R : List (List Nat)) (h : InRows V R) :
    (picks V R).map List.length = R.map List.length := by
  induction h with
  | nil => rfl
  | cons h1 h2 ih => rw [picks, List.map_cons, List.map_cons, ih, picks_row_length _ _ h1]

theorem globalIdx_lt (V : List (List X)) (R : List (List Nat)) (h : InRows V R) : ∀ (s : Nat),
    ∀ i ∈ globalIdx s V R, s ≤ i ∧ i < s + V.flatten.length := by
  induction h with
  | nil => intro s i hi; simp [globalIdx] at hi
  | @cons row is V R h1 h2 ih =>
    intro s i hi
    rw [globalIdx, List.mem_append] at hi
    rw [List.flatten_cons, List.length_append]
    rcases hi with hi | hi
    · obtain ⟨j, hj, rfl⟩ := List.mem_map.mp hi
      have := h1 j hj
      omega
    · have := ih _ i hi
      omega

theorem globalIdx_length (V : List (List X)) (R : List (List Nat)) (h : InRows V R) (s : Nat) :
    (globalIdx s V R).length = R.flatten.length := by
  induction h generalizing s with
  | nil => rfl
  | @cons row is V R h1 h2 ih => rw [globalIdx, List.length_append, List.length_map, ih, List.flatten_cons, List.length_append]

theorem globalIdx_elems (V : List (List X)) (R : List (List Nat)) (h : InRows V R) : ∀ pre : List X,
    (globalIdx pre.length V R).map (fun i => (pre ++ V.flatten)[i]?) = (picks V R).flatten.map some := by
  induction h with
  | nil => intro pre; rfl
  | @cons row is V R h1 h2 ih =>
    intro pre
    have := ih (pre ++ row)
    rw [List.length_append, List.append_assoc] at this
    rw [globalIdx, List.map_append, List.flatten_cons, this, picks, List.flatten_cons, List.map_append,
      picks_row _ _ h1, List.map_map]
    congr 1
    apply List.map_congr_left
    intro i hi
    have h3 := h1 i hi
    rw [Function.comp_apply, List.getElem?_append_right (by omega), Nat.add_sub_cancel_left,
      List.getElem?_append_left h3]

theorem globalIdx_ids (V : List (List X)) (R : List (List Nat)) (h : InRows V R) : ∀ (pre : List Nat) (r : Nat),
    (globalIdx pre.length V R).map (fun i => (pre ++ idsFrom r (V.map List.length))[i]?) =
      (idsFrom r (R.map List.length)).map some := by
  induction h with
  | nil => intro pre r; rfl
  | @cons row is V R h1 h2 ih =>
    intro pre r
    have := ih (pre ++ List.replicate row.length r) (r + 1)
    rw [List.length_append, List.length_replicate, List.append_assoc] at this
    rw [globalIdx, List.map_append, List.map_cons, List.map_cons, idsFrom, idsFrom, this, List.map_append,
      List.map_map]
    congr 1
    rw [List.map_replicate, List.eq_replicate_iff]
    refine ⟨by rw [List.length_map], ?_⟩
    intro b hb
    obtain ⟨i, hi, rfl⟩ := List.mem_map.mp hb
    have h3 := h1 i hi
    rw [Function.comp_apply, List.getElem?_append_right (by omega), Nat.add_sub_cancel_left,
      List.getElem?_append_left (by rw [List.length_replicate]; exact h3), List.getElem?_replicate, if_pos h3]

theorem mapM_of_map {f : X → Option Y} : ∀ {l : List X} {out : List Y}, l.map f = out.map some → l.mapM f = some out := by
  intro l out e
  apply Util.mapM_some_of
  · have := congrArg List.length e
    simpa using this.symm
  · intro i b hb
    have := congrArg (fun l => l[i]?) e
    simp only [List.getElem?_map, hb, Option.map_some] at this
    cases h : out[i]? with
    | none => rw [h] at this; simp at this
    | some v => rw [h] at this; simpa using this

theorem indexLast_rows (V : List (List X)) (R : List (List Nat)) (h : InRows V R) :
    indexLast (psum (V.map List.length), idsFrom 0 (V.map List.length)) (globalIdx 0 V R) =
      some (psum ((picks V R).map List.length), idsFrom 0 ((picks V R).map List.length)) := by
  have hg : gather (idsFrom 0 (V.map List.length)) (globalIdx 0 V R) = some (idsFrom 0 (R.map List.length)) := by
    unfold gather
    apply mapM_of_map
    exact globalIdx_ids V R h [] 0
  have hs := rowIdsToRowSplits_idsFrom (R.map List.length)
  have hl : V.length = R.length := h.length_eq
  unfold indexLast
  simp only [Option.bind_eq_bind, hg, Option.bind_some]
  rw [show (psum (V.map List.length)).length - 1 = (R.map List.length).length by
    rw [psum_length, List.length_map, List.length_map, hl, Nat.add_sub_cancel], hs, picks_lengths V R h]
  rfl

/-! ## Theorems -/

/-- **C06.** `Index` along the last axis: from each row the elements with the given numbers. -/
theorem index_axis_last (pre : Shape) (V : List (List X)) (R : List (List Nat)) (h : InRows V R) :
    indexRagged (pre ++ [(psum (V.map List.length), idsFrom 0 (V.map List.length))]) V.flatten (pre.length + 1)
        (globalIdx 0 V R) =
      some (pre ++ [(psum ((picks V R).map List.length), idsFrom 0 ((picks V R).map List.length))],
        (picks V R).flatten, globalIdx 0 V R) := by
  have hv := mapM_of_map (globalIdx_elems V R h [])
  have hi := indexLast_rows V R h
  unfold indexRagged indexAxis
  rw [if_neg (by simp), if_neg (by omega), if_pos (by simp)]
  simp only [Nat.add_sub_cancel, List.getElem?_append_right (Nat.le_refl _), Nat.sub_self, List.getElem?_cons_zero,
    Option.bind_eq_bind, Option.bind_some, hi, List.take_left]
  rw [show (globalIdx 0 V R).mapM (fun e => V.flatten[e]?) = _ from hv]
  rfl

/-- **C06.** `Index` along an axis in the middle: from each list on the axis above the sub-lists with the given
numbers.  `pre` are the layers above. -/
theorem index_axis_middle (n : Nat) (pre : Shape) (V : List (List (Nest α (n + 1)))) (R : List (List Nat))
    (h : InRows V R) :
    ∃ elems, indexRagged (pre ++ (psum (V.map List.length), idsFrom 0 (V.map List.length)) :: fullLayers (n + 1) V.flatten)
        (valuesOf (n + 1) V.flatten) (pre.length + 1) (globalIdx 0 V R) =
      some (pre ++ (psum ((picks V R).map List.length), idsFrom 0 ((picks V R).map List.length)) ::
          fullLayers (n + 1) (picks V R).flatten,
        valuesOf (n + 1) (picks V R).flatten, elems) ∧
      elems.map (fun e => (valuesOf (n + 1) V.flatten)[e]?) = (valuesOf (n + 1) (picks V R).flatten).map some := by
  have hi := indexLast_rows V R h
  have hlt := globalIdx_lt V R h 0
  obtain ⟨elems, e1, e2⟩ := index_axis0 (α := α) n V.flatten ((globalIdx 0 V R).map (fun n : Nat => (n : Int))) (by
    intro i hi
    obtain ⟨a, ha, rfl⟩ := List.mem_map.mp hi
    have := (hlt a ha).2
    omega)
  have hpick : pick (α := Nest α n) V.flatten ((globalIdx 0 V R).map (fun n : Nat => (n : Int))) = (picks V R).flatten := by
    have h1 := globalIdx_elems V R h []
    apply List.map_injective_iff.mpr (Option.some_injective _)
    rw [← h1, pick, List.map_map, List.map_map]
    apply List.map_congr_left
    intro a ha
    have := (hlt a ha).2
    rw [Nat.zero_add] at this
    simp only [Function.comp_apply, List.nil_append]
    rw [if_neg (by omega), Int.toNat_natCast, List.getElem?_eq_getElem this]
    rfl
  rw [hpick] at e1 e2
  refine ⟨elems, ?_, e2⟩
  have hv := mapM_of_map e2
  have hl : (fullLayers (n + 1) V.flatten).map Prod.fst = layersOf (n + 1) V.flatten := by
    unfold fullLayers; rw [List.map_map]; simp [Function.comp_def]
  have hlen : (fullLayers (n + 1) V.flatten).length = n + 1 := fullLayers_length _ _
  unfold indexRagged indexAxis
  rw [if_neg (by simp), if_neg (by omega), if_neg (by rw [List.length_append, List.length_cons, hlen]; omega)]
  have hd : (pre ++ (psum (V.map List.length), idsFrom 0 (V.map List.length)) :: fullLayers (n + 1) V.flatten).drop
      (pre.length + 1) = fullLayers (n + 1) V.flatten := by
    rw [List.drop_append, List.drop_of_length_le (by omega), Nat.add_sub_cancel_left]; rfl
  simp only [Nat.add_sub_cancel, List.getElem?_append_right (Nat.le_refl _), Nat.sub_self, List.getElem?_cons_zero,
    Option.bind_eq_bind, Option.bind_some, hi, List.take_left, hd, hl, e1, hv]

/-- The elements of one row with flag true. -/
theorem subsetLast_rows (pre : Shape) (p : X → Bool) (V : List (List X)) :
    subsetLast (pre ++ [(psum (V.map List.length), idsFrom 0 (V.map List.length))]) V.flatten (V.flatten.map p) =
      some (pre ++ [(psum ((V.map (List.filter p)).map List.length), idsFrom 0 ((V.map (List.filter p)).map List.length))],
        (V.map (List.filter p)).flatten) := by
  have hn := new2old_spec (V.flatten.map p)
  have hg := gather_sel (idsFrom 0 (V.map List.length)) (V.flatten.map p) (by
    rw [idsFrom_length, List.length_map, List.length_flatten])
  rw [sel_ids] at hg
  have hs := rowIdsToRowSplits_idsFrom ((V.map (List.filter p)).map List.length)
  have hi : indexLast (psum (V.map List.length), idsFrom 0 (V.map List.length))
      (sel (V.flatten.map p) (List.range (V.flatten.map p).length)) =
      some (psum ((V.map (List.filter p)).map List.length), idsFrom 0 ((V.map (List.filter p)).map List.length)) := by
    unfold indexLast
    simp only [Option.bind_eq_bind, hg, Option.bind_some]
    rw [show (psum (V.map List.length)).length - 1 = ((V.map (List.filter p)).map List.length).length by
      rw [psum_length, List.length_map, List.length_map, List.length_map, Nat.add_sub_cancel], hs]
    rfl
  have hv : (sel (V.flatten.map p) (List.range (V.flatten.map p).length)).mapM (fun e => V.flatten[e]?) =
      some (V.map (List.filter p)).flatten := by
    rw [flatten_filter, ← sel_filter]
    apply Util.mapM_some_of
    · rw [sel_length _ _ (by simp only [List.length_map, List.length_range]), sel_length _ _ (by simp only [List.length_map, List.length_range])]
    intro j b hb
    have hlt := (List.getElem?_eq_some_iff.mp hb).1
    rw [sel_length _ _ (by simp only [List.length_map, List.length_range])] at hlt
    obtain ⟨w, h1, rfl⟩ := rank_surj _ _ hlt
    rw [sel_get _ _ _ (by simp only [List.length_map, List.length_range]) h1] at hb
    have hw := (List.getElem?_eq_some_iff.mp h1).1
    rw [List.getElem?_range hw] at hb
    obtain rfl := Option.some.inj hb
    rw [sel_get _ _ _ (by simp only [List.length_map, List.length_range]) h1]
  unfold subsetLast indexRagged indexAxis
  rw [if_pos (by rw [List.length_map]), hn]
  simp only [Option.bind_eq_bind, Option.bind_some]
  rw [if_neg (by simp), if_neg (by simp)]
  simp only [if_true, List.length_append, List.length_cons, List.length_nil, Nat.zero_add, Nat.add_sub_cancel,
    List.getElem?_append_right (Nat.le_refl _), Nat.sub_self, List.getElem?_cons_zero, Option.bind_some, hi,
    List.take_left, hv]

/-- `remove_values_leq` removes the values up to the cutoff from the rows; the rows stay. -/
theorem removeValuesLeq_rows (pre : Shape) (V : List (List Int)) (cutoff : Int) :
    removeValuesLeq (pre ++ [(psum (V.map List.length), idsFrom 0 (V.map List.length))]) V.flatten cutoff =
      some (pre ++ [(psum ((V.map (List.filter (fun x => decide (cutoff < x)))).map List.length),
          idsFrom 0 ((V.map (List.filter (fun x => decide (cutoff < x)))).map List.length))],
        (V.map (List.filter (fun x => decide (cutoff < x)))).flatten) :=
  subsetLast_rows pre _ V

/-- `remove_values_eq` removes one value from the rows; the rows stay. -/
theorem removeValuesEq_rows (pre : Shape) (V : List (List Int)) (target : Int) :
    removeValuesEq (pre ++ [(psum (V.map List.length), idsFrom 0 (V.map List.length))]) V.flatten target =
      some (pre ++ [(psum ((V.map (List.filter (fun x => x != target))).map List.length),
          idsFrom 0 ((V.map (List.filter (fun x => x != target))).map List.length))],
        (V.map (List.filter (fun x => x != target))).flatten) :=
  subsetLast_rows pre _ V

/-! ## Examples -/

example : globalIdx 0 [[10, 11, 12], [], [13, 14]] [[2, 0, 2], [], [1]] = [2, 0, 2, 4] := by decide

example : indexRagged [([0, 3, 3, 5], [0, 0, 0, 2, 2])] [10, 11, 12, 13, 14] 1 [2, 0, 2, 4] =
    some ([([0, 3, 3, 4], [0, 0, 0, 2])], [12, 10, 12, 14], [2, 0, 2, 4]) := by decide +kernel

/-- `[[[1, 2], [3]], [[4], [], [5, 6]]]` indexed with 1, 4, 2 along axis 1. -/
example : indexRagged [([0, 2, 5], [0, 0, 1, 1, 1]), ([0, 2, 3, 4, 4, 6], [0, 0, 1, 2, 4, 4])] [1, 2, 3, 4, 5, 6] 1 [1, 4, 2] =
    some ([([0, 1, 3], [0, 1, 1]), ([0, 1, 3, 4], [0, 1, 1, 2])], [3, 5, 6, 4], [2, 4, 5, 3]) := by decide +kernel

/-- Indexes that do not stay in order of the lists above fail. -/
example : indexRagged [([0, 2, 5], [0, 0, 1, 1, 1])] [10, 11, 12, 13, 14] 1 [3, 0] = none := by decide +kernel

example : removeValuesLeq [([0, 3, 3, 5], [0, 0, 0, 2, 2])] [1, 0, 2, -1, 5] 0 =
    some ([([0, 2, 2, 3], [0, 0, 2])], [1, 2, 5]) := by decide +kernel

end Verif.Ragged
