import Verif.Ragged.IndexProps
import Verif.Ragged.AxisProps

/-!
# `Transpose` (C09)

Model of k2/csrc/ragged_ops.cu 1005-1063.  `MakeTransposable` is in `Verif/Fsa/Batches`.  The `K2_DCHECK` on the row_splits is only active in debug builds; it is not modelled
(the release behaviour), so the theorem takes regularity as a hypothesis.
-/

namespace Verif.Ragged
open Verif.Util
variable {α : Type}

/-- `Transpose`. -/
def transpose (src : List (List Nat × List Nat)) : Option (List (List Nat × List Nat) × List Nat) :=
  if src.length + 1 ≤ 2 then none else do
    let dim0 ← totSize src 0
    let tot1 ← totSize src 1
    if dim0 = 0 then some (src, [])
    else if tot1 % dim0 ≠ 0 then none
    else do
      let noAxis0 ← removeAxis src 0
      let renumbering := (List.range tot1).map (fun i =>
        ((i % dim0 * (tot1 / dim0) + i / dim0 : Nat) : Int))
      let r ← indexAxis0 (noAxis0.map Prod.fst) renumbering
      let mem := (List.range (tot1 / dim0 + 1 + tot1)).map (fun i =>
        if tot1 / dim0 + 1 ≤ i then (i - (tot1 / dim0 + 1)) / dim0 else i * dim0)
      some ((mem.take (tot1 / dim0 + 1), mem.drop (tot1 / dim0 + 1)) :: r.1, r.2)

/-! ## Specification -/

/-- Entry (i, j) of the result is entry (j, i) of the argument; `d` is the common row length. -/
def swapAxes {X : Type} (d : Nat) (T : List (List X)) : List (List X) :=
  (List.range d).map (fun k => T.filterMap (fun row => row[k]?))

def Regular {X : Type} (T : List (List X)) (d : Nat) : Prop := ∀ row ∈ T, row.length = d

theorem swapAxes_row {X : Type} (T : List (List X)) (d : Nat) (h : Regular T d) (k : Nat) (hk : k < d) :
    ∃ r, (swapAxes d T)[k]? = some r ∧ r.length = T.length ∧
      ∀ (j : Nat) (row : List X), T[j]? = some row → r[j]? = row[k]? := by
  refine ⟨_, by rw [swapAxes, List.getElem?_map, List.getElem?_range hk]; rfl, ?_⟩
  have key : ∀ T : List (List X), Regular T d →
      (T.filterMap (fun row => row[k]?)).length = T.length ∧
      ∀ (j : Nat) (row : List X), T[j]? = some row → (T.filterMap (fun row => row[k]?))[j]? = row[k]? := by
    intro T
    induction T with
    | nil => intro _; exact ⟨rfl, fun j row h => by simp at h⟩
    | cons x T ih =>
      intro h
      have hx : x.length = d := h x (by simp)
      obtain ⟨h1, h2⟩ := ih (fun row hr => h row (by simp [hr]))
      have e : x[k]? = some x[k] := List.getElem?_eq_getElem (by omega)
      rw [List.filterMap_cons_some (f := fun row : List X => row[k]?) e]
      refine ⟨by simp [h1], fun j row hj => ?_⟩
      cases j with
      | zero => simp at hj; subst hj; simp [e]
      | succ j => simpa using h2 j row (by simpa using hj)
  exact key T h

/-- The specification really swaps the indexes. -/
theorem swapAxes_get {X : Type} (T : List (List X)) (d : Nat) (h : Regular T d) (j k : Nat) (row : List X)
    (hj : T[j]? = some row) (hk : k < d) :
    ∃ r, (swapAxes d T)[k]? = some r ∧ r[j]? = row[k]? ∧ r.length = T.length := by
  obtain ⟨r, h1, h2, h3⟩ := swapAxes_row T d h k hk
  exact ⟨r, h1, h3 j row hj, h2⟩

theorem swapAxes_regular {X : Type} (T : List (List X)) (d : Nat) (h : Regular T d) :
    Regular (swapAxes d T) T.length ∧ (swapAxes d T).length = d := by
  refine ⟨?_, by simp [swapAxes]⟩
  intro row hrow
  obtain ⟨k, hk⟩ := List.getElem?_of_mem hrow
  have hk' : k < d := by
    have := (List.getElem?_eq_some_iff.mp hk).1; simpa [swapAxes] using this
  obtain ⟨r, h1, h2, _⟩ := swapAxes_row T d h k hk'
  rw [h1] at hk
  rw [← Option.some.inj hk]; exact h2

theorem swapAxes_twice {X : Type} (T : List (List X)) (d : Nat) (h : Regular T d) :
    swapAxes T.length (swapAxes d T) = if d = 0 then List.replicate T.length [] else T := by
  split
  · next h0 =>
    subst h0
    simp [swapAxes]
  · next h0 =>
    obtain ⟨hr, hl⟩ := swapAxes_regular T d h
    apply List.ext_getElem?
    intro j
    by_cases hj : j < T.length
    · obtain ⟨r, h1, h2, h3⟩ := swapAxes_row (swapAxes d T) T.length hr j hj
      rw [h1, List.getElem?_eq_getElem hj]
      congr 1
      have hrow : T[j].length = d := h _ (List.getElem_mem hj)
      apply List.ext_getElem?
      intro k
      by_cases hk : k < d
      · obtain ⟨r', e1, e2, _⟩ := swapAxes_get T d h j k _ (List.getElem?_eq_getElem hj) hk
        rw [h3 k r' e1, e2]
      · rw [List.getElem?_eq_none (by omega), List.getElem?_eq_none (by omega)]
    · rw [List.getElem?_eq_none (by simp [swapAxes]; omega), List.getElem?_eq_none (by omega)]

/-! ## Proof -/

theorem Regular.flatten_length {X : Type} {T : List (List X)} {d : Nat} (h : Regular T d) :
    T.flatten.length = T.length * d := by
  induction T with
  | nil => simp
  | cons x T ih =>
    rw [List.flatten_cons, List.length_append, ih (fun r hr => h r (by simp [hr])), h x (by simp),
      List.length_cons, Nat.succ_mul]
    omega

theorem Regular.flatten_get {X : Type} {T : List (List X)} {d : Nat} (h : Regular T d) (j k : Nat)
    (row : List X) (hj : T[j]? = some row) (hk : k < d) : T.flatten[j * d + k]? = row[k]? := by
  have hs : splits T j = j * d := by
    have hjl := (List.getElem?_eq_some_iff.mp hj).1
    have : Regular (T.take j) d := fun r hr => h r (List.mem_of_mem_take hr)
    have := this.flatten_length
    rw [List.length_take, Nat.min_eq_left (by omega)] at this
    rw [splits, ← List.length_flatten, this]
  have := Util.flatten_get T j row hj k (by rw [h row (List.mem_of_getElem? hj)]; exact hk)
  rwa [hs] at this

theorem psum_replicate (m d : Nat) :
    psum (List.replicate m d) = (List.range (m + 1)).map (fun i => i * d) := by
  apply List.ext_getElem?
  intro k
  by_cases hk : k ≤ m
  · rw [psum_get _ _ (by simpa using hk), List.getElem?_map, List.getElem?_range (by omega),
      List.take_replicate, List.sum_replicate, Nat.min_eq_left hk]
    simp
  · rw [List.getElem?_eq_none (by simp; omega), List.getElem?_eq_none (by simp; omega)]

theorem idsFrom_replicate (m d : Nat) (hd : 0 < d) :
    idsFrom 0 (List.replicate m d) = (List.range (m * d)).map (fun i => i / d) := by
  apply List.ext_getElem?
  intro i
  by_cases hi : i < m * d
  · rw [List.getElem?_map, List.getElem?_range hi, Option.map_some]
    have h1 : i / d < m := by rw [Nat.div_lt_iff_lt_mul hd]; exact hi
    have := (idsFrom_get 0 (List.replicate m d) i (i / d)).mpr (by
      refine ⟨by simpa using h1, ?_, ?_⟩
      · rw [List.take_replicate, List.sum_replicate, Nat.min_eq_left (by omega)]
        simpa using Nat.div_mul_le_self i d
      · rw [List.take_replicate, List.sum_replicate, Nat.min_eq_left (by omega)]
        simpa [Nat.succ_mul] using Nat.lt_div_mul_add hd)
    rwa [Nat.zero_add] at this
  · rw [List.getElem?_eq_none (by simp; omega), List.getElem?_eq_none (by simp; omega)]

theorem Regular.sizes {X : Type} {T : List (List X)} {d : Nat} (h : Regular T d) :
    T.map List.length = List.replicate T.length d := by
  rw [List.eq_replicate_iff]
  refine ⟨by simp, fun b hb => ?_⟩
  obtain ⟨r, hr, rfl⟩ := List.mem_map.mp hb
  exact h r hr

theorem renumber_flatten {X : Type} (T : List (List (List X))) (d : Nat) (h : Regular T d)
    (hT : T ≠ []) :
    pick T.flatten ((List.range (T.length * d)).map (fun i =>
        ((i % T.length * d + i / T.length : Nat) : Int))) = (swapAxes d T).flatten := by
  have hpos : 0 < T.length := List.length_pos_iff.mpr hT
  obtain ⟨hr, hl⟩ := swapAxes_regular T d h
  apply List.ext_getElem?
  intro i
  by_cases hi : i < T.length * d
  · have hj : i % T.length < T.length := Nat.mod_lt _ hpos
    have hk : i / T.length < d := by
      rw [Nat.div_lt_iff_lt_mul hpos, Nat.mul_comm]; exact hi
    obtain ⟨r, e1, e2, e3⟩ := swapAxes_get T d h (i % T.length) (i / T.length) _
      (List.getElem?_eq_getElem hj) hk
    have e4 := hr.flatten_get (i / T.length) (i % T.length) r e1 hj
    rw [Nat.mul_comm, Nat.div_add_mod] at e4
    have e5 := h.flatten_get (i % T.length) (i / T.length) _ (List.getElem?_eq_getElem hj) hk
    have hne : ¬ ((i % T.length * d + i / T.length : Nat) : Int) = -1 := by
      generalize i % T.length * d + i / T.length = q
      omega
    rw [e4, e2, pick, List.getElem?_map, List.getElem?_map, List.getElem?_range hi, Option.map_some,
      Option.map_some, if_neg hne, Int.toNat_natCast, e5]
    have hk' : i / T.length < (T[i % T.length]).length := by
      rw [h _ (List.getElem_mem hj)]; exact hk
    rw [List.getElem?_eq_getElem hk']; rfl
  · rw [List.getElem?_eq_none (by simp [pick]; omega), List.getElem?_eq_none]
    rw [hr.flatten_length, hl, Nat.mul_comm]; omega

/-- For every ragged array with at least three axes whose rows all have `d` elements, `Transpose`
returns the layers of the array with the first two axes exchanged, and `value_indexes` holds the
positions of the values.  (With no rows at all it returns its argument.) -/
theorem transpose_spec (n : Nat) (T : List (List (List (Nest α n)))) (d : Nat) (h : Regular T d)
    (hT : T ≠ []) :
    ∃ elems, transpose (fullLayers (n + 2) (T : List (Nest α (n + 2)))) =
        some (fullLayers (n + 2) (swapAxes d T : List (Nest α (n + 2))), elems) ∧
      elems.map (fun e => (valuesOf (n + 2) (T : List (Nest α (n + 2))))[e]?) =
        (valuesOf (n + 2) (swapAxes d T : List (Nest α (n + 2)))).map some := by
  have hpos : 0 < T.length := List.length_pos_iff.mpr hT
  obtain ⟨hr, hl⟩ := swapAxes_regular T d h
  have hsz := h.sizes
  have hfl := h.flatten_length
  have f1 : fullLayers (n + 2) (T : List (Nest α (n + 2))) = _ := fullLayers_succ (n + 1) (α := α) T
  have f2 : fullLayers (n + 2) (swapAxes d T : List (Nest α (n + 2))) = _ :=
    fullLayers_succ (n + 1) (α := α) (swapAxes d T)
  obtain ⟨elems, i1, i2⟩ := index_axis0 n (α := α) T.flatten
    ((List.range (T.length * d)).map (fun i => ((i % T.length * d + i / T.length : Nat) : Int))) (by
      intro x hx
      obtain ⟨i, hi, rfl⟩ := List.mem_map.mp hx
      have hi' : i < T.length * d := by simpa using hi
      have hj : i % T.length < T.length := Nat.mod_lt _ hpos
      have hk : i / T.length < d := by rw [Nat.div_lt_iff_lt_mul hpos, Nat.mul_comm]; exact hi'
      have hnn : (0 : Int) ≤ ((i % T.length * d + i / T.length : Nat) : Int) := Int.natCast_nonneg _
      refine ⟨by omega, ?_⟩
      rw [hfl]
      have : (i % T.length + 1) * d ≤ T.length * d := Nat.mul_le_mul_right _ hj
      rw [Nat.succ_mul] at this
      exact_mod_cast (by omega : i % T.length * d + i / T.length < T.length * d))
  have hp := renumber_flatten T d h hT
  rw [hp] at i1 i2
  refine ⟨elems, ?_, i2⟩
  unfold transpose
  rw [fullLayers_length, if_neg (by omega)]
  have t0 : totSize (fullLayers (n + 2) (T : List (Nest α (n + 2)))) 0 = some T.length := by
    rw [f1]; simp [totSize]
  have t1 : totSize (fullLayers (n + 2) (T : List (Nest α (n + 2)))) 1 = some (T.length * d) := by
    rw [f1, hsz]
    unfold totSize
    rw [if_neg (by omega)]
    show some ((psum (List.replicate T.length d)).getLastD 0) = _
    rw [psum_getLastD, List.sum_replicate]; rfl
  have t2 : ((fullLayers (n + 1) (T.flatten : List (Nest α (n + 1)))).map Prod.fst) =
      layersOf (n + 1) T.flatten := by
    rw [fullLayers, List.map_map]
    exact List.map_id _
  rw [t0, t1]
  simp only [Option.bind_eq_bind, Option.bind_some]
  rw [if_neg (by omega), if_neg (by simp), removeAxis_zero]
  simp only [Option.bind_some, Nat.mul_div_cancel_left _ hpos, t2, i1]
  rw [f2, hr.sizes, hl, psum_replicate, idsFrom_replicate _ _ hpos]
  congr 3
  rw [Prod.mk.injEq, Nat.mul_comm T.length d, List.range_add, List.map_append]
  constructor
  · rw [List.take_append_of_le_length (by simp), List.take_of_length_le (by simp)]
    refine List.map_congr_left (fun i hi => ?_)
    have : i < d + 1 := by simpa using hi
    rw [if_neg (by omega)]
  · rw [List.drop_append_of_le_length (by simp), List.drop_of_length_le (by simp), List.nil_append,
      List.map_map]
    refine List.map_congr_left (fun i hi => ?_)
    show (if d + 1 ≤ d + 1 + i then (d + 1 + i - (d + 1)) / T.length else _) = _
    rw [if_pos (by omega), Nat.add_sub_cancel_left]

/-- Transposing twice gives the array back if its rows are not empty. -/
theorem transpose_twice_partial (n : Nat) (T : List (List (List (Nest α n)))) (d : Nat)
    (h : Regular T d) (hT : T ≠ []) (hd : d ≠ 0) :
    ∃ L e e', transpose (fullLayers (n + 2) (T : List (Nest α (n + 2)))) = some (L, e) ∧
      transpose L = some (fullLayers (n + 2) (T : List (Nest α (n + 2))), e') := by
  obtain ⟨e, h1, _⟩ := transpose_spec n T d h hT
  obtain ⟨hr, hl⟩ := swapAxes_regular T d h
  obtain ⟨e', h2, _⟩ := transpose_spec n (swapAxes d T) T.length hr (by
    intro hn; rw [hn] at hl; exact hd hl.symm)
  refine ⟨_, e, e', h1, ?_⟩
  have := swapAxes_twice T d h
  rw [if_neg hd] at this
  rw [this] at h2
  exact h2

/-- With empty rows the number of rows is lost: two empty rows become none, and stay none. -/
theorem transpose_not_involution :
    ∃ (T : List (List (List Nat))), Regular T 0 ∧
      ∃ L, transpose (fullLayers 2 (T : List (Nest Nat 2))) = some (L, []) ∧
        transpose L = some (L, []) ∧ L ≠ fullLayers 2 (T : List (Nest Nat 2)) := by
  refine ⟨[[], []], by unfold Regular; decide, [([0], []), ([0], [])], by decide, by decide, by decide⟩

/-! A 2 x 3 array of lists. -/

def transposeExample : List (List (List Nat)) := [[[1], [], [2, 3]], [[4], [5, 6], []]]

example : Regular transposeExample 3 := by unfold Regular; decide

example : swapAxes 3 transposeExample = [[[1], [4]], [[], [5, 6]], [[2, 3], []]] := by decide

example : transpose (fullLayers 2 (transposeExample : List (Nest Nat 2))) =
    some ([([0, 2, 4, 6], [0, 0, 1, 1, 2, 2]), ([0, 1, 2, 2, 4, 6, 6], [0, 1, 3, 3, 4, 4])],
      [0, 3, 4, 5, 1, 2]) := by decide

end Verif.Ragged
