import Verif.Tensor.IndexProps

/-! # Gradients of `index_select`, and `simple_ragged_index_select` -/

namespace Verif.Tensor

open Finset

/-- What an index selects from numbers; zero for -1. -/
def pick {R : Type} [Zero R] (index : List Int) (D : Nat → R) (i : Nat) : R :=
  match index[i]? with
  | none => 0
  | some k => if k = -1 then 0 else D k.toNat

theorem adjoint {R : Type} [CommRing R] (index : List Int) (m : Nat) (hin : ∀ k ∈ index, -1 ≤ k ∧ k < m) (g D : Nat → R) :
    ∑ k ∈ range m, (∑ i ∈ range index.length, if index[i]? = some (k : Int) then g i else 0) * D k =
      ∑ i ∈ range index.length, g i * pick index D i := by
  simp only [sum_mul]
  rw [sum_comm]
  refine sum_congr rfl (fun i hi => ?_)
  have hi := mem_range.1 hi
  have e := List.getElem?_eq_getElem hi
  have hk := hin _ (List.mem_of_getElem? e)
  generalize index[i] = k at e hk
  unfold pick
  simp only [e, Option.some.injEq]
  by_cases h : k = -1
  · rw [if_pos h, mul_zero]
    refine sum_eq_zero (fun j _ => ?_)
    rw [if_neg (by omega), zero_mul]
  · rw [if_neg h, sum_eq_single k.toNat]
    · rw [if_pos (by omega)]
    · intro j _ hj
      rw [if_neg (by omega), zero_mul]
    · intro hn
      exact absurd (mem_range.2 (by omega)) hn

theorem vec_valid {α : Type} (l : List α) : Valid (vec l) := by
  refine ⟨rfl, fun idx hidx => (readAt_isSome _ _).2 ?_⟩
  cases hidx with
  | cons ha hb =>
    cases hb
    simp [vec, ofDims, mkStrides, dot]
    omega

theorem contig_injective {α : Type} (dims : List Nat) (off : Int) (data : List α) :
    Injective (⟨ofDims dims, off, data⟩ : Tensor α) := by
  intro idx idx' h h' he
  have h : InDims idx dims := h
  have h' : InDims idx' dims := h'
  have he : dot idx (mkStrides dims) = dot idx' (mkStrides dims) := he
  rw [dot_mkStrides h, dot_mkStrides h'] at he
  exact rank_inj h h' (by omega)

theorem val_zeros {R : Type} [CommRing R] (n k : Nat) : val (vec (List.replicate n (0 : R))) [k] = 0 := by
  simp only [val, elem, vec, readAt, ofDims, List.getElem?_replicate]
  split
  · split <;> rfl
  · rfl

/-- `backward` of `index_select` of a vector is its gradient: for the change from any `src` to any `src'`, the change of
the result, weighted with the gradient of the result, is the change of the source, weighted with the returned
gradient. -/
theorem index_select_gradient {R : Type} [CommRing R] (src src' g : Tensor R) (hv : Valid src) (hv' : Valid src')
    (hg : Valid g) (m : Nat) (hm : 0 < m) (hd : src.shape.dims = [m]) (hd' : src'.shape.dims = [m]) (index : List Int)
    (hgd : g.shape.dims = [index.length]) (hin : ∀ k ∈ index, -1 ≤ k ∧ k < m) (dflt : R) (order : List Nat)
    (hord : order.Perm (List.range index.length)) :
    ∃ out out' grad, select1 src index dflt = some out ∧ select1 src' index dflt = some out' ∧
      selectBackward src index g order = some grad ∧ grad.shape = ofDims [m] ∧
      ∑ i ∈ range index.length, val g [i] * (out'.getD i 0 - out.getD i 0) =
        ∑ k ∈ range m, val grad [k] * (val src' [k] - val src [k]) := by
  obtain ⟨out, e1, l1, g1⟩ := index_select_partial src hv m hd hm index hin dflt
  obtain ⟨out', e2, l2, g2⟩ := index_select_partial src' hv' m hd' hm index hin dflt
  obtain ⟨grad, e3, s3, _, g3⟩ := index_add g (vec (List.replicate m (0 : R))) hg (vec_valid _)
    (contig_injective _ _ _) index.length m hgd (by simp [vec, ofDims]) index rfl hin order hord
  refine ⟨out, out', grad, e1, e2, ?_, by rw [s3]; simp [vec], ?_⟩
  · unfold selectBackward
    rw [show dimAt src.shape 0 = m by simp [dimAt, hd], e3]
  · have hg3 : ∀ k ∈ range m, val grad [k] * (val src' [k] - val src [k]) =
        (∑ i ∈ range index.length, if index[i]? = some (k : Int) then val g [i] else 0) * (val src' [k] - val src [k]) := by
      intro k hk
      rw [g3 k (mem_range.1 hk), val_zeros, zero_add]
    rw [sum_congr rfl hg3, adjoint index m hin (fun i => val g [i]) (fun k => val src' [k] - val src [k])]
    refine sum_congr rfl (fun i hi => ?_)
    congr 1
    have hi := mem_range.1 hi
    have e := List.getElem?_eq_getElem hi
    have a1 := g1 i _ e
    have a2 := g2 i _ e
    unfold pick
    simp only [List.getD_eq_getElem?_getD, a1, a2, e]
    by_cases h : index[i] = -1
    · simp [h]
    · simp [h, val]

example : (select1 (vec [5, 7]) [1, -1, 1] (0 : Int), (selectBackward (vec [5, 7]) [1, -1, 1] (vec [1, 10, 100]) [2, 0, 1]).map
    (fun u => u.data)) = (some [7, 0, 7], some [0, 101]) := by decide

theorem val_zeros2 {R : Type} [CommRing R] (n m N k j : Nat) :
    val (⟨ofDims [n, m], 0, List.replicate N (0 : R)⟩ : Tensor R) [k, j] = 0 := by
  simp only [val, elem, readAt, ofDims, List.getElem?_replicate]
  split
  · split <;> rfl
  · rfl

/-- The same for matrices. -/
theorem index_select2_gradient {R : Type} [CommRing R] (src src' g : Tensor R) (hv : Valid src) (hv' : Valid src')
    (hg : Valid g) (m c : Nat) (hm : 0 < m) (hd : src.shape.dims = [m, c]) (hd' : src'.shape.dims = [m, c])
    (hs : strideAt src.shape 1 = 1) (hs' : strideAt src'.shape 1 = 1) (index : List Int)
    (hgd : g.shape.dims = [index.length, c]) (hin : ∀ k ∈ index, -1 ≤ k ∧ k < m) (order : List (Nat × Nat))
    (hord : order.Perm (List.range index.length ×ˢ List.range c)) :
    ∃ out out' grad, select2 src index = some out ∧ select2 src' index = some out' ∧
      selectBackward2 src index g order = some grad ∧ grad.shape = ofDims [m, c] ∧
      ∑ j ∈ range c, ∑ i ∈ range index.length, val g [i, j] * ((out'.getD i []).getD j 0 - (out.getD i []).getD j 0) =
        ∑ j ∈ range c, ∑ k ∈ range m, val grad [k, j] * (val src' [k, j] - val src [k, j]) := by
  obtain ⟨out, e1, l1, g1⟩ := index_select2_partial src hv m c hd hs hm index hin
  obtain ⟨out', e2, l2, g2⟩ := index_select2_partial src' hv' m c hd' hs' hm index hin
  have hz : Valid (⟨ofDims [m, c], 0, List.replicate (m * c) (0 : R)⟩ : Tensor R) := by
    refine ⟨rfl, fun idx hidx => (readAt_isSome _ _).2 ?_⟩
    have hidx : InDims idx [m, c] := hidx
    have h1 := rank_lt hidx
    have h2 : dot idx (mkStrides [m, c]) = rank [m, c] idx := dot_mkStrides hidx
    simp at h1
    have h3 : dot idx (ofDims [m, c]).strides = rank [m, c] idx := h2
    simp only [h3, List.length_replicate]
    omega
  obtain ⟨grad, e3, s3, _, g3⟩ := index_add2 g ⟨ofDims [m, c], 0, List.replicate (m * c) (0 : R)⟩ hg hz
    (contig_injective _ _ _) index.length m c hgd rfl index rfl hin order hord
  refine ⟨out, out', grad, e1, e2, ?_, s3, ?_⟩
  · unfold selectBackward2
    rw [show dimAt src.shape 0 = m by simp [dimAt, hd], show dimAt src.shape 1 = c by simp [dimAt, hd], e3]
  · refine sum_congr rfl (fun j hj => ?_)
    have hj := mem_range.1 hj
    have hg3 : ∀ k ∈ range m, val grad [k, j] * (val src' [k, j] - val src [k, j]) =
        (∑ i ∈ range index.length, if index[i]? = some (k : Int) then val g [i, j] else 0) *
          (val src' [k, j] - val src [k, j]) := by
      intro k hk
      rw [g3 k j (mem_range.1 hk) hj, val_zeros2, zero_add]
    rw [sum_congr rfl hg3, adjoint index m hin (fun i => val g [i, j]) (fun k => val src' [k, j] - val src [k, j])]
    refine sum_congr rfl (fun i hi => ?_)
    congr 1
    have hi := mem_range.1 hi
    have e := List.getElem?_eq_getElem hi
    obtain ⟨r1, a1, _, b1⟩ := g1 i _ e
    obtain ⟨r2, a2, _, b2⟩ := g2 i _ e
    unfold pick
    simp only [List.getD_eq_getElem?_getD, a1, a2, e, Option.getD_some, b1 j hj, b2 j hj]
    by_cases h : index[i] = -1
    · simp [h]
    · simp [h, val]

example : (selectBackward2 (⟨ofDims [2, 2], 0, [1, 2, 3, 4]⟩ : Tensor Int) [1, -1] ⟨ofDims [2, 2], 0, [5, 6, 7, 8]⟩
    [(1, 1), (0, 0), (1, 0), (0, 1)]).map (fun u => u.data) = some [0, 0, 5, 6] := by decide

/-! ## C120: `simple_ragged_index_select` -/

/-- Element `i` belongs to sub-list `r` and selects the value `v`, which is not zero. -/
def NonZeroAt {α : Type} [Zero α] (values : List α) (rowIds : List Nat) (r i : Nat) (v : α) : Prop :=
  rowIds[i]? = some r ∧ values[i]? = some v ∧ v ≠ 0

/-- In every execution: if no sub-list selects two values that are not zero, the answer is the value that is not zero,
or zero if there is none; otherwise the status names a sub-list that selects two. -/
theorem simple_ragged_index_select {α : Type} [Zero α] [DecidableEq α] (values : List α) (rowIds : List Nat) (dim0 : Nat)
    (hr : ∀ r ∈ rowIds, r < dim0) (run : SimpleRun values rowIds dim0) :
    (run.status = 0 ↔ ∀ r i i' v v', NonZeroAt values rowIds r i v → NonZeroAt values rowIds r i' v' → i = i') ∧
    (run.status = 0 → run.ans.length = dim0 ∧ ∀ r, r < dim0 →
      (∀ i v, NonZeroAt values rowIds r i v → run.ans[r]? = some v) ∧
      ((∀ i v, ¬ NonZeroAt values rowIds r i v) → run.ans[r]? = some 0)) ∧
    (run.status ≠ 0 → ∃ i i' v v', i ≠ i' ∧ NonZeroAt values rowIds (run.status - 1) i v ∧
      NonZeroAt values rowIds (run.status - 1) i' v') := by
  have hmem : ∀ w, w ∈ nonZero values rowIds ↔ NonZeroAt values rowIds w.1 w.2.1 w.2.2 := fun w => mem_nonZero values rowIds w
  have hlt : ∀ r i v, NonZeroAt values rowIds r i v → r < dim0 := fun r i v h => hr r (List.mem_of_getElem? h.1)
  -- what is in `non_zero_indexes`
  have hnz : ∀ r i v, NonZeroAt values rowIds r i v →
      ∃ i' v', NonZeroAt values rowIds r i' v' ∧ (nzAfter dim0 run.l1)[r]? = some (i' : Int) := by
    intro r i v h
    obtain ⟨w, hw, e1, e2⟩ := (writes_get run.l1 (List.replicate dim0 (-1)) r (by simpa using hlt r i v h)).2
      ⟨(r, (i : Int)), (run.h1.mem_iff).2 (List.mem_map.2 ⟨(r, i, v), (hmem _).2 h, rfl⟩), rfl⟩
    obtain ⟨x, hx, rfl⟩ := List.mem_map.1 ((run.h1.mem_iff).1 hw)
    have := (hmem x).1 hx
    simp only at e1 e2
    exact ⟨x.2.1, x.2.2, by rw [← e1]; exact this, e2⟩
  have hbad : ∀ s, s ∈ run.l3 ↔ ∃ r i v, NonZeroAt values rowIds r i v ∧
      (nzAfter dim0 run.l1)[r]? ≠ some (i : Int) ∧ s = 1 + r := by
    intro s
    rw [run.h3.mem_iff]
    simp only [badRows, List.mem_filterMap]
    constructor
    · rintro ⟨w, hw, h⟩
      split at h
      · next hne => simp at h; exact ⟨w.1, w.2.1, w.2.2, (hmem w).1 hw, hne, h.symm⟩
      · cases h
    · rintro ⟨r, i, v, h, hne, rfl⟩
      exact ⟨(r, i, v), (hmem _).2 h, by simp [hne]⟩
  have hst : run.status = 0 ↔ run.l3 = [] := by
    unfold SimpleRun.status
    rcases foldl_last run.l3 0 with ⟨h1, h2⟩ | h
    · simp [h1]
    · obtain ⟨r, i, v, _, _, e⟩ := (hbad _).1 h
      constructor
      · intro h0; omega
      · intro h0; rw [h0] at h; simp at h
  have hiff : run.status = 0 ↔ ∀ r i i' v v', NonZeroAt values rowIds r i v → NonZeroAt values rowIds r i' v' → i = i' := by
    rw [hst]
    constructor
    · intro h0 r i i' v v' h h'
      have key : ∀ j w, NonZeroAt values rowIds r j w → (nzAfter dim0 run.l1)[r]? = some (j : Int) := by
        intro j w hj
        by_contra hne
        have := (hbad (1 + r)).2 ⟨r, j, w, hj, hne, rfl⟩
        rw [h0] at this
        simp at this
      have a := key i v h
      rw [key i' v' h'] at a
      simp at a
      omega
    · intro h
      rw [List.eq_nil_iff_forall_not_mem]
      intro s hs
      obtain ⟨r, i, v, h1, h2, _⟩ := (hbad s).1 hs
      obtain ⟨i', v', h3, h4⟩ := hnz r i v h1
      rw [h r i i' v v' h1 h3] at h2
      exact h2 h4
  refine ⟨hiff, ?_, ?_⟩
  · intro h0
    have huniq := hiff.1 h0
    refine ⟨by simp [SimpleRun.ans, writes_length], fun r hrd => ?_⟩
    have hw := writes_get run.l2 (List.replicate dim0 (0 : α)) r (by simpa using hrd)
    constructor
    · intro i v h
      obtain ⟨w, hw1, e1, e2⟩ := hw.2
        ⟨(r, v), (run.h2.mem_iff).2 (List.mem_map.2 ⟨(r, i, v), (hmem _).2 h, rfl⟩), rfl⟩
      obtain ⟨x, hx, rfl⟩ := List.mem_map.1 ((run.h2.mem_iff).1 hw1)
      have hx := (hmem x).1 hx
      simp only at e1 e2
      rw [e1] at hx
      have hi := huniq r i x.2.1 v x.2.2 h hx
      have : v = x.2.2 := by
        have a := h.2.1
        rw [hi, hx.2.1] at a
        simpa using a.symm
      rw [this]
      exact e2
    · intro hno
      have := hw.1 (fun w hw1 e => by
        obtain ⟨x, hx, rfl⟩ := List.mem_map.1 ((run.h2.mem_iff).1 hw1)
        have hx := (hmem x).1 hx
        simp only at e
        rw [e] at hx
        exact hno _ _ hx)
      unfold SimpleRun.ans
      rw [this]
      simp [hrd]
  · intro h0
    rcases foldl_last run.l3 0 with ⟨h1, h2⟩ | h
    · exact absurd (hst.2 h1) h0
    · obtain ⟨r, i, v, h1, h2, e⟩ := (hbad _).1 h
      have e' : run.status = 1 + r := e
      obtain ⟨i', v', h3, h4⟩ := hnz r i v h1
      refine ⟨i, i', v, v', ?_, ?_, ?_⟩
      · intro hii
        rw [hii] at h2
        exact h2 h4
      · rw [e', Nat.add_sub_cancel_left]; exact h1
      · rw [e', Nat.add_sub_cancel_left]; exact h3

/-- Sub-lists `[[_, _], [_]]` that select `0, 5` and `6`. -/
def simpleExample : SimpleRun ([0, 5, 6] : List Int) [0, 0, 1] 3 where
  l1 := [(1, 2), (0, 1)]
  l2 := [(0, 5), (1, 6)]
  l3 := []
  h1 := by decide
  h2 := by decide
  h3 := by decide

example : simpleExample.status = 0 ∧ simpleExample.ans = [5, 6, 0] := by decide

/-- The values that are selected are those of the source, when all indexes are in range; otherwise the checks fail. -/
theorem simple_ragged_selected {α : Type} (src : Tensor α) (hv : Valid src) (n : Nat) (hd : src.shape.dims = [n])
    (indexes : List Int) :
    ((∀ k ∈ indexes, 0 ≤ k ∧ k < n) → ∃ values, selected src indexes = some values ∧ values.length = indexes.length ∧
      ∀ (i : Nat) (k : Int), indexes[i]? = some k → values[i]? = elem src [k.toNat]) ∧
    ((∃ k ∈ indexes, ¬ (0 ≤ k ∧ k < n)) → selected src indexes = none) := by
  have hdim : dimAt src.shape 0 = n := by simp [dimAt, hd]
  have hel : ∀ k : Int, 0 ≤ k ∧ k < n → readAt src.data (src.offset + k * strideAt src.shape 0) = elem src [k.toNat] := by
    intro k h
    unfold elem
    rw [strides1 hd hv.1, show ((k.toNat : Nat) : Int) = k by omega]
  unfold selected
  rw [hdim]
  constructor
  · intro h
    obtain ⟨r, h1, h2, h3⟩ := mapM_spec
      (fun (k : Int) => if 0 ≤ k ∧ k < (n : Int) then readAt src.data (src.offset + k * strideAt src.shape 0) else none)
      indexes (by
        intro k hk
        obtain ⟨x, hx⟩ := hv.2 [k.toNat] (by rw [hd, inDims1]; have := h k hk; omega)
        exact ⟨x, by rw [if_pos (h k hk), hel k (h k hk), hx]⟩)
    refine ⟨r, h1, h2, fun i k hik => ?_⟩
    have hk := h k (List.mem_of_getElem? hik)
    rw [h3 i k hik]
    rw [if_pos hk, hel k hk]
  · rintro ⟨k, hk, hbad⟩
    induction indexes with
    | nil => simp at hk
    | cons x l ih =>
      rw [List.mapM_cons]
      rcases List.mem_cons.1 hk with rfl | hk
      · rw [if_neg hbad]; rfl
      · rw [ih hk]
        cases (if 0 ≤ x ∧ x < (n : Int) then readAt src.data (src.offset + x * strideAt src.shape 0) else none) <;> rfl

example : selected (vec [4, 5, 6]) [2, 0] = some [6, 4] ∧ selected (vec [4, 5, 6]) [3] = none := by decide

end Verif.Tensor
