import Verif.Tensor.Copy

/-!
# Properties of tensors

`elem t idx` is the element of the tensor `t` at the indexes `idx`; it is `none` when the address is outside the
memory of the tensor.
-/

namespace Verif.Tensor

/-! ## C117: views -/

/-- `GetReachableElems` gives the smallest range with the addresses of all elements. -/
theorem tensor_reach (s : Shape) (hp : ∀ d ∈ s.dims, 0 < d) (hl : s.strides.length = s.dims.length) :
    (∀ idx, InDims idx s.dims → (reach s).1 ≤ dot idx s.strides ∧ dot idx s.strides < (reach s).2) ∧
    (∃ idx, InDims idx s.dims ∧ dot idx s.strides = (reach s).1) ∧
    (∃ idx, InDims idx s.dims ∧ dot idx s.strides = (reach s).2 - 1) :=
  reach_spec s hp hl

example : reach (ofStrides [2, 3] [-3, 1]) = (-3, 3) := by decide

/-- The constructor from a region accepts exactly the tensors all of whose elements are in the region. -/
theorem tensor_region {α : Type} (s : Shape) (data : List α) (off : Int) (hp : ∀ d ∈ s.dims, 0 < d)
    (hl : s.strides.length = s.dims.length) :
    ofRegion s data off = (⟨s, off, data⟩ : Tensor α) ↔
      ∀ idx, InDims idx s.dims → ∃ x, elem (⟨s, off, data⟩ : Tensor α) idx = some x := by
  unfold ofRegion
  have h := check_iff s data off hp hl
  constructor
  · intro he
    split at he
    · next hc => exact (h.1 hc).2
    · cases he
  · intro he
    rw [if_pos (h.2 ⟨hl, he⟩)]

example : ofRegion (ofDims [2, 2]) [1, 2, 3, 4, 5] 1 = some ⟨ofDims [2, 2], 1, [1, 2, 3, 4, 5]⟩ ∧
    (ofRegion (ofDims [2, 2]) [1, 2, 3, 4, 5] 2).isNone := ⟨rfl, rfl⟩

/-- A new tensor has memory for all of its elements, and no more than that. -/
theorem tensor_new {α : Type} (s : Shape) (mem : List α) (hp : ∀ d ∈ s.dims, 0 < d)
    (hl : s.strides.length = s.dims.length) (hm : (mem.length : Int) = (initSize s).2) :
    Valid (create s mem) ∧
      (∃ idx, InDims idx s.dims ∧ (create s mem).offset + dot idx s.strides = 0) ∧
      (∃ idx, InDims idx s.dims ∧ (create s mem).offset + dot idx s.strides = mem.length - 1) := by
  obtain ⟨h1, ⟨i1, hi1, e1⟩, ⟨i2, hi2, e2⟩⟩ := reach_spec s hp hl
  have hc := check_iff s mem (initSize s).1 hp hl
  simp only [initSize] at hm hc
  refine ⟨hc.1 (by omega), ⟨i1, hi1, ?_⟩, ⟨i2, hi2, ?_⟩⟩ <;> simp only [create, initSize] <;> omega

example : initSize (ofStrides [2, 3] [-3, 1]) = (3, 6) := by decide

/-- `Index(axis, i)` is the part of the tensor with index `i` on the axis. -/
theorem tensor_index {α : Type} (t : Tensor α) (hv : Valid t) (hp : ∀ d ∈ t.shape.dims, 0 < d) (axis i d : Nat)
    (hd : t.shape.dims[axis]? = some d) (hi : i < d) :
    ∃ u, index t axis i = some u ∧ u.shape.dims = t.shape.dims.eraseIdx axis ∧ Valid u ∧
      ∀ idx, InDims idx u.shape.dims → elem u idx = elem t (idx.insertIdx axis i) := by
  obtain ⟨hl, hv⟩ := hv
  have hax : axis < t.shape.dims.length := (List.getElem?_eq_some_iff.1 hd).1
  have hs : t.shape.strides[axis]? = some (t.shape.strides[axis]'(by omega)) := List.getElem?_eq_getElem (by omega)
  generalize t.shape.strides[axis]'(by omega) = s at hs
  have hel : ∀ idx, InDims idx (t.shape.dims.eraseIdx axis) →
      elem (⟨ofStrides (t.shape.dims.eraseIdx axis) (t.shape.strides.eraseIdx axis), t.offset + i * s, t.data⟩ : Tensor α)
        idx = elem t (idx.insertIdx axis i) := by
    intro idx hidx
    have hlen := hidx.length_eq
    rw [List.length_eraseIdx_of_lt hax] at hlen
    unfold elem
    rw [dot_insertIdx idx t.shape.strides axis i s hs (by omega)]
    simp only [ofStrides]
    rw [add_assoc]
  have hl' : (t.shape.strides.eraseIdx axis).length = (t.shape.dims.eraseIdx axis).length := by
    rw [List.length_eraseIdx_of_lt hax, List.length_eraseIdx_of_lt (by omega), hl]
  have hV : Valid (⟨ofStrides (t.shape.dims.eraseIdx axis) (t.shape.strides.eraseIdx axis), t.offset + i * s,
      t.data⟩ : Tensor α) := by
    refine ⟨hl', fun idx hidx => ?_⟩
    rw [hel idx hidx]
    exact hv _ (inDims_insertIdx idx _ axis i d hd hi hidx)
  have hp' : ∀ x ∈ t.shape.dims.eraseIdx axis, 0 < x := fun x hx => hp x (List.mem_of_mem_eraseIdx hx)
  refine ⟨_, ?_, rfl, hV, hel⟩
  unfold index
  rw [hd, hs]
  simp only
  rw [if_pos (by omega)]
  unfold ofRegion
  rw [if_pos ((check_iff (ofStrides _ _) t.data _ hp' hl').2 hV)]

example : (index (⟨ofDims [2, 3], 0, [1, 2, 3, 4, 5, 6]⟩ : Tensor Nat) 1 2).map (fun u => (elem u [0], elem u [1])) =
    some (some 3, some 6) := by decide

/-- `Flip` reverses an axis, and all elements stay inside the memory. -/
theorem tensor_flip {α : Type} (t : Tensor α) (hv : Valid t) (axis d : Nat) (hd : t.shape.dims[axis]? = some d) :
    ∃ u, flip t axis = some u ∧ u.shape.dims = t.shape.dims ∧ Valid u ∧
      ∀ idx a, InDims idx t.shape.dims → idx[axis]? = some a → elem u idx = elem t (idx.set axis (d - 1 - a)) := by
  obtain ⟨hl, hv⟩ := hv
  have hax : axis < t.shape.dims.length := (List.getElem?_eq_some_iff.1 hd).1
  have hs : t.shape.strides[axis]? = some (t.shape.strides[axis]'(by omega)) := List.getElem?_eq_getElem (by omega)
  generalize t.shape.strides[axis]'(by omega) = s at hs
  have hget : ∀ idx, InDims idx t.shape.dims → ∃ a, idx[axis]? = some a := fun idx hidx =>
    ⟨_, List.getElem?_eq_getElem (by rw [hidx.length_eq]; exact hax)⟩
  unfold flip
  rw [hd, hs]
  simp only
  by_cases h1 : d ≤ 1
  · rw [if_pos h1]
    refine ⟨t, rfl, rfl, ⟨hl, hv⟩, fun idx a hidx ha => ?_⟩
    have := (inDims_set idx t.shape.dims axis a d hd ha hidx).1
    have e : d - 1 - a = a := by omega
    rw [e]
    congr 1
    apply List.ext_getElem?
    intro n
    rw [List.getElem?_set]
    split
    · next h => subst h; split <;> simp_all
    · rfl
  · rw [if_neg h1]
    unfold setStride
    rw [if_pos hax]
    have hel : ∀ idx a, InDims idx t.shape.dims → idx[axis]? = some a →
        elem (⟨{ t.shape with strides := t.shape.strides.set axis (-s) }, t.offset + s * ((d : Int) - 1), t.data⟩ :
          Tensor α) idx = elem t (idx.set axis (d - 1 - a)) := by
      intro idx a hidx ha
      have had := (inDims_set idx t.shape.dims axis a d hd ha hidx).1
      unfold elem
      rw [dot_set idx t.shape.strides axis a d s hs ha had, ← add_assoc]
    refine ⟨_, rfl, rfl, ⟨by simpa using hl, fun idx hidx => ?_⟩, hel⟩
    obtain ⟨a, ha⟩ := hget idx hidx
    rw [hel idx a hidx ha]
    exact hv _ (inDims_set idx t.shape.dims axis a d hd ha hidx).2

example : (flip (⟨ofDims [2, 3], 0, [1, 2, 3, 4, 5, 6]⟩ : Tensor Nat) 1).map (fun u => (elem u [0, 0], elem u [1, 2])) =
    some (some 3, some 4) := by decide

/-- `ComputeIsContiguous` is true exactly when the elements are in row-major order without gaps. -/
theorem tensor_contiguous (dims : List Nat) (strides : List Int) (hl : strides.length = dims.length)
    (hp : ∀ d ∈ dims, 0 < d) :
    isContig dims strides = true ↔ ∀ idx, InDims idx dims → dot idx strides = rank dims idx := by
  unfold isContig
  rw [Option.isSome_iff_exists]
  constructor
  · rintro ⟨z, hz⟩
    exact (contigLoop_rank dims strides z hl hz).2
  · intro h
    exact ⟨_, contigLoop_of_rank dims strides hl hp h⟩

example : isContig [2, 1, 3] [3, 77, 1] = true ∧ isContig [2, 3] [1, 2] = false := by decide

/-- Row-major order numbers the elements from zero without gaps. -/
theorem tensor_row_major (dims : List Nat) :
    (∀ idx, InDims idx dims → rank dims idx < numElements dims) ∧
    (∀ k, k < numElements dims → ∃ idx, InDims idx dims ∧ rank dims idx = k ∧
      ∀ idx', InDims idx' dims → rank dims idx' = k → idx' = idx) := by
  rw [numElements_prod]
  refine ⟨fun idx h => rank_lt h, fun k hk => ?_⟩
  obtain ⟨idx, h, e⟩ := rank_surj dims k hk
  exact ⟨idx, h, e, fun idx' h' e' => rank_inj h' h (by rw [e, e'])⟩

example : rank [2, 3] [1, 2] = 5 ∧ numElements [2, 3] = 6 := by decide

/-- The flag of a shape says what `ComputeIsContiguous` says. -/
def Truthful (s : Shape) : Prop := s.contig = true → isContig s.dims s.strides = true

/-- Both constructors of shapes set the flag to what it should be. -/
theorem tensor_flag_partial (dims : List Nat) (strides : List Int) (hp : ∀ d ∈ dims, 0 < d) :
    Truthful (ofDims dims) ∧ Truthful (ofStrides dims strides) := by
  refine ⟨fun _ => ?_, fun h => h⟩
  exact (tensor_contiguous dims (mkStrides dims) (mkStrides_length dims) hp).2 (fun idx h => dot_mkStrides h)

example : Truthful (ofDims [2, 3]) := fun _ => by decide

/-- The flag is wrong after `Flip`: a tensor that is not in row-major order says that it is contiguous. -/
theorem tensor_flip_flag_neg :
    ¬ ∀ (t u : Tensor Nat) (axis : Nat), Valid t → Truthful t.shape → flip t axis = some u → Truthful u.shape := by
  intro h
  have := h ⟨ofDims [3], 0, [1, 2, 3]⟩ ⟨⟨[3], [-1], true⟩, 2, [1, 2, 3]⟩ 0
    ⟨rfl, fun idx hidx => by
      obtain ⟨a, ha, rfl⟩ : ∃ a, a < 3 ∧ idx = [a] := by
        cases hidx with
        | cons x y => cases y; exact ⟨_, x, rfl⟩
      apply (readAt_isSome _ _).2
      simp [dot, ofDims, mkStrides]
      omega⟩
    (fun _ => by decide) (by decide)
  exact absurd (this rfl) (by decide)

/-! ## C118: copies -/

/-- `ToContiguous` has the elements of the tensor, in whatever order they are copied. -/
theorem tensor_to_contiguous {α : Type} (t : Tensor α) (hv : Valid t) (hp : ∀ d ∈ t.shape.dims, 0 < d) (mem : List α)
    (hm : (mem.length : Int) = (initSize (ofDims t.shape.dims)).2) (l : List (Int × Int))
    (hperm : l.Perm (contigPairs t)) :
    ∃ u, toContiguous t mem l = some u ∧ u.shape = ofDims t.shape.dims ∧ u.offset = 0 ∧ Valid u ∧
      ∀ idx, InDims idx t.shape.dims → elem u idx = elem t idx := by
  obtain ⟨hl, hv⟩ := hv
  have hlm := mkStrides_length t.shape.dims
  have hnew := tensor_new (ofDims t.shape.dims) mem hp hlm hm
  have hoff : (initSize (ofDims t.shape.dims)).1 = 0 := by
    obtain ⟨_, ⟨i1, hi1, e1⟩, _⟩ := hnew
    have hi1' : InDims i1 t.shape.dims := hi1
    obtain ⟨h1, _, _⟩ := reach_spec (ofDims t.shape.dims) hp hlm
    have hz := h1 (t.shape.dims.map (fun _ => 0)) (inDims_zero _ hp)
    have ez : dot (t.shape.dims.map (fun _ => 0)) (ofDims t.shape.dims).strides = 0 := by
      rw [show (ofDims t.shape.dims).strides = mkStrides t.shape.dims from rfl, dot_mkStrides (inDims_zero _ hp),
        rank_zero]; rfl
    have e2 : dot i1 (ofDims t.shape.dims).strides = (rank t.shape.dims i1 : Int) := dot_mkStrides hi1'
    simp only [create, initSize] at e1 ⊢
    omega
  have hpairs : contigPairs t = (allIdx t.shape.dims).map
      (fun idx => ((initSize (ofDims t.shape.dims)).1 + dot idx (mkStrides t.shape.dims),
        t.offset + dot idx t.shape.strides)) := copyPairs_allIdx _ _ _ hlm hl _ _
  have hmem : ∀ q ∈ l, ∃ idx, InDims idx t.shape.dims ∧ q = ((rank t.shape.dims idx : Int),
      t.offset + dot idx t.shape.strides) := by
    intro q hq
    have := (hperm.mem_iff).1 hq
    rw [hpairs, List.mem_map] at this
    obtain ⟨idx, hidx, rfl⟩ := this
    have hidx := (mem_allIdx _ _).1 hidx
    exact ⟨idx, hidx, by rw [hoff, dot_mkStrides hidx, zero_add]⟩
  have hin : ∀ idx, InDims idx t.shape.dims → ((rank t.shape.dims idx : Int), t.offset + dot idx t.shape.strides) ∈ l := by
    intro idx hidx
    rw [hperm.mem_iff, hpairs, List.mem_map]
    exact ⟨idx, (mem_allIdx _ _).2 hidx, by rw [hoff, dot_mkStrides hidx, zero_add]⟩
  have hnd : (l.map Prod.fst).Nodup := by
    rw [(hperm.map Prod.fst).nodup_iff, hpairs, List.map_map]
    refine List.Nodup.map_on ?_ (allIdx_nodup _)
    intro x hx y hy hxy
    have hx := (mem_allIdx _ _).1 hx
    have hy := (mem_allIdx _ _).1 hy
    simp only [Function.comp_apply, dot_mkStrides hx, dot_mkStrides hy] at hxy
    exact rank_inj hx hy (by omega)
  obtain ⟨hV, _, _⟩ := hnew
  obtain ⟨out, h1, h2, h3, _⟩ := assign_spec id t.data l mem hnd
    (fun q hq => by
      obtain ⟨idx, hidx, rfl⟩ := hmem q hq
      have := (readAt_isSome _ _).1 (hV.2 idx hidx)
      simp only [create, hoff, zero_add] at this
      rw [show (ofDims t.shape.dims).strides = mkStrides t.shape.dims from rfl, dot_mkStrides hidx] at this
      exact this)
    (fun q hq => by
      obtain ⟨idx, hidx, rfl⟩ := hmem q hq
      exact hv idx hidx)
  have hel : ∀ idx, InDims idx t.shape.dims →
      elem (⟨ofDims t.shape.dims, (initSize (ofDims t.shape.dims)).1, out⟩ : Tensor α) idx = elem t idx := by
    intro idx hidx
    have := h3 _ (hin idx hidx)
    unfold elem
    simp only [hoff, zero_add] at this ⊢
    rw [show (ofDims t.shape.dims).strides = mkStrides t.shape.dims from rfl, dot_mkStrides hidx, this]
    simp
  refine ⟨⟨ofDims t.shape.dims, (initSize (ofDims t.shape.dims)).1, out⟩, ?_, rfl, hoff, ⟨hlm, ?_⟩, hel⟩
  · unfold toContiguous
    simp only [create, h1]
  · intro idx hidx
    rw [hel idx hidx]
    exact hv idx hidx

example : ((flip (⟨ofStrides [2, 3] [1, 2], 0, [1, 2, 3, 4, 5, 6]⟩ : Tensor Nat) 1).bind
    (fun t => toContiguous t [0, 0, 0, 0, 0, 0] (contigPairs t))).map (fun u => u.data) = some [5, 3, 1, 6, 4, 2] := by
  decide

/-- `Cast` converts every element, when the flag of the tensor is right. -/
theorem tensor_cast_partial {α β : Type} (conv : α → β) (t : Tensor α) (hv : Valid t) (hp : ∀ d ∈ t.shape.dims, 0 < d)
    (hc : t.shape.contig = true) (hf : Truthful t.shape) (mem : List α) (l : List (Int × Int)) (mem' : List β)
    (hm : (mem'.length : Int) = (initSize t.shape).2) (l' : List (Int × Int)) (hperm : l'.Perm (castPairs t)) :
    ∃ u, cast conv t mem l mem' l' = some u ∧ u.shape = t.shape ∧
      ∀ idx, InDims idx t.shape.dims → elem u idx = (elem t idx).map conv := by
  obtain ⟨hl, hv⟩ := hv
  have hr := (tensor_contiguous _ _ hl hp).1 (hf hc)
  obtain ⟨hV, ⟨i1, hi1, e1⟩, _⟩ := tensor_new t.shape mem' hp hl hm
  have hoff : (initSize t.shape).1 = 0 := by
    have h1 := (reach_spec t.shape hp hl).1 (t.shape.dims.map (fun _ => 0)) (inDims_zero _ hp)
    rw [hr _ (inDims_zero _ hp), rank_zero] at h1
    have e2 := hr i1 hi1
    simp only [create, initSize] at e1 ⊢
    omega
  have hmem : ∀ q ∈ l', ∃ idx, InDims idx t.shape.dims ∧ q = ((rank t.shape.dims idx : Int),
      t.offset + dot idx t.shape.strides) := by
    intro q hq
    have := (hperm.mem_iff).1 hq
    simp only [castPairs, List.mem_map, List.mem_range, numElements_prod] at this
    obtain ⟨k, hk, rfl⟩ := this
    obtain ⟨idx, hidx, e⟩ := rank_surj _ k hk
    exact ⟨idx, hidx, by rw [hr idx hidx, e, hoff, zero_add]⟩
  have hin : ∀ idx, InDims idx t.shape.dims → ((rank t.shape.dims idx : Int), t.offset + dot idx t.shape.strides) ∈ l' := by
    intro idx hidx
    rw [hperm.mem_iff]
    simp only [castPairs, List.mem_map, List.mem_range, numElements_prod]
    exact ⟨rank t.shape.dims idx, rank_lt hidx, by rw [hr idx hidx, hoff, zero_add]⟩
  have hnd : (l'.map Prod.fst).Nodup := by
    rw [(hperm.map Prod.fst).nodup_iff]
    simp only [castPairs, List.map_map]
    refine List.Nodup.map ?_ List.nodup_range
    intro x y hxy
    simp only [Function.comp_apply] at hxy
    omega
  obtain ⟨out, h1, h2, h3, _⟩ := assign_spec conv t.data l' mem' hnd
    (fun q hq => by
      obtain ⟨idx, hidx, rfl⟩ := hmem q hq
      have := (readAt_isSome _ _).1 (hV.2 idx hidx)
      simp only [create, hoff, zero_add, hr idx hidx] at this
      exact this)
    (fun q hq => by
      obtain ⟨idx, hidx, rfl⟩ := hmem q hq
      exact hv idx hidx)
  refine ⟨⟨t.shape, (initSize t.shape).1, out⟩, ?_, rfl, ?_⟩
  · unfold cast castContig
    simp only [hc, if_true, create, h1]
  · intro idx hidx
    have := h3 _ (hin idx hidx)
    unfold elem
    simp only [hoff, zero_add] at this ⊢
    rw [← this, hr idx hidx]

example : (cast (fun x : Nat => x * 10) (⟨ofDims [2], 1, [1, 2, 3]⟩ : Tensor Nat) [] [] [0, 0]
    [(1, 2), (0, 1)]).map (fun u => u.data) = some [20, 30] := by decide

/-- `Cast` converts every element of a tensor that is not marked as contiguous. -/
theorem tensor_cast_strided {α β : Type} (conv : α → β) (t : Tensor α) (hv : Valid t) (hp : ∀ d ∈ t.shape.dims, 0 < d)
    (hc : t.shape.contig = false) (mem : List α) (hm : (mem.length : Int) = (initSize (ofDims t.shape.dims)).2)
    (l : List (Int × Int)) (hperm : l.Perm (contigPairs t)) (mem' : List β)
    (hm' : (mem'.length : Int) = (initSize (ofDims t.shape.dims)).2) (l' : List (Int × Int))
    (hperm' : ∀ u, toContiguous t mem l = some u → l'.Perm (castPairs u)) :
    ∃ u, cast conv t mem l mem' l' = some u ∧ u.shape = ofDims t.shape.dims ∧
      ∀ idx, InDims idx t.shape.dims → elem u idx = (elem t idx).map conv := by
  obtain ⟨u, h1, h2, h3, h4, h5⟩ := tensor_to_contiguous t hv hp mem hm l hperm
  have hd : u.shape.dims = t.shape.dims := by rw [h2]; rfl
  obtain ⟨v, e1, e2, e3⟩ := tensor_cast_partial conv u h4 (by rw [hd]; exact hp) (by rw [h2]; rfl)
    (by rw [h2]; exact (tensor_flag_partial _ [] hp).1) mem l mem' (by rw [h2]; exact hm') l' (hperm' u h1)
  refine ⟨v, ?_, by rw [e2, h2], fun idx hidx => ?_⟩
  · unfold cast at e1 ⊢
    rw [h2] at e1
    simp only [ofDims, if_true] at e1
    simp only [hc, h1, e1]
    simp
  · rw [e3 idx (by rw [hd]; exact hidx), h5 idx hidx]

example : (cast (fun x : Nat => x * 10) (⟨ofStrides [2] [2], 0, [1, 2, 3]⟩ : Tensor Nat) [0, 0] [(1, 2), (0, 0)] [0, 0]
    [(1, 1), (0, 0)]).map (fun u => u.data) = some [10, 30] := by decide

/-- `Clone` and `To` have the elements of the tensor when it begins at the start of its memory or is not marked as
contiguous. -/
theorem tensor_clone_partial {α : Type} (t : Tensor α) (hv : Valid t) (hp : ∀ d ∈ t.shape.dims, 0 < d)
    (h0 : t.shape.contig = true → t.offset = 0) (mem : List α)
    (hm : (mem.length : Int) = (initSize (ofDims t.shape.dims)).2) (l : List (Int × Int))
    (hperm : l.Perm (contigPairs t)) :
    ∃ u v, clone t mem l = some u ∧ toCtx t mem l = some v ∧ Valid u ∧ Valid v ∧
      ∀ idx, InDims idx t.shape.dims → elem u idx = elem t idx ∧ elem v idx = elem t idx := by
  unfold clone toCtx
  by_cases hc : t.shape.contig = true
  · have e : cloneContig t = t := by
      unfold cloneContig
      rw [← h0 hc]
    rw [if_pos hc, if_pos hc, e]
    exact ⟨t, t, rfl, rfl, hv, hv, fun _ _ => ⟨rfl, rfl⟩⟩
  · rw [if_neg hc, if_neg hc]
    obtain ⟨u, h1, h2, h3, h4, h5⟩ := tensor_to_contiguous t hv hp mem hm l hperm
    have e : cloneContig u = u := by
      unfold cloneContig
      rw [← h3]
    rw [h1]
    exact ⟨u, u, rfl, by simp [e], h4, h4, fun idx hidx => ⟨h5 idx hidx, h5 idx hidx⟩⟩

example : (clone (⟨ofDims [2], 0, [1, 2, 3]⟩ : Tensor Nat) [] []).map (fun u => elem u [1]) = some (some 2) := by decide

/-- `Clone` and `To` of row 1 of a matrix are row 0. -/
theorem tensor_clone_neg : ∃ t u : Tensor Nat, index (⟨ofDims [2, 2], 0, [1, 2, 3, 4]⟩ : Tensor Nat) 0 1 = some t ∧
    (∀ mem l, clone t mem l = some u ∧ toCtx t mem l = some u) ∧
    (elem t [0], elem t [1]) = (some 3, some 4) ∧ (elem u [0], elem u [1]) = (some 1, some 2) :=
  ⟨⟨ofDims [2], 2, [1, 2, 3, 4]⟩, ⟨ofDims [2], 0, [1, 2, 3, 4]⟩, by decide, fun _ _ => ⟨rfl, rfl⟩, by decide, by decide⟩

/-- `Clone` of a flipped vector has elements outside the memory, and `Cast` of it writes outside the memory. -/
theorem tensor_flip_copy_neg : ∃ t u : Tensor Nat, flip (⟨ofDims [3], 0, [1, 2, 3]⟩ : Tensor Nat) 0 = some t ∧
    (∀ mem l, clone t mem l = some u) ∧ (elem t [0], elem t [1]) = (some 3, some 2) ∧
    (elem u [0], elem u [1]) = (some 1, none) ∧ initSize t.shape = (2, 3) ∧
    ∀ mem l, cast id t mem l [0, 0, 0] (castPairs t) = none :=
  ⟨⟨⟨[3], [-1], true⟩, 2, [1, 2, 3]⟩, ⟨⟨[3], [-1], true⟩, 0, [1, 2, 3]⟩, by decide, fun _ _ => rfl, by decide,
    by decide, by decide, fun _ _ => rfl⟩

end Verif.Tensor
