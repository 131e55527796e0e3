import Verif.Tensor.IndexLemmas
import Mathlib.Tactic.Abel

/-! # Properties of `index_select`, `index_add` and `simple_ragged_index_select` -/

namespace Verif.Tensor

open Finset

theorem strides1 {s : Shape} {n : Nat} (hd : s.dims = [n]) (hl : s.strides.length = s.dims.length) (k : Nat) :
    dot [k] s.strides = k * strideAt s 0 := by
  rw [hd] at hl
  unfold strideAt
  match hs : s.strides, hl with
  | [a], _ => simp [dot]

theorem strides2 {s : Shape} {n m : Nat} (hd : s.dims = [n, m]) (hl : s.strides.length = s.dims.length) (k j : Nat) :
    dot [k, j] s.strides = k * strideAt s 0 + j * strideAt s 1 := by
  rw [hd] at hl
  unfold strideAt
  match hs : s.strides, hl with
  | [a, b], _ => simp [dot]

theorem inDims1 {k n : Nat} : InDims [k] [n] ↔ k < n := by simp [InDims]

theorem inDims2 {k j n m : Nat} : InDims [k, j] [n, m] ↔ k < n ∧ j < m := by simp [InDims]

theorem sum_order {ι M : Type} [AddCommMonoid M] (f : ι → M) {l l' : List ι} (h : l.Perm l') :
    (l.map f).sum = (l'.map f).sum := (h.map f).sum_eq

theorem sum_list_range {M : Type} [AddCommMonoid M] (n : Nat) (f : Nat → M) :
    ((List.range n).map f).sum = ∑ i ∈ range n, f i := by
  induction n with
  | zero => simp
  | succ n ih => rw [List.range_succ, List.map_append, List.sum_append, ih, sum_range_succ]; simp

theorem sum_list_product {M : Type} [AddCommMonoid M] (n m : Nat) (f : Nat × Nat → M) :
    ((List.range n ×ˢ List.range m).map f).sum = ∑ i ∈ range n, ∑ j ∈ range m, f (i, j) := by
  rw [← sum_list_range]
  simp only [SProd.sprod, List.product]
  induction List.range n with
  | nil => simp
  | cons i l ih =>
    rw [List.flatMap_cons, List.map_append, List.sum_append, ih, List.map_cons, List.sum_cons, List.map_map,
      ← sum_list_range]
    rfl

/-- Different indexes have different addresses. -/
def Injective {α : Type} (t : Tensor α) : Prop := ∀ idx idx', InDims idx t.shape.dims → InDims idx' t.shape.dims →
  dot idx t.shape.strides = dot idx' t.shape.strides → idx = idx'

/-- The element, as a number. -/
def val {α : Type} [Zero α] (t : Tensor α) (idx : List Nat) : α := (elem t idx).getD 0

theorem elem_val {α : Type} [Zero α] {t : Tensor α} (hv : Valid t) {idx : List Nat} (h : InDims idx t.shape.dims) :
    elem t idx = some (val t idx) := by
  obtain ⟨x, hx⟩ := hv.2 idx h
  simp [val, hx]

/-! ## C119: `index_select` and `index_add` -/

/-- `index_select` of a vector that is not empty. -/
theorem index_select_partial {α : Type} (src : Tensor α) (hv : Valid src) (n : Nat) (hd : src.shape.dims = [n])
    (hn : 0 < n) (index : List Int) (hin : ∀ k ∈ index, -1 ≤ k ∧ k < n) (dflt : α) :
    ∃ ans, select1 src index dflt = some ans ∧ ans.length = index.length ∧
      ∀ (i : Nat) (k : Int), index[i]? = some k →
        ans[i]? = if k = -1 then some dflt else elem src [k.toNat] := by
  have hel : ∀ k : Int, -1 ≤ k → ¬ k < 0 → readAt src.data (src.offset + k * strideAt src.shape 0) = elem src [k.toNat] := by
    intro k _ h2
    unfold elem
    rw [strides1 hd hv.1]
    have : (k.toNat : Int) = k := by omega
    rw [this]
  unfold select1
  by_cases h0 : index.length = 0
  · rw [if_pos (Or.inl h0)]
    have : index = [] := List.length_eq_zero_iff.1 h0
    exact ⟨[], rfl, by simp [this], by simp [this]⟩
  · rw [if_neg (by rw [hd]; simp [numElements, h0]; omega)]
    obtain ⟨r, h1, h2, h3⟩ := mapM_spec
      (fun k => if k < 0 then some dflt else readAt src.data (src.offset + k * strideAt src.shape 0)) index (by
        intro k hk
        by_cases hneg : k < 0
        · exact ⟨dflt, by simp [hneg]⟩
        · obtain ⟨x, hx⟩ := hv.2 [k.toNat] (by rw [hd, inDims1]; have := hin k hk; omega)
          exact ⟨x, by simp only [hneg, if_false]; rw [hel k (hin k hk).1 hneg, hx]⟩)
    refine ⟨r, h1, h2, fun i k hik => ?_⟩
    have hk := hin k (List.mem_of_getElem? hik)
    rw [h3 i k hik]
    by_cases hneg : k < 0
    · have : k = -1 := by omega
      simp [this]
    · have : k ≠ -1 := by omega
      simp only [hneg, if_false, this]
      exact hel k hk.1 hneg

example : select1 (⟨ofStrides [3] [2], 0, [10, 11, 12, 13, 14]⟩ : Tensor Nat) [2, -1, 0] 7 = some [14, 7, 10] := by decide

/-- `index_select` of a vector without elements is empty, although the index has an entry. -/
theorem index_select_empty_neg : select1 (vec ([] : List Nat)) [-1] 7 = some [] ∧
    composeArcMaps [] [-1] = some [] := by decide

/-- `index_select` of a matrix with rows. -/
theorem index_select2_partial {α : Type} [Zero α] (src : Tensor α) (hv : Valid src) (n m : Nat)
    (hd : src.shape.dims = [n, m]) (hs : strideAt src.shape 1 = 1) (hn : 0 < n) (index : List Int)
    (hin : ∀ k ∈ index, -1 ≤ k ∧ k < n) :
    ∃ ans, select2 src index = some ans ∧ ans.length = index.length ∧
      ∀ (i : Nat) (k : Int), index[i]? = some k → ∃ row, ans[i]? = some row ∧ row.length = m ∧
        ∀ j, j < m → row[j]? = if k = -1 then some 0 else elem src [k.toNat, j] := by
  have hd0 : dimAt src.shape 0 = n := by simp [dimAt, hd]
  have hd1 : dimAt src.shape 1 = m := by simp [dimAt, hd]
  unfold select2
  rw [if_neg (by simp [hs]), hd0, hd1]
  by_cases h0 : index.length = 0
  · rw [if_pos (Or.inl h0)]
    have : index = [] := List.length_eq_zero_iff.1 h0
    exact ⟨[], rfl, by simp [this], by simp [this]⟩
  · rw [if_neg (by omega)]
    have hrow : ∀ k ∈ index, ∃ row, (List.range m).mapM (fun (j : Nat) =>
        if k < 0 then some 0 else readAt src.data (src.offset + (k * strideAt src.shape 0 + j))) = some row ∧
        row.length = m ∧ ∀ j, j < m → row[j]? = if k = -1 then some 0 else elem src [k.toNat, j] := by
      intro k hk
      have hk' := hin k hk
      have hel : ∀ j, j < m → (if k < 0 then some 0 else readAt src.data (src.offset + (k * strideAt src.shape 0 + j))) =
          if k = -1 then some 0 else elem src [k.toNat, j] := by
        intro j hj
        by_cases hneg : k < 0
        · have : k = -1 := by omega
          simp [this]
        · have h1 : k ≠ -1 := by omega
          have h2 : (k.toNat : Int) = k := by omega
          simp only [hneg, if_false, h1]
          unfold elem
          rw [strides2 hd hv.1, hs, h2, mul_one]
      obtain ⟨row, h1, h2, h3⟩ := mapM_spec (fun (j : Nat) =>
        if k < 0 then some 0 else readAt src.data (src.offset + (k * strideAt src.shape 0 + j))) (List.range m) (by
          intro j hj
          have hj := List.mem_range.1 hj
          rw [hel j hj]
          by_cases h1 : k = -1
          · exact ⟨0, by simp [h1]⟩
          · obtain ⟨x, hx⟩ := hv.2 [k.toNat, j] (by rw [hd, inDims2]; omega)
            exact ⟨x, by simp [h1, hx]⟩)
      refine ⟨row, h1, by simpa using h2, fun j hj => ?_⟩
      rw [h3 j j (by simp [hj])]
      exact hel j hj
    obtain ⟨r, h1, h2, h3⟩ := mapM_spec _ index (fun k hk => (hrow k hk).imp (fun _ h => h.1))
    refine ⟨r, h1, h2, fun i k hik => ?_⟩
    obtain ⟨row, e1, e2, e3⟩ := hrow k (List.mem_of_getElem? hik)
    exact ⟨row, by rw [h3 i k hik]; exact e1, e2, e3⟩

example : select2 (⟨ofStrides [2, 2] [3, 1], 0, [1, 2, 3, 4, 5]⟩ : Tensor Nat) [1, -1, 0] =
    some [[4, 5], [0, 0], [1, 2]] := by decide

/-- Selecting twice is selecting with the composed map. -/
theorem compose_arc_maps_partial {α : Type} (x : List α) (dflt : α) (step1 step2 : List Int) (hx : x ≠ [])
    (h1 : step1 ≠ []) (hin1 : ∀ k ∈ step1, -1 ≤ k ∧ k < x.length) (hin2 : ∀ k ∈ step2, -1 ≤ k ∧ k < step1.length) :
    ∃ y z m, select1 (vec x) step1 dflt = some y ∧ composeArcMaps step1 step2 = some m ∧ m.length = step2.length ∧
      select1 (vec y) step2 dflt = some z ∧ select1 (vec x) m dflt = some z := by
  have hvec : ∀ {β : Type} (l : List β), Valid (vec l) := by
    intro β l
    refine ⟨rfl, fun idx hidx => (readAt_isSome _ _).2 ?_⟩
    cases hidx with
    | cons ha hb =>
      cases hb
      simp [vec, ofDims, mkStrides, dot]
      omega
  have hel : ∀ {β : Type} (l : List β) (k : Nat), elem (vec l) [k] = l[k]? := by
    intro β l k
    simp [elem, vec, ofDims, mkStrides, dot, readAt]
  have hlen : ∀ {β : Type} (l : List β), l ≠ [] → 0 < l.length := fun l h => List.length_pos_iff.2 h
  obtain ⟨y, e1, l1, g1⟩ := index_select_partial (vec x) (hvec x) x.length rfl (hlen x hx) step1 hin1 dflt
  obtain ⟨m, e2, l2, g2⟩ := index_select_partial (vec step1) (hvec step1) step1.length rfl (hlen step1 h1) step2 hin2 (-1)
  have hy : y ≠ [] := by intro h; rw [h] at l1; exact h1 (List.length_eq_zero_iff.1 l1.symm)
  obtain ⟨z, e3, l3, g3⟩ := index_select_partial (vec y) (hvec y) y.length rfl (hlen y hy) step2
    (by rw [l1]; exact hin2) dflt
  have hm : ∀ k ∈ m, -1 ≤ k ∧ k < x.length := by
    intro k hk
    obtain ⟨i, hi⟩ := List.getElem?_of_mem hk
    have hi2 : i < step2.length := by rw [← l2]; exact (List.getElem?_eq_some_iff.1 hi).1
    have := g2 i step2[i] (List.getElem?_eq_getElem hi2)
    rw [hi] at this
    split at this
    · simp at this; omega
    · rw [hel] at this
      exact hin1 k (List.mem_of_getElem? this.symm)
  obtain ⟨z', e4, l4, g4⟩ := index_select_partial (vec x) (hvec x) x.length rfl (hlen x hx) m hm dflt
  refine ⟨y, z, m, e1, e2, l2, e3, ?_⟩
  rw [e4]
  congr 1
  apply List.ext_getElem?
  intro i
  by_cases hi : i < step2.length
  · have k2 := List.getElem?_eq_getElem hi
    have hi' : i < m.length := by omega
    have km := List.getElem?_eq_getElem hi'
    rw [g4 i _ km, g3 i _ k2]
    have a2 := g2 i _ k2
    rw [km] at a2
    by_cases h : step2[i] = -1
    · simp only [h, if_true, Option.some.injEq] at a2 ⊢
      simp [a2]
    · simp only [h, if_false] at a2 ⊢
      rw [hel step1] at a2
      rw [hel y, g1 _ _ a2.symm]
  · rw [List.getElem?_eq_none (by omega), List.getElem?_eq_none (by omega)]

example : composeArcMaps [4, -1, 2] [2, 1, -1, 0] = some [2, -1, -1, 4] := by decide

/-- `index_add` with one axis, in every order of the additions. -/
theorem index_add {α : Type} [AddCommMonoid α] (src dest : Tensor α) (hvs : Valid src) (hvd : Valid dest)
    (hi : Injective dest) (n m : Nat) (hs : src.shape.dims = [n]) (hd : dest.shape.dims = [m]) (index : List Int)
    (hl : index.length = n) (hin : ∀ k ∈ index, -1 ≤ k ∧ k < m) (order : List Nat)
    (hord : order.Perm (List.range n)) :
    ∃ u, indexAdd1 src index dest order = some u ∧ u.shape = dest.shape ∧ Valid u ∧
      ∀ k, k < m → val u [k] = val dest [k] + ∑ i ∈ range n, if index[i]? = some (k : Int) then val src [i] else 0 := by
  have hget : ∀ i ∈ order, ∃ k : Int, index[i]? = some k ∧ -1 ≤ k ∧ k < m ∧ i < n := by
    intro i hi
    have hi := List.mem_range.1 ((hord.mem_iff).1 hi)
    have e := List.getElem?_eq_getElem (l := index) (i := i) (by omega)
    have := hin _ (List.mem_of_getElem? e)
    exact ⟨_, e, this.1, this.2, hi⟩
  have hsrc : ∀ i, i < n → readAt src.data (src.offset + i * strideAt src.shape 0) = some (val src [i]) := by
    intro i hi
    have := elem_val hvs (idx := [i]) (by rw [hs, inDims1]; exact hi)
    unfold elem at this
    rw [strides1 hs hvs.1] at this
    exact this
  have hdst : ∀ k, k < m → 0 ≤ dest.offset + k * strideAt dest.shape 0 ∧
      dest.offset + k * strideAt dest.shape 0 < dest.data.length := by
    intro k hk
    have := (readAt_isSome _ _).1 (hvd.2 [k] (by rw [hd, inDims1]; exact hk))
    rw [strides1 hd hvd.1] at this
    exact this
  obtain ⟨out, h1, h2, h3⟩ := adds_spec (fun i data => addThread1 src index dest i data)
    (fun i => match index[i]? with
      | none => none
      | some k => if k = -1 then none else some (dest.offset + k * strideAt dest.shape 0, val src [i]))
    dest.data.length order
    (by
      intro i hi data
      obtain ⟨k, e, h1, h2, h3⟩ := hget i hi
      unfold addThread1
      simp only [e]
      by_cases hk : k = -1
      · simp [hk]
      · simp only [ne_eq, hk, not_false_eq_true, if_true, hsrc i h3, if_false])
    (by
      intro i hi p x hc
      obtain ⟨k, e, h1, h2, h3⟩ := hget i hi
      simp only [e] at hc
      by_cases hk : k = -1
      · simp [hk] at hc
      · simp only [hk, if_false, Option.some.injEq, Prod.mk.injEq] at hc
        have := hdst k.toNat (by omega)
        rw [show ((k.toNat : Nat) : Int) = k by omega] at this
        rw [← hc.1]
        exact this)
    dest.data rfl
  have hdim : dimAt src.shape 0 = n := by simp [dimAt, hs]
  refine ⟨{ dest with data := out }, ?_, rfl, ⟨hvd.1, fun idx hidx => (readAt_isSome _ _).2 ?_⟩, ?_⟩
  · unfold indexAdd1
    rw [hdim, if_neg (by omega), h1]
    rfl
  · have := (readAt_isSome _ _).1 (hvd.2 idx hidx)
    simp only [h2]
    exact this
  · intro k hk
    have ek := elem_val hvd (idx := [k]) (by rw [hd, inDims1]; exact hk)
    have e2 : elem ({ dest with data := out } : Tensor α) [k] = _ := h3 (dest.offset + dot [k] dest.shape.strides)
    unfold val at ⊢
    rw [e2]
    unfold elem at ek
    simp only [ek, Option.map_some, Option.getD_some]
    rw [show elem dest [k] = _ from ek, Option.getD_some, sum_order _ hord, sum_list_range]
    congr 1
    refine sum_congr rfl (fun i hi' => ?_)
    have hin' := mem_range.1 hi'
    obtain ⟨j, e, j1, j2, _⟩ := hget i ((hord.mem_iff).2 (List.mem_range.2 hin'))
    simp only [e]
    by_cases hj : j = -1
    · have : ¬ (-1 : Int) = (k : Int) := by omega
      simp [hj, contrib, this]
    · simp only [hj, if_false, contrib, Option.some.injEq]
      have hiff : dest.offset + j * strideAt dest.shape 0 = dest.offset + dot [k] dest.shape.strides ↔ j = (k : Int) := by
        constructor
        · intro h
          have h' : dot [j.toNat] dest.shape.strides = dot [k] dest.shape.strides := by
            rw [strides1 hd hvd.1, show ((j.toNat : Nat) : Int) = j by omega]
            omega
          have := hi [j.toNat] [k] (by rw [hd, inDims1]; omega) (by rw [hd, inDims1]; exact hk) h'
          simp at this
          omega
        · intro h
          rw [strides1 hd hvd.1, h]
      simp only [hiff]
      rfl

example : (indexAdd1 (vec [10, 20, 30]) [1, -1, 1] (vec [1, 2]) [2, 0, 1]).map (fun u => u.data) = some [1, 42] := by
  decide

/-- `index_add` with two axes. -/
theorem index_add2 {α : Type} [AddCommMonoid α] (src dest : Tensor α) (hvs : Valid src) (hvd : Valid dest)
    (hi : Injective dest) (n m c : Nat) (hs : src.shape.dims = [n, c]) (hd : dest.shape.dims = [m, c])
    (index : List Int) (hl : index.length = n) (hin : ∀ k ∈ index, -1 ≤ k ∧ k < m) (order : List (Nat × Nat))
    (hord : order.Perm (List.range n ×ˢ List.range c)) :
    ∃ u, indexAdd2 src index dest order = some u ∧ u.shape = dest.shape ∧ Valid u ∧
      ∀ k j, k < m → j < c → val u [k, j] = val dest [k, j] +
        ∑ i ∈ range n, if index[i]? = some (k : Int) then val src [i, j] else 0 := by
  have hget : ∀ ij ∈ order, ∃ k : Int, index[ij.1]? = some k ∧ -1 ≤ k ∧ k < m ∧ ij.1 < n ∧ ij.2 < c := by
    intro ij hij
    obtain ⟨a, b⟩ := ij
    have hij := List.mem_product.1 ((hord.mem_iff).1 hij)
    simp only [List.mem_range] at hij
    have e := List.getElem?_eq_getElem (l := index) (i := a) (by omega)
    have := hin _ (List.mem_of_getElem? e)
    exact ⟨_, e, this.1, this.2, hij.1, hij.2⟩
  have hsrc : ∀ i j : Nat, i < n → j < c →
      readAt src.data (src.offset + (i * strideAt src.shape 0 + j * strideAt src.shape 1)) = some (val src [i, j]) := by
    intro i j hi hj
    have := elem_val hvs (idx := [i, j]) (by rw [hs, inDims2]; exact ⟨hi, hj⟩)
    unfold elem at this
    rw [strides2 hs hvs.1] at this
    exact this
  have hdst : ∀ k j : Nat, k < m → j < c →
      0 ≤ dest.offset + (k * strideAt dest.shape 0 + j * strideAt dest.shape 1) ∧
      dest.offset + (k * strideAt dest.shape 0 + j * strideAt dest.shape 1) < dest.data.length := by
    intro k j hk hj
    have := (readAt_isSome _ _).1 (hvd.2 [k, j] (by rw [hd, inDims2]; exact ⟨hk, hj⟩))
    rw [strides2 hd hvd.1] at this
    exact this
  obtain ⟨out, h1, h2, h3⟩ := adds_spec (fun ij data => addThread2 src index dest ij data)
    (fun ij => match index[ij.1]? with
      | none => none
      | some k => if k = -1 then none
        else some (dest.offset + (k * strideAt dest.shape 0 + ij.2 * strideAt dest.shape 1), val src [ij.1, ij.2]))
    dest.data.length order
    (by
      intro ij hij data
      obtain ⟨k, e, h1, h2, h3, h4⟩ := hget ij hij
      unfold addThread2
      simp only [e]
      by_cases hk : k = -1
      · simp [hk]
      · simp only [ne_eq, hk, not_false_eq_true, if_true, hsrc ij.1 ij.2 h3 h4, if_false])
    (by
      intro ij hij p x hc
      obtain ⟨k, e, h1, h2, h3, h4⟩ := hget ij hij
      simp only [e] at hc
      by_cases hk : k = -1
      · simp [hk] at hc
      · simp only [hk, if_false, Option.some.injEq, Prod.mk.injEq] at hc
        have := hdst k.toNat ij.2 (by omega) h4
        rw [show ((k.toNat : Nat) : Int) = k by omega] at this
        rw [← hc.1]
        exact this)
    dest.data rfl
  have hdim : dimAt src.shape 0 = n := by simp [dimAt, hs]
  have hdim1 : dimAt src.shape 1 = c := by simp [dimAt, hs]
  have hdim2 : dimAt dest.shape 1 = c := by simp [dimAt, hd]
  refine ⟨{ dest with data := out }, ?_, rfl, ⟨hvd.1, fun idx hidx => (readAt_isSome _ _).2 ?_⟩, ?_⟩
  · unfold indexAdd2
    rw [hdim, hdim1, hdim2, if_neg (by omega), h1]
    rfl
  · have := (readAt_isSome _ _).1 (hvd.2 idx hidx)
    simp only [h2]
    exact this
  · intro k b hk hb
    have ek := elem_val hvd (idx := [k, b]) (by rw [hd, inDims2]; exact ⟨hk, hb⟩)
    have e2 : elem ({ dest with data := out } : Tensor α) [k, b] = _ := h3 (dest.offset + dot [k, b] dest.shape.strides)
    unfold val at ⊢
    rw [e2]
    unfold elem at ek
    simp only [ek, Option.map_some, Option.getD_some]
    rw [show elem dest [k, b] = _ from ek, Option.getD_some, sum_order _ hord, sum_list_product]
    congr 1
    refine sum_congr rfl (fun i hi' => ?_)
    have hin' := mem_range.1 hi'
    rw [sum_eq_single b]
    · obtain ⟨j, e, j1, j2, _⟩ := hget (i, b) ((hord.mem_iff).2 (List.mem_product.2
        ⟨List.mem_range.2 hin', List.mem_range.2 hb⟩))
      simp only at e
      simp only [e]
      by_cases hj : j = -1
      · have : ¬ (-1 : Int) = (k : Int) := by omega
        simp [hj, contrib, this]
      · simp only [hj, if_false, contrib, Option.some.injEq]
        have hiff : dest.offset + (j * strideAt dest.shape 0 + b * strideAt dest.shape 1) =
            dest.offset + dot [k, b] dest.shape.strides ↔ j = (k : Int) := by
          constructor
          · intro h
            have h' : dot [j.toNat, b] dest.shape.strides = dot [k, b] dest.shape.strides := by
              rw [strides2 hd hvd.1, show ((j.toNat : Nat) : Int) = j by omega]
              omega
            have := hi [j.toNat, b] [k, b] (by rw [hd, inDims2]; omega) (by rw [hd, inDims2]; omega) h'
            simp at this
            omega
          · intro h
            rw [strides2 hd hvd.1, h]
        simp only [hiff]
        rfl
    · intro b' hb' hne
      have hb' := mem_range.1 hb'
      obtain ⟨j, e, j1, j2, _⟩ := hget (i, b') ((hord.mem_iff).2 (List.mem_product.2
        ⟨List.mem_range.2 hin', List.mem_range.2 hb'⟩))
      simp only at e
      simp only [e]
      by_cases hj : j = -1
      · simp [hj, contrib]
      · simp only [hj, if_false, contrib]
        rw [if_neg]
        intro h
        have h' : dot [j.toNat, b'] dest.shape.strides = dot [k, b] dest.shape.strides := by
          rw [strides2 hd hvd.1, show ((j.toNat : Nat) : Int) = j by omega]
          omega
        have := hi [j.toNat, b'] [k, b] (by rw [hd, inDims2]; omega) (by rw [hd, inDims2]; omega) h'
        simp at this
        exact hne this.2
    · intro h
      exact absurd (mem_range.2 hb) h

example : (indexAdd2 (⟨ofDims [2, 2], 0, [1, 2, 3, 4]⟩ : Tensor Nat) [1, 1] ⟨ofDims [2, 2], 0, [0, 0, 10, 20]⟩
    [(1, 1), (0, 0), (1, 0), (0, 1)]).map (fun u => u.data) = some [0, 0, 14, 26] := by decide

end Verif.Tensor
