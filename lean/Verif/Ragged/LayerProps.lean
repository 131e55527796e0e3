import Verif.Ragged.Layer

/-!
# C05: row_splits and row_ids describe the same partition

Specification: `ValidSplits rs` (starts at 0, never decreases; k2/csrc/ragged.h 44-60), `ValidIds
ids n` (never decreases, entries below the number of rows).
-/

namespace Verif.Ragged

/-- A valid row_splits array. -/
def ValidSplits (rs : List Nat) : Prop := rs[0]? = some 0 ∧ rs.Pairwise (· ≤ ·)

/-- A valid row_ids array for `n` rows. -/
def ValidIds (ids : List Nat) (n : Nat) : Prop := ids.Pairwise (· ≤ ·) ∧ ∀ x ∈ ids, x < n

theorem ValidSplits.sizes {rs : List Nat} (h : ValidSplits rs) :
    ∃ ns, rs = psum ns ∧ rs.length = ns.length + 1 := by
  obtain ⟨h0, hp⟩ := h
  cases rs with
  | nil => simp at h0
  | cons a rest =>
    obtain rfl : a = 0 := by simpa using h0
    obtain ⟨ns, h1, h2⟩ := exists_sizes 0 rest hp
    exact ⟨ns, h1, by simp [h2]⟩

theorem validSplits_psum (ns : List Nat) : ValidSplits (psum ns) :=
  ⟨psumFrom_head 0 ns, psumFrom_pairwise 0 ns⟩

/-- `ValidateRowSplits` accepts exactly the valid row_splits. -/
theorem validRowSplits_iff (rs : List Nat) : validRowSplits rs = true ↔ ValidSplits rs := by
  have key : ∀ (x : Nat) (rest : List Nat),
      ((x :: rest).zip rest).all (fun p => p.1 ≤ p.2) = true ↔ (x :: rest).Pairwise (· ≤ ·) := by
    intro x rest
    induction rest generalizing x with
    | nil => simp
    | cons y rest ih =>
      rw [List.zip_cons_cons, List.all_cons, Bool.and_eq_true, ih y, List.pairwise_cons (a := x)]
      simp only [decide_eq_true_eq]
      constructor
      · rintro ⟨h1, h2⟩
        refine ⟨?_, h2⟩
        intro z hz
        rcases List.mem_cons.mp hz with rfl | hz
        · exact h1
        · exact Nat.le_trans h1 ((List.pairwise_cons.mp h2).1 z hz)
      · rintro ⟨h1, h2⟩
        exact ⟨h1 y (by simp), h2⟩
  cases rs with
  | nil => simp [validRowSplits, ValidSplits]
  | cons x rest =>
    simp only [validRowSplits, ValidSplits, Bool.and_eq_true, beq_iff_eq,
      List.getElem?_cons_zero, Option.some.injEq, key]

/-- Converting valid row_splits to row_ids succeeds, gives valid row_ids, and converting back
gives the same row_splits. -/
theorem rowSplits_roundtrip (rs : List Nat) (h : ValidSplits rs) :
    ∃ n ids, rs[rs.length - 1]? = some n ∧ rowSplitsToRowIds rs n = some ids ∧
      ids.length = n ∧ ValidIds ids (rs.length - 1) ∧
      rowIdsToRowSplits ids (rs.length - 1) = some rs := by
  obtain ⟨ns, rfl, -⟩ := h.sizes
  refine ⟨ns.sum, idsFrom 0 ns, psum_last ns, rowSplitsToRowIds_psum ns, idsFrom_length 0 ns,
    ⟨idsFrom_pairwise 0 ns, ?_⟩, ?_⟩
  · intro x hx
    have := idsFrom_mem 0 ns x hx
    rw [psum_length]; omega
  · rw [psum_length, Nat.add_sub_cancel]; exact rowIdsToRowSplits_idsFrom ns

/-- Converting valid row_ids to row_splits succeeds, gives valid row_splits for that many rows
and elements, and converting back gives the same row_ids. -/
theorem rowIds_roundtrip (ids : List Nat) (n : Nat) (h : ValidIds ids n) :
    ∃ rs, rowIdsToRowSplits ids n = some rs ∧ ValidSplits rs ∧ rs.length = n + 1 ∧
      rs[n]? = some ids.length ∧ rowSplitsToRowIds rs ids.length = some ids := by
  have h1 := ids_eq_idsFrom ids n h.1 h.2
  generalize hns : (List.range n).map (fun r => ids.count r) = ns at h1
  have hl : ns.length = n := by rw [← hns]; simp
  have hlen : ids.length = ns.sum := by rw [h1, idsFrom_length]
  refine ⟨psum ns, ?_, validSplits_psum ns, by rw [psum_length, hl], ?_, ?_⟩
  · rw [h1, ← hl]; exact rowIdsToRowSplits_idsFrom ns
  · rw [← hl, psum_get ns _ (Nat.le_refl _), List.take_length, hlen]
  · rw [hlen, h1]; exact rowSplitsToRowIds_psum ns

/-- Element `i` lies in row `r` exactly if `row_splits[r] <= i < row_splits[r + 1]`. -/
theorem rowIds_spec (rs : List Nat) (h : ValidSplits rs) (n : Nat)
    (hn : rs[rs.length - 1]? = some n) (ids : List Nat) (hids : rowSplitsToRowIds rs n = some ids)
    (i r : Nat) :
    ids[i]? = some r ↔ ∃ b e, rs[r]? = some b ∧ rs[r + 1]? = some e ∧ b ≤ i ∧ i < e := by
  obtain ⟨ns, rfl, -⟩ := h.sizes
  rw [psum_last] at hn
  obtain rfl := Option.some.inj hn
  rw [rowSplitsToRowIds_psum] at hids
  obtain rfl := Option.some.inj hids
  have := idsFrom_get 0 ns i r
  rw [Nat.zero_add] at this
  rw [this]
  constructor
  · rintro ⟨h1, h2, h3⟩
    exact ⟨_, _, psum_get ns r (by omega), psum_get ns (r + 1) (by omega), h2, h3⟩
  · rintro ⟨b, e, h1, h2, h3, h4⟩
    have hr : r < ns.length := by
      have := (List.getElem?_eq_some_iff.mp h2).1
      rw [psum_length] at this; omega
    rw [psum_get ns r (by omega)] at h1
    rw [psum_get ns (r + 1) (by omega)] at h2
    obtain rfl := Option.some.inj h1
    obtain rfl := Option.some.inj h2
    exact ⟨hr, h3, h4⟩

/-- `RowIdsToRowSplits` stops with an error on row_ids that decrease somewhere. -/
theorem rowIdsToRowSplits_decreasing (ids : List Nat) (n : Nat) (h : ¬ ids.Pairwise (· ≤ ·)) :
    rowIdsToRowSplits ids n = none := by
  have key : ∀ (rest out : List Nat) (i : Nat),
      (¬ rest.Pairwise (· ≤ ·) ∨ ∃ x ∈ rest, x + 1 < out.length) →
        rowSplitsLoop n i out rest = none := by
    intro rest
    induction rest with
    | nil => intro out i h; simp at h
    | cons row rest ih =>
      intro out i h
      rw [rowSplitsLoop]
      split
      · rfl
      · split
        · rfl
        · next h1 h2 =>
          apply ih
          have hlen : (out ++ List.replicate (row + 1 - out.length) i).length = row + 1 := by
            rw [List.length_append, List.length_replicate]; omega
          rw [hlen]
          rcases h with h | ⟨x, hx, hlt⟩
          · rw [List.pairwise_cons] at h
            by_cases h3 : ∀ a' ∈ rest, row ≤ a'
            · exact Or.inl (fun h4 => h ⟨h3, h4⟩)
            · push Not at h3
              obtain ⟨x, hx, hlt⟩ := h3
              exact Or.inr ⟨x, hx, by omega⟩
          · rcases List.mem_cons.mp hx with rfl | hx
            · omega
            · exact Or.inr ⟨x, hx, by omega⟩
  unfold rowIdsToRowSplits
  split
  · next h0 => rw [List.eq_nil_of_length_eq_zero h0] at h; simp at h
  · exact key ids [] 0 (Or.inl h)

theorem countP_range_lt (m n : Nat) : (List.range n).countP (fun k => k < m) = min n m := by
  induction n with
  | zero => simp
  | succ n ih =>
    rw [List.range_succ, List.countP_append, ih]
    by_cases h : n < m
    · simp [h]; omega
    · simp [h]; omega

/-- The GPU kernels compute the same arrays as the CPU loops: row_splits to row_ids. -/
theorem rowSplitsToRowIds_gpu (rs : List Nat) (h : ValidSplits rs) (n : Nat)
    (hn : rs[rs.length - 1]? = some n) :
    rowSplitsToRowIds rs n = some (rowSplitsToRowIdsGpu rs n) := by
  obtain ⟨ns, rfl, -⟩ := h.sizes
  rw [psum_last] at hn
  obtain rfl := Option.some.inj hn
  rw [rowSplitsToRowIds_psum]
  congr 1
  have hdl : (psum ns).dropLast = (List.range ns.length).map (fun k => (ns.take k).sum) := by
    apply List.ext_getElem?
    intro k
    rw [List.getElem?_dropLast, psum_length, Nat.add_sub_cancel]
    by_cases hk : k < ns.length
    · rw [if_pos hk, psum_get ns k (by omega)]; simp [hk]
    · rw [if_neg hk, List.getElem?_eq_none (by simpa using hk)]
  apply List.ext_getElem?
  intro i
  by_cases hi : i < ns.sum
  · obtain ⟨r, hr⟩ : ∃ r, (idsFrom 0 ns)[i]? = some r :=
      ⟨_, List.getElem?_eq_getElem (by simpa using hi)⟩
    have hg := idsFrom_get 0 ns i r
    rw [Nat.zero_add] at hg
    obtain ⟨h1, h2, h3⟩ := hg.mp hr
    rw [hr, rowSplitsToRowIdsGpu, List.getElem?_map, List.getElem?_range hi, hdl,
      Option.map_some, List.countP_map]
    have : (List.range ns.length).countP
        ((fun x => decide (x ≤ i)) ∘ (fun k => (ns.take k).sum)) =
        (List.range ns.length).countP (fun k => k < r + 1) := by
      apply List.countP_congr
      intro k _
      simp only [Function.comp_apply, decide_eq_true_eq]
      have mono : ∀ a b : Nat, a ≤ b → (ns.take a).sum ≤ (ns.take b).sum := by
        intro a b hab
        obtain ⟨c, rfl⟩ := Nat.exists_eq_add_of_le hab
        rw [List.take_add, List.sum_append]; omega
      constructor
      · intro hle
        by_contra hc
        have := mono (r + 1) k (by omega)
        omega
      · intro hlt
        have := mono k r (by omega)
        omega
    rw [this, countP_range_lt]
    simp; omega
  · rw [List.getElem?_eq_none (by simpa using hi),
      List.getElem?_eq_none (by simpa [rowSplitsToRowIdsGpu] using hi)]

/-- The GPU kernels compute the same arrays as the CPU loops: row_ids to row_splits. -/
theorem rowIdsToRowSplits_gpu (ids : List Nat) (n : Nat) (h : ValidIds ids n) :
    rowIdsToRowSplits ids n = some (rowIdsToRowSplitsGpu ids n) := by
  rw [rowIdsToRowSplits_eq ids n h.1 h.2]
  congr 1
  apply List.map_congr_left
  intro r hr
  split
  · next hrn =>
    rw [List.countP_eq_length]
    intro x hx
    have := h.2 x hx
    simp; omega
  · rfl

/-! A shape with empty rows at the start, in the middle and at the end. -/

example : ValidSplits [0, 0, 2, 2, 5, 5] ∧
    rowSplitsToRowIds [0, 0, 2, 2, 5, 5] 5 = some [1, 1, 3, 3, 3] ∧
    rowIdsToRowSplits [1, 1, 3, 3, 3] 5 = some [0, 0, 2, 2, 5, 5] ∧
    ValidIds [1, 1, 3, 3, 3] 5 := by
  refine ⟨⟨rfl, by decide⟩, by decide, by decide, by decide, by decide⟩

example : rowIdsToRowSplits [1, 3, 2] 5 = none := by decide

end Verif.Ragged
