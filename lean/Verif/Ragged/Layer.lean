import Mathlib.Algebra.BigOperators.Group.List.Basic
import Mathlib.Data.List.Sort

/-!
# One layer of a ragged shape: row_splits and row_ids

Model of `RowSplitsToRowIds` and `RowIdsToRowSplits` (k2/csrc/utils.cu 75-93, 159-200), the two
functions that convert between the two representations of a layer of a `RaggedShape`
(k2/csrc/ragged.h).  Arrays are lists of `Nat`; writing the elements of an array in increasing
position is appending.  `none` stands for a failed `K2_CHECK` or for an array element that is
read without having been written.
-/

namespace Verif.Ragged

/-! ## Model -/

/-- The double loop of the CPU branch of `RowSplitsToRowIds`, k2/csrc/utils.cu 85-89: `cur` is
`cur_row_start`, `row` the row, the list holds `row_splits[row + 1], ...`. -/
def rowIdsLoop (cur row : Nat) (out : List Nat) : List Nat → List Nat
  | [] => out
  | next :: rest => rowIdsLoop (max cur next) (row + 1) (out ++ List.replicate (next - cur) row) rest

/-- `RowSplitsToRowIds` on the CPU, k2/csrc/utils.cu 75-90.  The caller supplies an array of
`numElems` elements to fill. -/
def rowSplitsToRowIds (rs : List Nat) (numElems : Nat) : Option (List Nat) :=
  if numElems = 0 then some []
  else if rs.length ≤ 1 then none
  else if rs[0]? = some 0 ∧ rs[rs.length - 1]? = some numElems then
    some (rowIdsLoop 0 0 [] rs.tail)
  else none

/-- The loop of the CPU branch of `RowIdsToRowSplits`, k2/csrc/utils.cu 171-184.  The list `out`
is the part of row_splits already written, so `cur_row = out.length - 1`; `i` is the position in
row_ids.  Writing past the end of row_splits is undefined behaviour (`none`). -/
def rowSplitsLoop (numRows i : Nat) (out : List Nat) : List Nat → Option (List Nat)
  | [] => some (out ++ List.replicate (numRows + 1 - out.length) i)
  | row :: rest =>
    if row + 1 < out.length then none
    else if numRows < row then none
    else rowSplitsLoop numRows (i + 1) (out ++ List.replicate (row + 1 - out.length) i) rest

/-- `RowIdsToRowSplits` on the CPU, k2/csrc/utils.cu 159-184. -/
def rowIdsToRowSplits (ids : List Nat) (numRows : Nat) : Option (List Nat) :=
  if ids.length = 0 then some (List.replicate (numRows + 1) 0)
  else rowSplitsLoop numRows 0 [] ids

/-- `RowSplitsToRowIds` on the GPU, k2/csrc/utils.cu 93-96: `mgpu::load_balance_search` puts at
position `i` the upper bound of `i` in the first `num_rows` row_splits, minus one. -/
def rowSplitsToRowIdsGpu (rs : List Nat) (numElems : Nat) : List Nat :=
  (List.range numElems).map (fun i => (rs.dropLast.countP (fun x => x ≤ i)) - 1)

/-- `RowIdsToRowSplits` on the GPU, k2/csrc/utils.cu 186-199: `mgpu::sorted_search` with
`bounds_lower` puts at position `i < num_rows` the number of row_ids smaller than `i`; position
`num_rows` holds the number of elements. -/
def rowIdsToRowSplitsGpu (ids : List Nat) (numRows : Nat) : List Nat :=
  (List.range (numRows + 1)).map (fun i =>
    if i = numRows then ids.length else ids.countP (fun x => x < i))

/-- `ValidateRowSplits`, k2/csrc/array_ops.cu 194-221. -/
def validRowSplits (rs : List Nat) : Bool :=
  match rs with
  | [] => false
  | x :: rest => x == 0 && ((x :: rest).zip rest).all (fun p => p.1 ≤ p.2)

/-! ## Row sizes -/

/-- Exclusive prefix sums followed by the total, starting at `a` (`ExclusiveSum`,
k2/csrc/utils_inl.h 30-44, on an array with one extra element). -/
def psumFrom (a : Nat) : List Nat → List Nat
  | [] => [a]
  | n :: ns => a :: psumFrom (a + n) ns

/-- row_splits from row sizes. -/
def psum (ns : List Nat) : List Nat := psumFrom 0 ns

/-- row_ids from row sizes. -/
def idsFrom (r : Nat) : List Nat → List Nat
  | [] => []
  | n :: ns => List.replicate n r ++ idsFrom (r + 1) ns

/-! ## Lemmas -/

@[simp] theorem psumFrom_length (a : Nat) (ns : List Nat) :
    (psumFrom a ns).length = ns.length + 1 := by
  induction ns generalizing a with
  | nil => rfl
  | cons n ns ih => simp [psumFrom, ih]

@[simp] theorem psum_length (ns : List Nat) : (psum ns).length = ns.length + 1 :=
  psumFrom_length 0 ns

theorem psumFrom_get (a : Nat) (ns : List Nat) (k : Nat) (h : k ≤ ns.length) :
    (psumFrom a ns)[k]? = some (a + (ns.take k).sum) := by
  induction ns generalizing a k with
  | nil =>
    have : k = 0 := by simpa using h
    subst this; simp [psumFrom]
  | cons n ns ih =>
    cases k with
    | zero => simp [psumFrom]
    | succ k =>
      have := ih (a + n) k (by simpa using h)
      simp [psumFrom, this, Nat.add_assoc]

theorem psum_get (ns : List Nat) (k : Nat) (h : k ≤ ns.length) :
    (psum ns)[k]? = some (ns.take k).sum := by
  rw [psum, psumFrom_get 0 ns k h, Nat.zero_add]

theorem psumFrom_head (a : Nat) (ns : List Nat) : (psumFrom a ns)[0]? = some a := by
  cases ns <;> rfl

theorem psumFrom_ge (a : Nat) (ns : List Nat) : ∀ x ∈ psumFrom a ns, a ≤ x := by
  induction ns generalizing a with
  | nil => simp [psumFrom]
  | cons n ns ih =>
    intro x hx
    rcases List.mem_cons.mp hx with rfl | hx
    · exact Nat.le_refl _
    · have := ih (a + n) x hx; omega

theorem psumFrom_pairwise (a : Nat) (ns : List Nat) : (psumFrom a ns).Pairwise (· ≤ ·) := by
  induction ns generalizing a with
  | nil => simp [psumFrom]
  | cons n ns ih =>
    rw [psumFrom, List.pairwise_cons]
    exact ⟨fun x hx => by have := psumFrom_ge _ _ x hx; omega, ih _⟩

/-- Every non-decreasing list is a list of prefix sums. -/
theorem exists_sizes (a : Nat) (rest : List Nat) (h : (a :: rest).Pairwise (· ≤ ·)) :
    ∃ ns : List Nat, a :: rest = psumFrom a ns ∧ ns.length = rest.length := by
  induction rest generalizing a with
  | nil => exact ⟨[], rfl, rfl⟩
  | cons b rest ih =>
    rw [List.pairwise_cons] at h
    obtain ⟨ns, h1, h2⟩ := ih b h.2
    have hab := h.1 b (by simp)
    refine ⟨(b - a) :: ns, ?_, by simp [h2]⟩
    rw [psumFrom, show a + (b - a) = b by omega, ← h1]

@[simp] theorem idsFrom_length (r : Nat) (ns : List Nat) : (idsFrom r ns).length = ns.sum := by
  induction ns generalizing r with
  | nil => rfl
  | cons n ns ih => simp [idsFrom, ih]

theorem idsFrom_mem (r : Nat) (ns : List Nat) : ∀ x ∈ idsFrom r ns, r ≤ x ∧ x < r + ns.length := by
  induction ns generalizing r with
  | nil => simp [idsFrom]
  | cons n ns ih =>
    intro x hx
    rw [idsFrom, List.mem_append] at hx
    rcases hx with hx | hx
    · have := List.eq_of_mem_replicate hx
      simp only [List.length_cons]; omega
    · have := ih (r + 1) x hx
      simp only [List.length_cons]; omega

theorem idsFrom_pairwise (r : Nat) (ns : List Nat) : (idsFrom r ns).Pairwise (· ≤ ·) := by
  induction ns generalizing r with
  | nil => simp [idsFrom]
  | cons n ns ih =>
    rw [idsFrom, List.pairwise_append]
    refine ⟨by simp [List.pairwise_replicate], ih _, ?_⟩
    intro x hx y hy
    have h1 := List.eq_of_mem_replicate hx
    have h2 := idsFrom_mem _ _ y hy
    omega

theorem idsFrom_countP (r k : Nat) (ns : List Nat) :
    (idsFrom r ns).countP (fun x => x < r + k) = (ns.take k).sum := by
  induction ns generalizing r k with
  | nil => simp [idsFrom]
  | cons n ns ih =>
    rw [idsFrom, List.countP_append]
    cases k with
    | zero =>
      have : (idsFrom (r + 1) ns).countP (fun x => x < r + 0) = 0 := by
        rw [List.countP_eq_zero]
        intro x hx
        have := idsFrom_mem _ _ x hx
        simp; omega
      rw [this]
      simp [List.countP_replicate]
    | succ k =>
      have := ih (r + 1) k
      rw [show r + 1 + k = r + (k + 1) by omega] at this
      rw [this]
      simp [List.countP_replicate]

/-- Element `i` is in row `r` exactly if it lies between the two prefix sums. -/
theorem idsFrom_get (r₀ : Nat) (ns : List Nat) (i r : Nat) :
    (idsFrom r₀ ns)[i]? = some (r₀ + r) ↔
      r < ns.length ∧ (ns.take r).sum ≤ i ∧ i < (ns.take (r + 1)).sum := by
  induction ns generalizing r₀ i r with
  | nil => simp [idsFrom]
  | cons n ns ih =>
    rw [idsFrom]
    by_cases hi : i < n
    · rw [List.getElem?_append_left (by simpa using hi), List.getElem?_replicate, if_pos hi]
      constructor
      · intro h
        have : r = 0 := by have := Option.some.inj h; omega
        subst this; simpa using hi
      · rintro ⟨h1, h2, h3⟩
        cases r with
        | zero => rfl
        | succ r => simp only [List.take_succ_cons, List.sum_cons] at h2; omega
    · rw [List.getElem?_append_right (by simpa using hi), List.length_replicate]
      cases r with
      | zero =>
        constructor
        · intro h
          have := (idsFrom_mem _ _ _ (List.mem_of_getElem? h)).1; omega
        · rintro ⟨h1, h2, h3⟩
          simp at h3; omega
      | succ r =>
        rw [show r₀ + (r + 1) = r₀ + 1 + r by omega, ih]
        simp only [List.length_cons, List.take_succ_cons, List.sum_cons]
        omega

theorem rowIdsLoop_psum (cur row : Nat) (out ns : List Nat) :
    rowIdsLoop cur row out (psumFrom cur ns).tail = out ++ idsFrom row ns := by
  induction ns generalizing cur row out with
  | nil => simp [psumFrom, rowIdsLoop, idsFrom]
  | cons n ns ih =>
    have h : (psumFrom cur (n :: ns)).tail = (cur + n) :: (psumFrom (cur + n) ns).tail := by
      cases ns <;> rfl
    rw [h, rowIdsLoop, show max cur (cur + n) = cur + n by omega,
      show cur + n - cur = n by omega, ih, idsFrom, List.append_assoc]

theorem psum_last (ns : List Nat) : (psum ns)[(psum ns).length - 1]? = some ns.sum := by
  rw [psum_length, Nat.add_sub_cancel, psum_get ns _ (Nat.le_refl _), List.take_length]

theorem rowSplitsToRowIds_psum (ns : List Nat) :
    rowSplitsToRowIds (psum ns) ns.sum = some (idsFrom 0 ns) := by
  unfold rowSplitsToRowIds
  split
  · next h => simpa using (List.eq_nil_of_length_eq_zero (by simpa using h)).symm
  · next h =>
    have hl : ns.length ≠ 0 := by
      intro h0; exact h (by simp [List.eq_nil_of_length_eq_zero h0])
    rw [if_neg (by rw [psum_length]; omega), if_pos ⟨psumFrom_head 0 ns, psum_last ns⟩]
    have := rowIdsLoop_psum 0 0 [] ns
    simpa [psum] using this

theorem rowSplitsLoop_eq (n i : Nat) (out rest : List Nat) (hs : rest.Pairwise (· ≤ ·))
    (hlo : ∀ x ∈ rest, out.length ≤ x + 1) (hhi : ∀ x ∈ rest, x < n) :
    rowSplitsLoop n i out rest = some (out ++
      (List.range' out.length (n + 1 - out.length)).map (fun r => i + rest.countP (fun x => x < r))) := by
  induction rest generalizing i out with
  | nil => simp [rowSplitsLoop, List.map_const']
  | cons row rest ih =>
    rw [List.pairwise_cons] at hs
    have h1 := hlo row (by simp)
    have h2 := hhi row (by simp)
    rw [rowSplitsLoop, if_neg (by omega), if_neg (by omega)]
    have hlen : (out ++ List.replicate (row + 1 - out.length) i).length = row + 1 := by
      rw [List.length_append, List.length_replicate]; omega
    rw [ih (i + 1) _ hs.2 (fun x hx => by rw [hlen]; have := hs.1 x hx; omega)
      (fun x hx => hhi x (by simp [hx]))]
    rw [hlen, List.append_assoc]
    congr 2
    rw [show n + 1 - out.length = (row + 1 - out.length) + (n + 1 - (row + 1)) by omega,
      ← List.range'_append_1, List.map_append,
      show out.length + (row + 1 - out.length) = row + 1 by omega]
    congr 1
    · symm
      rw [List.eq_replicate_iff]
      refine ⟨by simp, ?_⟩
      intro y hy
      obtain ⟨r, hr, rfl⟩ := List.mem_map.mp hy
      rw [List.mem_range'_1] at hr
      have : (row :: rest).countP (fun x => x < r) = 0 := by
        rw [List.countP_eq_zero]
        intro x hx
        rcases List.mem_cons.mp hx with rfl | hx
        · simp; omega
        · have := hs.1 x hx
          simp; omega
      omega
    · apply List.map_congr_left
      intro r hr
      rw [List.mem_range'_1] at hr
      rw [List.countP_cons, if_pos (by simp; omega)]
      omega

/-- On non-decreasing row_ids in range the loop counts the smaller row_ids. -/
theorem rowIdsToRowSplits_eq (ids : List Nat) (n : Nat) (hs : ids.Pairwise (· ≤ ·))
    (hhi : ∀ x ∈ ids, x < n) :
    rowIdsToRowSplits ids n =
      some ((List.range (n + 1)).map (fun r => ids.countP (fun x => x < r))) := by
  unfold rowIdsToRowSplits
  split
  · next h =>
    rw [List.eq_nil_of_length_eq_zero h]
    simp [List.map_const']
  · rw [rowSplitsLoop_eq n 0 [] ids hs (by simp) hhi]
    simp [List.range_eq_range']

theorem psum_eq_countP (ns : List Nat) :
    (List.range (ns.length + 1)).map (fun r => (idsFrom 0 ns).countP (fun x => x < r)) =
      psum ns := by
  apply List.ext_getElem?
  intro k
  by_cases hk : k < ns.length + 1
  · have := idsFrom_countP 0 k ns
    rw [Nat.zero_add] at this
    rw [psum_get ns k (by omega)]
    simp [hk, this]
  · rw [List.getElem?_eq_none (by simpa using hk), List.getElem?_eq_none (by simpa using hk)]

theorem rowIdsToRowSplits_idsFrom (ns : List Nat) :
    rowIdsToRowSplits (idsFrom 0 ns) ns.length = some (psum ns) := by
  rw [rowIdsToRowSplits_eq _ _ (idsFrom_pairwise 0 ns)
    (fun x hx => by have := idsFrom_mem 0 ns x hx; omega), psum_eq_countP]

theorem ids_eq_idsFrom (ids : List Nat) (n : Nat) (hs : ids.Pairwise (· ≤ ·))
    (hhi : ∀ x ∈ ids, x < n) :
    ids = idsFrom 0 ((List.range n).map (fun r => ids.count r)) := by
  apply List.Perm.eq_of_pairwise (le := (· ≤ ·)) (fun a b _ _ h1 h2 => Nat.le_antisymm h1 h2) hs
    (idsFrom_pairwise _ _)
  rw [List.perm_iff_count]
  intro a
  have key : ∀ (m r : Nat) (f : Nat → Nat),
      (idsFrom r ((List.range' r m).map f)).count a = if r ≤ a ∧ a < r + m then f a else 0 := by
    intro m
    induction m with
    | zero =>
      intro r f
      rw [if_neg (by omega)]
      simp [idsFrom]
    | succ m ih =>
      intro r f
      rw [List.range'_succ, List.map_cons, idsFrom, List.count_append, ih (r + 1) f,
        List.count_replicate]
      by_cases h : r = a
      · subst h; simp
      · have : (r == a) = false := by simpa using h
        rw [this]
        by_cases h2 : r + 1 ≤ a ∧ a < r + 1 + m
        · have h3 : r ≤ a ∧ a < r + (m + 1) := by omega
          simp [h2, h3]
        · have h3 : ¬ (r ≤ a ∧ a < r + (m + 1)) := by omega
          simp only [if_neg h2, if_neg h3]; simp
  have hk := key n 0 (fun r => ids.count r)
  rw [← List.range_eq_range'] at hk
  rw [hk]
  split
  · rfl
  · next h =>
    rw [List.count_eq_zero]
    intro hm
    exact h ⟨by omega, by have := hhi a hm; omega⟩

end Verif.Ragged
