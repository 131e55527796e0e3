import Mathlib.Algebra.BigOperators.Group.List.Basic

/-!
Positions in the concatenation of a list of rows.  This is the relation between `idx01`, `idx0`
and `idx1` of k2's ragged arrays (k2/csrc/ragged.h 30-90): `splits L s` is `row_splits[s]`, and
`idx01 = row_splits[idx0] + idx1`.
-/

namespace Verif.Util
variable {α β : Type}

/-- `row_splits[s]`: the number of elements in the first `s` rows. -/
def splits (L : List (List α)) (s : Nat) : Nat := ((L.take s).map List.length).sum

@[simp] theorem splits_zero (L : List (List α)) : splits L 0 = 0 := by simp [splits]

theorem splits_succ (L : List (List α)) (s : Nat) (r : List α) (h : L[s]? = some r) :
    splits L (s + 1) = splits L s + r.length := by
  simp [splits, List.take_add_one, h]

theorem splits_cons_succ (r : List α) (L : List (List α)) (s : Nat) :
    splits (r :: L) (s + 1) = r.length + splits L s := by
  simp [splits]

theorem splits_length (L : List (List α)) : splits L L.length = L.flatten.length := by
  simp [splits, List.length_flatten]

theorem splits_ge (L : List (List α)) (s : Nat) (h : L.length ≤ s) :
    splits L s = L.flatten.length := by
  simp [splits, List.length_flatten, List.take_of_length_le h]

theorem splits_mono (L : List (List α)) {s t : Nat} (h : s ≤ t) : splits L s ≤ splits L t := by
  induction h with
  | refl => exact Nat.le_refl _
  | @step t h ih =>
    by_cases ht : t < L.length
    · rw [splits_succ L t _ (List.getElem?_eq_getElem ht)]; omega
    · rw [splits_ge L (t + 1) (by omega), ← splits_ge L t (by omega)]; exact ih

theorem splits_le (L : List (List α)) (s : Nat) : splits L s ≤ L.flatten.length := by
  by_cases h : s ≤ L.length
  · rw [← splits_length]; exact splits_mono L h
  · exact Nat.le_of_eq (splits_ge L s (by omega))

/-- `idx01 = row_splits[idx0] + idx1`. -/
theorem flatten_get (L : List (List α)) (s : Nat) (r : List α) (h : L[s]? = some r) (k : Nat)
    (hk : k < r.length) : L.flatten[splits L s + k]? = r[k]? := by
  induction L generalizing s with
  | nil => simp at h
  | cons r' L ih =>
    cases s with
    | zero =>
      simp only [List.getElem?_cons_zero, Option.some.injEq] at h
      subst h
      rw [List.flatten_cons, splits_zero, Nat.zero_add, List.getElem?_append_left hk]
    | succ s =>
      rw [List.getElem?_cons_succ] at h
      rw [List.flatten_cons, splits_cons_succ, Nat.add_assoc,
        List.getElem?_append_right (by omega), Nat.add_sub_cancel_left]
      exact ih s h

/-- Every position is at some place in some row. -/
theorem flatten_pos (L : List (List α)) (j : Nat) (h : j < L.flatten.length) :
    ∃ s r k, L[s]? = some r ∧ k < r.length ∧ j = splits L s + k := by
  induction L generalizing j with
  | nil => simp at h
  | cons r L ih =>
    by_cases hj : j < r.length
    · exact ⟨0, r, j, rfl, hj, by simp⟩
    · rw [List.flatten_cons, List.length_append] at h
      obtain ⟨s, r', k, h1, h2, h3⟩ := ih (j - r.length) (by omega)
      exact ⟨s + 1, r', k, by simpa using h1, h2, by rw [splits_cons_succ]; omega⟩

theorem flatten_pos_unique (L : List (List α)) {s s' : Nat} {r r' : List α} {k k' : Nat}
    (h : L[s]? = some r) (h' : L[s']? = some r') (hk : k < r.length) (hk' : k' < r'.length)
    (he : splits L s + k = splits L s' + k') : s = s' ∧ k = k' := by
  rcases Nat.lt_trichotomy s s' with hlt | heq | hgt
  · have h1 := splits_mono L (show s + 1 ≤ s' from hlt)
    rw [splits_succ L s r h] at h1; omega
  · subst heq; omega
  · have h1 := splits_mono L (show s' + 1 ≤ s from hgt)
    rw [splits_succ L s' r' h'] at h1; omega

/-! ## Arrays filled by a parallel kernel -/

/-- The array of size `n` in which the `K2_EVAL` kernels have written the pairs (position, value);
`none` if some position is never written.  Each position should be written once; that is a
separate theorem for each kernel. -/
def scatter (n : Nat) (writes : List (Nat × α)) : Option (List α) :=
  (List.range n).mapM (fun j => (writes.find? (fun w => w.1 == j)).map Prod.snd)

theorem mapM_some_of (l : List β) (f : β → Option α) (out : List α) (hl : out.length = l.length)
    (h : ∀ (i : Nat) (b : β), l[i]? = some b → f b = out[i]?) : l.mapM f = some out := by
  induction l generalizing out with
  | nil =>
    have : out = [] := by simpa using hl
    subst this; rfl
  | cons b l ih =>
    cases out with
    | nil => simp at hl
    | cons o out =>
      have h0 := h 0 b rfl
      have h1 := ih out (by simpa using hl) (fun i b' hb => by
        simpa using h (i + 1) b' (by simpa using hb))
      simp only [List.getElem?_cons_zero] at h0
      simp [List.mapM_cons, h0, h1]

theorem scatter_eq (n : Nat) (writes : List (Nat × α)) (out : List α) (hn : out.length = n)
    (hw : ∀ w ∈ writes, out[w.1]? = some w.2) (hc : ∀ j, j < n → ∃ w ∈ writes, w.1 = j) :
    scatter n writes = some out := by
  unfold scatter
  apply mapM_some_of
  · simpa using hn
  · intro i b hb
    have hi : i < n := by
      have := (List.getElem?_eq_some_iff.mp hb).1; simpa using this
    rw [List.getElem?_range hi] at hb
    obtain rfl := Option.some.inj hb
    obtain ⟨w, hwm, hwi⟩ := hc i hi
    cases hf : writes.find? (fun w => w.1 == i) with
    | none =>
      rw [List.find?_eq_none] at hf
      exact absurd (by simpa using hwi) (hf w hwm)
    | some v =>
      have h1 := List.find?_some hf
      have h2 := hw v (List.mem_of_find?_eq_some hf)
      simp only [beq_iff_eq] at h1
      rw [h1] at h2
      simpa using h2.symm

end Verif.Util
