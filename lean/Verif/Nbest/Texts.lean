import Verif.Nbest.Encode
import Mathlib.Data.List.Lex
import Mathlib.Data.List.Sort

/-!
# Suffix arrays, common prefixes and suffix trees of lists
-/

namespace Verif.Nbest

section
variable {t : List Nat} {K : Nat}

theorem text_of (rest : List Nat) (ht : ∀ c ∈ t, 0 < c ∧ c ≤ K) :
    Text (t ++ [0, 0, 0] ++ rest) t.length K (fun p => t.getD p 0) := by
  constructor
  · intro i hi
    by_cases h : i < t.length
    · simp [List.getElem?_append_left, h]
    · rw [List.append_assoc, List.getElem?_append_right (by omega), List.getElem?_append_left (by simp; omega)]
      have : i - t.length = 0 ∨ i - t.length = 1 ∨ i - t.length = 2 := by omega
      have h0 : t.getD i 0 = 0 := List.getD_eq_default _ _ (by omega)
      rw [h0]
      rcases this with h | h | h <;> rw [h] <;> rfl
  · intro i
    by_cases h : i < t.length
    · have := (ht _ (List.getElem_mem h)).1
      simp only [List.getD_eq_getElem _ _ h]
      omega
    · show t.getD i 0 = 0 ↔ _
      rw [List.getD_eq_default _ _ (not_lt.mp h)]
      exact iff_of_true rfl (not_lt.mp h)
  · intro i
    by_cases h : i < t.length
    · have := (ht _ (List.getElem_mem h)).2
      simp only [List.getD_eq_getElem _ _ h]
      omega
    · simp only [List.getD_eq_default _ _ (not_lt.mp h)]
      omega

theorem common_drop (ht : ∀ c ∈ t, 0 < c ∧ c ≤ K) {p q l : Nat} (hp : p < t.length) (hq : q < t.length) (hne : p ≠ q) :
    Common (fun p => t.getD p 0) p q l ↔ l ≤ lcpLen (t.drop p) (t.drop q) := by
  rw [le_lcpLen]
  constructor
  · intro hc m hm
    have hb := hc.bound (text_of (K := K) [] ht).ends (by omega) (by omega) hne
    have := hc m hm
    simp only at this
    rw [List.getD_eq_getElem _ _ (show p + m < t.length by omega),
      List.getD_eq_getElem _ _ (show q + m < t.length by omega)] at this
    refine ⟨t[p + m], ?_, ?_⟩
    · rw [List.getElem?_drop, List.getElem?_eq_getElem]
    · rw [List.getElem?_drop, List.getElem?_eq_getElem, this]
  · intro h m hm
    obtain ⟨c, h1, h2⟩ := h m hm
    rw [List.getElem?_drop] at h1 h2
    simp only [List.getD_eq_getElem?_getD, h1, h2]

theorem isLcp_drop (ht : ∀ c ∈ t, 0 < c ∧ c ≤ K) {p q l : Nat} (hp : p < t.length) (hq : q < t.length) (hne : p ≠ q)
    (h : IsLcp (fun p => t.getD p 0) p q l) : l = lcpLen (t.drop p) (t.drop q) := by
  apply le_antisymm
  · exact (common_drop ht hp hq hne).mp (h.le_iff.mp le_rfl)
  · exact h.le_iff.mpr ((common_drop ht hp hq hne).mpr le_rfl)

theorem lt_drop (ht : ∀ c ∈ t, 0 < c ∧ c ≤ K) {p q : Nat} (hp : p < t.length) (hq : q < t.length)
    (h : Lt (fun p => t.getD p 0) p q) : t.drop p < t.drop q := by
  have hne : p ≠ q := by rintro rfl; exact Lt.irrefl _ _ h
  obtain ⟨k, h1, h2⟩ := h
  have hE := (text_of (K := K) [] ht).ends
  have hb := Common.bound (k := k) hE (by omega) (by omega) hne h1
  have hqk : q + k < t.length := by
    by_contra hcon
    have := (hE (q + k)).mpr (by omega)
    simp only at this h2
    omega
  rw [List.lt_iff_exists]
  by_cases hpk : p + k < t.length
  · right
    refine ⟨k, by rw [List.length_drop]; omega, by rw [List.length_drop]; omega, ?_, ?_⟩
    · intro j hj
      have := h1 j hj
      simp only at this
      rw [List.getD_eq_getElem _ _ (show p + j < t.length by omega),
        List.getD_eq_getElem _ _ (show q + j < t.length by omega)] at this
      rw [List.getElem_drop, List.getElem_drop]; exact this
    · simp only at h2
      rw [List.getD_eq_getElem _ _ hpk, List.getD_eq_getElem _ _ hqk] at h2
      rw [List.getElem_drop, List.getElem_drop]; exact h2
  · left
    refine ⟨?_, by rw [List.length_drop, List.length_drop]; omega⟩
    apply List.ext_getElem
    · rw [List.length_take, List.length_drop, List.length_drop]; omega
    · intro j hj1 hj2
      rw [List.length_drop] at hj1
      have := h1 j (by omega)
      simp only at this
      rw [List.getD_eq_getElem _ _ (show p + j < t.length by omega),
        List.getD_eq_getElem _ _ (show q + j < t.length by omega)] at this
      rw [List.getElem_take, List.getElem_drop, List.getElem_drop]; exact this

end

/-- The starts of the suffixes of a list in the order of the suffixes. -/
structure SuffixArray (t sa : List Nat) : Prop where
  perm : sa.Perm (List.range t.length)
  sorted : sa.Pairwise (fun i j => t.drop i < t.drop j)

/-- There is only one. -/
theorem SuffixArray.unique {t a b : List Nat} (ha : SuffixArray t a) (hb : SuffixArray t b) : a = b := by
  apply (ha.perm.trans hb.perm.symm).eq_of_pairwise (le := fun i j => t.drop i < t.drop j) _ ha.sorted hb.sorted
  intro i j _ _ h1 h2
  exact absurd (List.lt_trans h1 h2) (List.lt_irrefl _)

/-- `lcp[i]` is the length of the common prefix of the suffixes `sa[i - 1]` and `sa[i]`. -/
structure LcpArray (t sa lcp : List Nat) : Prop where
  length : lcp.length = t.length
  first : lcp[0]? = some 0
  next : ∀ (k s u : Nat), sa[k]? = some s → sa[k + 1]? = some u → lcp[k + 1]? = some (lcpLen (t.drop s) (t.drop u))

theorem SuffixArray.isSuffixArray {t sa : List Nat} {K : Nat} (ht : ∀ c ∈ t, 0 < c ∧ c ≤ K) (h : SuffixArray t sa) :
    IsSuffixArray (fun p => t.getD p 0) t.length sa := by
  refine ⟨h.perm, ?_⟩
  have hnd : sa.Nodup := h.perm.nodup_iff.mpr List.nodup_range
  refine (h.sorted.and hnd).imp_of_mem ?_
  rintro a b ha hb ⟨hlt, hne⟩
  have ha := List.mem_range.mp (h.perm.mem_iff.mp ha)
  have hb := List.mem_range.mp (h.perm.mem_iff.mp hb)
  rcases Lt.total (text_of (K := K) [] ht).ends (by omega) (by omega) hne with h' | h'
  · exact h'
  · exact absurd (List.lt_trans hlt (lt_drop ht hb ha h')) (List.lt_irrefl _)

end Verif.Nbest
