import Verif.Nbest.DocProps

/-!
# Cases of the theorems of nbest.h, and where code and documentation disagree
-/

namespace Verif.Nbest

/-! A text with repetitions, that ends with a larger symbol. -/

example : ∃ sa lcp ivs lp, createSuffixArray ([2, 1, 2, 1, 2, 3] ++ [0, 0, 0] ++ []) 6 3 = some sa ∧
    createLcpArray ([2, 1, 2, 1, 2, 3] ++ [0, 0, 0] ++ []) sa 6 = some lcp ∧
    createLcpIntervals lcp 6 = some (ivs, lp) ∧ SuffixArray [2, 1, 2, 1, 2, 3] sa ∧ LcpArray [2, 1, 2, 1, 2, 3] sa lcp ∧
    SuffixTree [2, 1, 2, 1, 2, 3] sa lcp ivs lp :=
  suffixTree_correct [2, 1, 2, 1, 2, 3] [] 3 (by decide) (by decide) (by
    intro i hi
    have : i = 0 ∨ i = 1 ∨ i = 2 ∨ i = 3 ∨ i = 4 := by simp at hi; omega
    rcases this with rfl | rfl | rfl | rfl | rfl <;> decide)

theorem suffixArray_example : SuffixArray [2, 1, 2, 1, 2, 3] [1, 3, 0, 2, 4, 5] := ⟨by decide, by decide⟩

theorem lcpArray_example : LcpArray [2, 1, 2, 1, 2, 3] [1, 3, 0, 2, 4, 5] [0, 2, 0, 3, 1, 0] := by
  refine ⟨rfl, rfl, ?_⟩
  intro k s u hs hu
  match k with
  | 0 | 1 | 2 | 3 | 4 => simp at hs hu; subst hs; subst hu; decide
  | k + 5 => simp at hu

/-- The example of the documentation, nbest.h lines 76-79. -/
example : createSuffixArray [3, 2, 1, 10, 0, 0, 0] 4 10 = some [2, 1, 0, 3] := by
  obtain ⟨sa, h1, h2, h3⟩ := createSuffixArray_correct [3, 2, 1, 10] [] 10 (by decide)
  rw [h3 [2, 1, 0, 3] ⟨by decide, by decide⟩]
  exact h1

/-- The text in full: the array, the table and the tree. -/
example : createSuffixArray ([2, 1, 2, 1, 2, 3] ++ [0, 0, 0] ++ []) 6 3 = some [1, 3, 0, 2, 4, 5] := by
  obtain ⟨sa, h1, h2, h3⟩ := createSuffixArray_correct [2, 1, 2, 1, 2, 3] [] 3 (by decide)
  rw [h3 _ suffixArray_example]
  exact h1

example : createLcpIntervals [0, 2, 0, 3, 1, 0] 6 =
    some ([⟨2, 0, 1, some 3⟩, ⟨3, 2, 3, some 2⟩, ⟨1, 2, 4, some 3⟩, ⟨0, 0, 5, none⟩], [0, 0, 1, 1, 2, 3]) := by decide

/-- Without a larger symbol at the end the assertion of line 304 fails; the text is `1 1 1`. -/
theorem createLcpIntervals_needs_terminator :
    SuffixArray [1, 1, 1] [2, 1, 0] ∧ createLcpIntervals [0, 1, 2] 3 = none := ⟨⟨by decide, by decide⟩, by decide⟩

/-- The tightest interval: the only key is the suffix of rank 0, so that the suffixes of rank 2 to 5 have to go to
the top. -/
example : findTightest 6 [⟨2, 0, 1, some 3⟩, ⟨3, 2, 3, some 2⟩, ⟨1, 2, 4, some 3⟩, ⟨0, 0, 5, none⟩]
    (excl 0 [1, 0, 0, 0, 0, 0]) [0, 0, 1, 1, 2, 3] = some [0, 0, 3, 3, 3, 3] := by decide

/-! The statistics: a key sentence and a query sentence, eos is 9. -/

/-- "1 2 9" is the key with scores 1/2, 1/3 and 1/4, "1 3 9" is the query.  Its word 1 matches to the beginning,
its word 3 matches nothing, and its eos matches the eos of the key. -/
example : ∃ out, bestMatching (K := ℚ) [[1, 2, 9], [1, 3, 9]] [1/2, 1/3, 1/4, 0, 0, 0] [1, 1, 1, 0, 0, 0] 9 1 9 5 = some out ∧
    out[3]? = some (⟨1/2, 0, 1, 5⟩ : Stat ℚ) ∧ out[4]? = some ⟨13/36, 7/648, 0, 0⟩ ∧ out[5]? = some ⟨1/4, 0, 1, 1⟩ := by
  obtain ⟨out, h1, h2, h3⟩ := bestMatching_correct (K := ℚ) (tokens := [[1, 2, 9], [1, 3, 9]])
    (scores := [1/2, 1/3, 1/4, 0, 0, 0]) (counts := [1, 1, 1, 0, 0, 0]) (eos := 9) (mn := 1) (mx := 9) (maxOrder := 5)
    (by decide) (by decide) (by decide) (by decide) rfl rfl
  refine ⟨out, h1, ?_, ?_, ?_⟩
  · rw [h3 3 (by decide) rfl]; decide +kernel
  · rw [h3 4 (by decide) rfl]; decide +kernel
  · rw [h3 5 (by decide) rfl]; decide +kernel

/-- The hypotheses of the theorem on the documentation. -/
example : ∃ out, bestMatching (K := ℚ) [[1, 2, 9], [1, 3, 9]] [1/2, 1/3, 1/4, 0, 0, (0 : ℚ)] [1, 1, 1, 0, 0, 0] 9 1 9 5 = some out ∧
    ∃ o, out[3]? = some o ∧ o.mean = 1/2 := by
  obtain ⟨out, h1, h2⟩ := bestMatching_documented_partial (K := ℚ) (tokens := [[1, 2, 9], [1, 3, 9]])
    (scores := [1/2, 1/3, 1/4, 0, 0, 0]) (counts := [1, 1, 1, 0, 0, 0]) (eos := 9) (mn := 1) (mx := 9) (maxOrder := 5)
    (by decide) (by decide) (by decide) (by decide) (by decide) rfl rfl (by decide) (by
      intro j hj
      have : j = 0 ∨ j = 1 ∨ j = 2 ∨ j = 3 ∨ j = 4 ∨ j = 5 := by simp at hj; omega
      rcases this with rfl | rfl | rfl | rfl | rfl | rfl <;> decide)
  obtain ⟨o, o1, o2, -⟩ := h2 3 (by decide) rfl
  exact ⟨out, h1, o, o1, by rw [o2]; decide +kernel⟩

/-- The scores of queries are counted: the key has score 1, the query itself has score 5, and the mean of the one
matching key comes out as 6. -/
theorem bestMatching_counts_queries : ∃ out, bestMatching (K := ℚ) [[1, 9], [1, 9]] [1, 1, 5, 5] [1, 1, 0, 0] 9 1 9 5 = some out ∧
    out[2]? = some (⟨6, 0, 1, 5⟩ : Stat ℚ) ∧
    bestKeys [1, 9, 1, 9] 9 [1, 1, 0, 0] 2 = [0] := by
  obtain ⟨out, h1, h2, h3⟩ := bestMatching_correct (K := ℚ) (tokens := [[1, 9], [1, 9]])
    (scores := [1, 1, 5, 5]) (counts := [1, 1, 0, 0]) (eos := 9) (mn := 1) (mx := 9) (maxOrder := 5)
    (by decide) (by decide) (by decide) (by decide) rfl rfl
  refine ⟨out, h1, ?_, by decide⟩
  rw [h3 2 (by decide) rfl]; decide +kernel

/-- `counts_out` is zero although there are keys: nothing matches the word 2.  The mean is that of all keys. -/
theorem bestMatching_count_zero : ∃ out, bestMatching (K := ℚ) [[1, 9], [2, 9]] [1, 3, 0, 0] [1, 1, 0, 0] 9 1 9 5 = some out ∧
    out[2]? = some (⟨2, 1, 0, 0⟩ : Stat ℚ) := by
  obtain ⟨out, h1, h2, h3⟩ := bestMatching_correct (K := ℚ) (tokens := [[1, 9], [2, 9]])
    (scores := [1, 3, 0, 0]) (counts := [1, 1, 0, 0]) (eos := 9) (mn := 1) (mx := 9) (maxOrder := 5)
    (by decide) (by decide) (by decide) (by decide) rfl rfl
  refine ⟨out, h1, ?_⟩
  rw [h3 2 (by decide) rfl]; decide +kernel

/-- The order is `max_order` although only one word matches and in the key it is not at the beginning. -/
theorem bestMatching_order_one_side : ∃ out,
    bestMatching (K := ℚ) [[2, 1, 9], [1, 9]] [1, 1, 1, 0, 0] [1, 1, 1, 0, 0] 9 1 9 5 = some out ∧
    out[3]? = some (⟨1, 0, 1, 5⟩ : Stat ℚ) ∧ best [2, 1, 9, 1, 9] 9 [1, 1, 1, 0, 0] 3 = 1 := by
  obtain ⟨out, h1, h2, h3⟩ := bestMatching_correct (K := ℚ) (tokens := [[2, 1, 9], [1, 9]])
    (scores := [1, 1, 1, 0, 0]) (counts := [1, 1, 1, 0, 0]) (eos := 9) (mn := 1) (mx := 9) (maxOrder := 5)
    (by decide) (by decide) (by decide) (by decide) rfl rfl
  refine ⟨out, h1, ?_, by decide⟩
  rw [h3 3 (by decide) rfl]; decide +kernel

/-- A `max_order` that does not fit into 16 bits: the order of a match of two words is negative. -/
theorem bestMatching_order_negative : ∃ out,
    bestMatching (K := ℚ) [[2, 1, 3, 9], [1, 1, 3, 9]] [1, 1, 1, 1, 0, 0, 0, 0] [1, 1, 1, 1, 0, 0, 0, 0] 9 1 9 40000 = some out ∧
    out[6]? = some (⟨1, 0, 1, -25536⟩ : Stat ℚ) := by
  obtain ⟨out, h1, h2, h3⟩ := bestMatching_correct (K := ℚ) (tokens := [[2, 1, 3, 9], [1, 1, 3, 9]])
    (scores := [1, 1, 1, 1, 0, 0, 0, 0]) (counts := [1, 1, 1, 1, 0, 0, 0, 0]) (eos := 9) (mn := 1) (mx := 9)
    (maxOrder := 40000) (by decide) (by decide) (by decide) (by decide) rfl rfl
  refine ⟨out, h1, ?_⟩
  rw [h3 6 (by decide) rfl]; decide +kernel

/-- Two collections. -/
example : ∃ outs : List (List (Stat ℚ)), bestMatching3 [[[1, 9], [1, 9]], [[2, 9]]] [1, 1, 0, 0, 7, 7] [1, 1, 0, 0, 1, 1] 9 1 9 5 =
    some outs.flatten ∧ outs.length = 2 := by
  obtain ⟨outs, h1, h2, -⟩ := bestMatching3_correct (K := ℚ) (eos := 9) (mn := 1) (mx := 9) (maxOrder := 5)
    [[[1, 9], [1, 9]], [[2, 9]]] [1, 1, 0, 0, 7, 7] [1, 1, 0, 0, 1, 1] (by decide) (by decide) (by decide) (by decide) rfl rfl
  exact ⟨outs, h1, h2⟩

end Verif.Nbest
