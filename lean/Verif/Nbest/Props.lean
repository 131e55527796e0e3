import Verif.Nbest.Texts
import Verif.Nbest.Stats
import Mathlib.Algebra.Field.Rat

/-!
# Properties of the functions of nbest.h
-/

namespace Verif.Nbest

/-- `CreateSuffixArray` stays within its arrays and returns the starts of the suffixes in lexicographic
order, for every text of positive symbols that is followed by three zeros. -/
theorem createSuffixArray_correct (t rest : List Nat) (K : Nat) (ht : ∀ c ∈ t, 0 < c ∧ c ≤ K) :
    ∃ sa, createSuffixArray (t ++ [0, 0, 0] ++ rest) t.length K = some sa ∧ SuffixArray t sa ∧
      ∀ sa', SuffixArray t sa' → sa' = sa := by
  obtain ⟨sa, h1, h2⟩ := createSuffixArray_sorts (text_of rest ht)
  have h3 : SuffixArray t sa := by
    refine ⟨h2.perm, h2.sorted.imp_of_mem ?_⟩
    intro a b ha hb h
    exact lt_drop ht (List.mem_range.mp (h2.perm.mem_iff.mp ha)) (List.mem_range.mp (h2.perm.mem_iff.mp hb)) h
  exact ⟨sa, h1, h3, fun sa' h => h.unique h3⟩

/-- `CreateLcpArray` stays within its arrays and returns the lengths of the common prefixes of neighbours,
for every text of positive symbols that is followed by a zero. -/
theorem createLcpArray_correct (t rest sa : List Nat) (ht : ∀ c ∈ t, 0 < c) (hne : t ≠ []) (hsa : SuffixArray t sa) :
    ∃ lcp, createLcpArray (t ++ [0] ++ rest) sa t.length = some lcp ∧ LcpArray t sa lcp := by
  have ht' : ∀ c ∈ t, 0 < c ∧ c ≤ t.foldr max 0 := fun c hc => ⟨ht c hc, le_foldr_max _ _ hc⟩
  have hpos : 0 < t.length := List.length_pos_iff.mpr hne
  have hI := hsa.isSuffixArray ht'
  obtain ⟨lcp, h1, h2, h3, h4⟩ := createLcpArray_eq (text := t ++ [0] ++ rest) (n := t.length)
    (x := fun p => t.getD p 0) (fun i hi => by
      by_cases h : i < t.length
      · simp [List.getElem?_append_left, h]
      · obtain rfl : i = t.length := by omega
        simp) (text_of (K := t.foldr max 0) [] ht').ends hpos hI
  refine ⟨lcp, h1, h2, h3, ?_⟩
  intro k s u hs hu
  obtain ⟨l, h5, h6⟩ := h4 k s u hs hu
  rw [h5]
  have hmem : ∀ {v j : Nat}, sa[j]? = some v → v < t.length := fun h =>
    List.mem_range.mp (hsa.perm.mem_iff.mp (List.mem_of_getElem? h))
  obtain ⟨hk1, hk2⟩ := List.getElem?_eq_some_iff.mp hs
  obtain ⟨hk3, hk4⟩ := List.getElem?_eq_some_iff.mp hu
  have hsu : s ≠ u := by
    intro h
    have hnd : sa.Nodup := hsa.perm.nodup_iff.mpr List.nodup_range
    have := (List.Nodup.getElem_inj_iff hnd (hi := hk1) (hj := hk3)).mp (by rw [hk2, hk4, h])
    omega
  rw [isLcp_drop ht' (hmem hs) (hmem hu) hsu h6]

/-- What `CreateLcpIntervalArray` returns for a text of at least two symbols: `ivs` are the intervals and
`lp` the parents of the leaves. -/
structure SuffixTree (t sa lcp : List Nat) (ivs : List Iv) (lp : List Nat) : Prop where
  /-- what is returned is an interval, -/
  sound : ∀ f ∈ ivs, IsIv (fun k => lcp.getD k 0) t.length f.lcp f.lb f.rb
  /-- and all are returned, -/
  complete : ∀ l a b, IsIv (fun k => lcp.getD k 0) t.length l a b → ∃ f ∈ ivs, f.lcp = l ∧ f.lb = a ∧ f.rb = b
  /-- once, the inner ones before the outer ones, -/
  postorder : ivs.Pairwise (fun f g => (f.rb < g.lb) ∨ (g.lb ≤ f.lb ∧ f.rb ≤ g.rb ∧ g.lcp < f.lcp))
  /-- the last is the top, -/
  root : ∃ f, ivs.getLast? = some f ∧ f.lcp = 0 ∧ f.lb = 0 ∧ f.rb = t.length - 1 ∧ f.parent = none
  /-- of every other one the parent is behind it in the array and is the next larger interval, -/
  parent : ∀ (d : Nat) f, ivs[d]? = some f → d + 1 < ivs.length → ∃ (p : Nat) (g : Iv), f.parent = some p ∧ d < p ∧
    ivs[p]? = some g ∧ g.lcp < f.lcp ∧ g.lb ≤ f.lb ∧ f.rb ≤ g.rb ∧
    ∀ h ∈ ivs, h.lb ≤ f.lb → f.rb ≤ h.rb → h.lcp ≠ f.lcp → h.lb ≤ g.lb ∧ g.rb ≤ h.rb
  leaf_len : lp.length = t.length
  /-- the parent of a leaf is the least interval that contains it, -/
  leaf : ∀ i, i < t.length → ∃ (d : Nat) (f : Iv), lp[i]? = some d ∧ ivs[d]? = some f ∧ f.lb ≤ i ∧ i ≤ f.rb ∧
    ∀ h ∈ ivs, h.lb ≤ i → i ≤ h.rb → h.lb ≤ f.lb ∧ f.rb ≤ h.rb
  /-- and the members of an interval are the suffixes that have that much in common with a member. -/
  members : ∀ f ∈ ivs, ∀ (i s : Nat), sa[i]? = some s → f.lb ≤ i → i ≤ f.rb → ∀ (j u : Nat), sa[j]? = some u →
    (f.lb ≤ j ∧ j ≤ f.rb ↔ f.lcp ≤ lcpLen (t.drop s) (t.drop u))

theorem ranks_of {t sa lcp : List Nat} {K : Nat} (ht : ∀ c ∈ t, 0 < c ∧ c ≤ K) (hsa : SuffixArray t sa)
    (hl : LcpArray t sa lcp) :
    Ranks (fun p => t.getD p 0) t.length (fun k => sa.getD k 0) (fun k => lcp.getD k 0) := by
  have hlen : sa.length = t.length := by simpa using hsa.perm.length_eq
  have hI := hsa.isSuffixArray ht
  constructor
  · intro a b hab hb
    simp only [List.getD_eq_getElem _ _ (show a < sa.length by omega), List.getD_eq_getElem _ _ (show b < sa.length by omega)]
    exact List.pairwise_iff_getElem.mp hI.sorted a b (by omega) (by omega) hab
  · intro a ha
    have h1 := List.getElem?_eq_getElem (show a < sa.length by omega)
    have h2 := List.getElem?_eq_getElem (show a + 1 < sa.length by omega)
    have h3 := hl.next a _ _ h1 h2
    have hlt := List.pairwise_iff_getElem.mp hI.sorted a (a + 1) (by omega) (by omega) (by omega)
    obtain ⟨l, h4, -⟩ := hlt.isLcp
    have hne : sa[a] ≠ sa[a + 1] := by
      intro h; rw [h] at hlt; exact Lt.irrefl _ _ hlt
    have hmem : ∀ (j : Nat) (h : j < sa.length), sa[j] < t.length := fun j h =>
      List.mem_range.mp (hsa.perm.mem_iff.mp (List.getElem_mem h))
    have := isLcp_drop ht (hmem a (by omega)) (hmem (a + 1) (by omega)) hne h4
    simp only [List.getD_eq_getElem?_getD, h1, h2, h3, Option.getD_some]
    rw [← this]
    simpa only [List.getD_eq_getElem?_getD] using h4

/-- `CreateLcpIntervalArray` meets its assertions and returns the internal nodes of the suffix tree, children
before parents, for every text of at least two positive symbols that ends with a symbol that is larger than
the others. -/
theorem createLcpIntervals_correct (t sa lcp : List Nat) (ht : ∀ c ∈ t, 0 < c) (hn : 2 ≤ t.length)
    (hterm : ∀ i, i + 1 < t.length → t.getD i 0 < t.getD (t.length - 1) 0) (hsa : SuffixArray t sa)
    (hl : LcpArray t sa lcp) :
    ∃ ivs lp, createLcpIntervals lcp t.length = some (ivs, lp) ∧ SuffixTree t sa lcp ivs lp := by
  have ht' : ∀ c ∈ t, 0 < c ∧ c ≤ t.foldr max 0 := fun c hc => ⟨ht c hc, le_foldr_max _ _ hc⟩
  have hlen : sa.length = t.length := by simpa using hsa.perm.length_eq
  have hR := ranks_of ht' hsa hl
  obtain ⟨m, hm⟩ : ∃ m, t.length = m + 2 := ⟨t.length - 2, by omega⟩
  have hL0 : lcp.getD (t.length - 1) 0 = 0 := by
    rw [hm] at hR ⊢
    refine last_zero (L := fun k => lcp.getD k 0) ?_ hR ?_ ?_
    · intro p hp
      have := hterm p (by omega)
      rw [hm] at this
      exact this
    · intro p hp
      obtain ⟨k, hk1, hk2⟩ := List.mem_iff_getElem.mp (hsa.perm.mem_iff.mpr (List.mem_range.mpr (show p < t.length by omega)))
      refine ⟨k, by omega, ?_⟩
      simp only [List.getD_eq_getElem _ _ hk1]; exact hk2
    · intro k hk
      simp only [List.getD_eq_getElem _ _ (show k < sa.length by omega)]
      have := List.mem_range.mp (hsa.perm.mem_iff.mp (List.getElem_mem (show k < sa.length by omega)))
      omega
  obtain ⟨ivs, lp, h1, hT⟩ := createLcpIntervals_tree (L := fun k => lcp.getD k 0) (n := t.length) (lcp := lcp) hn
    (fun i hi => by
      have hi' : i < lcp.length := by rw [hl.length]; exact hi
      rw [List.getD_eq_getElem _ _ hi', List.getElem?_eq_getElem hi']) hL0
  refine ⟨ivs, lp, h1, hT.sound, hT.complete, ?_, hT.root, ?_, hT.leaf_len, ?_, ?_⟩
  · refine hT.sorted.imp_of_mem ?_
    intro f g hf hg h
    have hf' := hT.sound f hf
    have hg' := hT.sound g hg
    have hf1 := hf'.lt
    have hg1 := hg'.lt
    rcases h with h | ⟨h2, h3⟩
    · by_cases hmeet : f.rb < g.lb
      · exact .inl hmeet
      · right
        by_cases hle : g.lcp ≤ f.lcp
        · obtain ⟨n1, n2⟩ := hg'.nested hf' (p := f.rb) ⟨by omega, by omega⟩ ⟨by omega, by omega⟩ hle
          refine ⟨n1, n2, ?_⟩
          rcases Nat.lt_or_ge g.lcp f.lcp with h4 | h4
          · exact h4
          · have := (hf'.nested hg' (p := f.rb) ⟨by omega, by omega⟩ ⟨by omega, by omega⟩ h4).2
            omega
        · have := (hf'.nested hg' (p := f.rb) ⟨by omega, by omega⟩ ⟨by omega, by omega⟩ (by omega)).2
          omega
    · right
      obtain ⟨n1, n2⟩ := hg'.nested hf' (p := f.rb) ⟨by omega, by omega⟩ ⟨by omega, by omega⟩ (by omega)
      exact ⟨n1, n2, h3⟩
  · intro d f hd hlt
    obtain ⟨p, g, p1, p2, p3, p4, p5, p6, p7⟩ := hT.parent d f hd hlt
    exact ⟨p, g, p1, p2, p3, p4, p5, p6, fun h hh h1 h2 h3 => p7 _ _ _ (hT.sound h hh) h1 h2 h3⟩
  · intro i hi
    obtain ⟨d, f, d1, d2, d3, d4⟩ := hT.leaf i hi
    exact ⟨d, f, d1, d2, d3.1, d3.2, fun h hh h1 h2 => d4 _ _ _ (hT.sound h hh) h1 h2⟩
  · intro f hf i s hi hfi hfi' j u hj
    obtain ⟨i1, i2⟩ := List.getElem?_eq_some_iff.mp hi
    obtain ⟨j1, j2⟩ := List.getElem?_eq_some_iff.mp hj
    have := hR.in_iff (hT.sound f hf) (i := i) (j := j) ⟨hfi, hfi'⟩ (by omega)
    simp only [List.getD_eq_getElem _ _ i1, List.getD_eq_getElem _ _ j1, i2, j2] at this
    rw [In] at this
    rw [this]
    have hs := List.mem_range.mp (hsa.perm.mem_iff.mp (List.mem_of_getElem? hi))
    have hu := List.mem_range.mp (hsa.perm.mem_iff.mp (List.mem_of_getElem? hj))
    by_cases hsu : s = u
    · subst hsu
      refine iff_of_true (fun m _ => rfl) ?_
      rw [lcpLen_self]
      -- the interval has another member
      have hiv := hT.sound f hf
      have hlt := hiv.lt
      have hbd := hiv.bound
      obtain ⟨q, q1, q2, q3⟩ : ∃ q, f.lb ≤ q ∧ q ≤ f.rb ∧ q ≠ i := by
        by_cases h : f.lb = i
        · exact ⟨f.rb, by omega, le_rfl, by omega⟩
        · exact ⟨f.lb, le_rfl, by omega, h⟩
      have hq := (hR.in_iff hiv (i := i) (j := q) ⟨hfi, hfi'⟩ (by omega)).mp ⟨q1, q2⟩
      simp only [List.getD_eq_getElem _ _ i1, i2, List.getD_eq_getElem _ _ (show q < sa.length by omega)] at hq
      have hqm := List.mem_range.mp (hsa.perm.mem_iff.mp (List.getElem_mem (show q < sa.length by omega)))
      have hne : s ≠ sa[q] := by
        intro h
        have hnd : sa.Nodup := hsa.perm.nodup_iff.mpr List.nodup_range
        have := (List.Nodup.getElem_inj_iff hnd (hi := i1) (hj := (show q < sa.length by omega))).mp (by rw [i2, h])
        omega
      have := (hq.bound (text_of (K := t.foldr max 0) [] ht').ends (by omega) (by omega) hne).1
      rw [List.length_drop]; omega
    · exact common_drop ht' hs hu hsu

/-- A text of one symbol has one interval, of value zero, that is the top. -/
theorem createLcpIntervals_one (v : Nat) : createLcpIntervals [v] 1 = some ([⟨0, 0, 0, none⟩], [0]) := rfl

/-- The whole chain on a text. -/
theorem suffixTree_correct (t rest : List Nat) (K : Nat) (ht : ∀ c ∈ t, 0 < c ∧ c ≤ K) (hn : 2 ≤ t.length)
    (hterm : ∀ i, i + 1 < t.length → t.getD i 0 < t.getD (t.length - 1) 0) :
    ∃ sa lcp ivs lp, createSuffixArray (t ++ [0, 0, 0] ++ rest) t.length K = some sa ∧
      createLcpArray (t ++ [0, 0, 0] ++ rest) sa t.length = some lcp ∧
      createLcpIntervals lcp t.length = some (ivs, lp) ∧ SuffixArray t sa ∧ LcpArray t sa lcp ∧
      SuffixTree t sa lcp ivs lp := by
  obtain ⟨sa, h1, h2, -⟩ := createSuffixArray_correct t rest K ht
  obtain ⟨lcp, h3, h4⟩ := createLcpArray_correct t ([0, 0] ++ rest) sa (fun c hc => (ht c hc).1)
    (by rintro rfl; simp at hn) h2
  obtain ⟨ivs, lp, h5, h6⟩ := createLcpIntervals_correct t sa lcp (fun c hc => (ht c hc).1) hn hterm h2 h4
  refine ⟨sa, lcp, ivs, lp, h1, ?_, h5, h2, h4, h6⟩
  rw [← h3]; simp

/-- `FindTightestNonemptyIntervals` returns for every leaf the least interval that contains it and a key; the
top if there is no key.  `counts` is in the order of the suffixes. -/
theorem findTightest_correct (t sa lcp : List Nat) (ht : ∀ c ∈ t, 0 < c) (hn : 2 ≤ t.length)
    (hterm : ∀ i, i + 1 < t.length → t.getD i 0 < t.getD (t.length - 1) 0) (hsa : SuffixArray t sa)
    (hl : LcpArray t sa lcp) (counts : List Nat) (hc : counts.length = t.length) :
    ∃ ivs lp r, createLcpIntervals lcp t.length = some (ivs, lp) ∧
      findTightest t.length ivs (excl 0 counts) lp = some r ∧
      ∀ i, i < t.length → ∃ (d : Nat) (g : Iv), r[i]? = some d ∧ ivs[d]? = some g ∧ g.lb ≤ i ∧ i ≤ g.rb ∧
        ((∃ k, g.lb ≤ k ∧ k ≤ g.rb ∧ 0 < counts.getD k 0) ∨ d + 1 = ivs.length) ∧
        ∀ h ∈ ivs, h.lb ≤ i → i ≤ h.rb → (∃ k, h.lb ≤ k ∧ k ≤ h.rb ∧ 0 < counts.getD k 0) →
          h.lb ≤ g.lb ∧ g.rb ≤ h.rb := by
  have ht' : ∀ c ∈ t, 0 < c ∧ c ≤ t.foldr max 0 := fun c hc => ⟨ht c hc, le_foldr_max _ _ hc⟩
  have hlen : sa.length = t.length := by simpa using hsa.perm.length_eq
  have hR := ranks_of ht' hsa hl
  obtain ⟨m, hm⟩ : ∃ m, t.length = m + 2 := ⟨t.length - 2, by omega⟩
  have hL0 : lcp.getD (t.length - 1) 0 = 0 := by
    rw [hm] at hR ⊢
    refine last_zero (L := fun k => lcp.getD k 0) ?_ hR ?_ ?_
    · intro p hp
      have := hterm p (by omega)
      rw [hm] at this
      exact this
    · intro p hp
      obtain ⟨k, hk1, hk2⟩ := List.mem_iff_getElem.mp (hsa.perm.mem_iff.mpr (List.mem_range.mpr (show p < t.length by omega)))
      refine ⟨k, by omega, ?_⟩
      simp only [List.getD_eq_getElem _ _ hk1]; exact hk2
    · intro k hk
      simp only [List.getD_eq_getElem _ _ (show k < sa.length by omega)]
      have := List.mem_range.mp (hsa.perm.mem_iff.mp (List.getElem_mem (show k < sa.length by omega)))
      omega
  obtain ⟨ivs, lp, h1, hT⟩ := createLcpIntervals_tree (L := fun k => lcp.getD k 0) (n := t.length) (lcp := lcp) hn
    (fun i hi => by
      have hi' : i < lcp.length := by rw [hl.length]; exact hi
      rw [List.getD_eq_getElem _ _ hi', List.getElem?_eq_getElem hi']) hL0
  have hstep : ∀ k, k < t.length → (counts.take (k + 1)).sum = (counts.take k).sum + counts.getD k 0 := by
    intro k hk
    rw [List.take_add_one, List.sum_append, List.getElem?_eq_getElem (by omega), List.getD_eq_getElem _ _ (by omega)]
    simp
  have hmono : ∀ a d, a + d ≤ t.length → (counts.take a).sum ≤ (counts.take (a + d)).sum := by
    intro a d
    induction d with
    | zero => exact fun _ => le_rfl
    | succ d ih =>
      intro h
      have h1 := ih (by omega)
      have h2 := hstep (a + d) (by omega)
      rw [show a + (d + 1) = a + d + 1 by omega]
      omega
  have hkey : ∀ a b, a ≤ b → b < t.length → ((counts.take a).sum < (counts.take (b + 1)).sum ↔
      ∃ k, a ≤ k ∧ k ≤ b ∧ 0 < counts.getD k 0) := by
    intro a b hab hb
    constructor
    · intro h
      obtain ⟨k, k1, k2, k3⟩ := exists_step (C := fun k => (counts.take k).sum) a (b + 1 - a)
        (by rw [show a + (b + 1 - a) = b + 1 by omega]; exact h)
      refine ⟨k, k1, by omega, ?_⟩
      have := hstep k (by omega)
      omega
    · rintro ⟨k, k1, k2, k3⟩
      have e1 := hmono a (k - a) (by omega)
      have e2 := hmono (k + 1) (b - k) (by omega)
      have e3 := hstep k (by omega)
      rw [show a + (k - a) = k by omega] at e1
      rw [show k + 1 + (b - k) = b + 1 by omega] at e2
      omega
  obtain ⟨r, h2, h3, h4⟩ := findTightest_eq hT (cum := excl 0 counts) (C := fun k => (counts.take k).sum)
    (by rw [excl_length, hc]) (fun k hk => by rw [excl_get _ _ _ (by omega), zero_add])
  refine ⟨ivs, lp, r, h1, h2, ?_⟩
  intro i hi
  obtain ⟨d, g, d1, d2⟩ := h4 i hi
  have hg := hT.sound g (List.mem_of_getElem? d2.get)
  have hglt := hg.lt
  refine ⟨d, g, d1, d2.get, d2.left, d2.right, ?_, ?_⟩
  · rcases d2.key with h | h
    · exact .inl ((hkey _ _ (by omega) hg.bound).mp h)
    · exact .inr h
  · intro h hh a1 a2 a3
    have hv := hT.sound h hh
    exact d2.tight _ _ _ hv a1 a2 ((hkey _ _ (by have := hv.lt; omega) hv.bound).mpr a3)

section
variable {K : Type} [Field K] {tokens : List (List Int)} {scores : List K} {counts : List Nat}
  {eos mn mx maxOrder : Int}

/-- The number of bits that `GetBestMatchingStats` uses. -/
def bitsOf (tokens : List (List Int)) (mn mx : Int) : Nat :=
  if tokens.flatten.length + 10 < 2 ^ 15 ∧ mx - mn + 10 < 2 ^ 15 then 16 else 32

/-- `GetBestMatchingStats` of a collection stays within its arrays and meets its assertions, and returns for
every query the statistics of all positions that match as long as the best key does. -/
theorem bestMatching_correct (hw : ∀ t ∈ tokens.flatten, mn ≤ t ∧ t ≤ mx) (he : mn ≤ eos ∧ eos ≤ mx)
    (hfit : mx + 2 - mn < 2 ^ 31) (ho : 2 ≤ maxOrder) (hs : scores.length = tokens.flatten.length)
    (hc : counts.length = tokens.flatten.length) :
    ∃ out, bestMatching tokens scores counts eos mn mx maxOrder = some out ∧ out.length = tokens.flatten.length ∧
      ∀ i, i < tokens.flatten.length → counts.getD i 0 = 0 →
        out[i]? = some (specAt (wrap (bitsOf tokens mn mx) maxOrder) tokens scores counts eos maxOrder i) := by
  unfold bestMatching bitsOf
  simp only
  rw [if_pos ⟨he.1, he.2, ho, hs.symm, hc.symm⟩]
  by_cases h0 : tokens.flatten.length = 0
  · rw [if_pos h0]
    exact ⟨[], rfl, h0.symm, fun i hi => by omega⟩
  · rw [if_neg h0]
    split
    · rename_i h
      exact statAt_specAt hw he (by norm_num at h ⊢; omega) hs hc
    · exact statAt_specAt hw he (by omega) hs hc

/-- The results of the collections, one after the other, are those of the collections on their own. -/
theorem collections_correct (ts : List (List (List Int))) : ∀ (scores : List K) (counts : List Nat),
    (∀ t ∈ ts, ∀ r ∈ t, ∀ c ∈ r, mn ≤ c ∧ c ≤ mx) → mn ≤ eos ∧ eos ≤ mx → mx + 2 - mn < 2 ^ 31 → 2 ≤ maxOrder →
    scores.length = ts.flatten.flatten.length → counts.length = ts.flatten.flatten.length →
    ∃ outs : List (List (Stat K)), collections ts scores counts eos mn mx maxOrder = some outs.flatten ∧
      outs.length = ts.length ∧ ∀ (k : Nat) t, ts[k]? = some t → ∃ out, outs[k]? = some out ∧
        out.length = t.flatten.length ∧
        bestMatching t ((scores.drop (ts.take k).flatten.flatten.length).take t.flatten.length)
          ((counts.drop (ts.take k).flatten.flatten.length).take t.flatten.length) eos mn mx maxOrder = some out := by
  induction ts with
  | nil =>
    intro scores counts _ _ _ _ _ _
    exact ⟨[], rfl, rfl, fun k t h => by simp at h⟩
  | cons t ts ih =>
    intro scores counts hw he hfit ho hs hc
    rw [List.flatten_cons, List.flatten_append, List.length_append] at hs hc
    obtain ⟨out, o1, o2, -⟩ := bestMatching_correct (K := K) (tokens := t) (scores := scores.take t.flatten.length)
      (counts := counts.take t.flatten.length) (eos := eos) (mn := mn) (mx := mx) (maxOrder := maxOrder)
      (by
        intro c hc
        obtain ⟨r, hr, hcr⟩ := List.mem_flatten.mp hc
        exact hw t List.mem_cons_self r hr c hcr) he hfit ho
      (by rw [List.length_take]; omega) (by rw [List.length_take]; omega)
    obtain ⟨outs, p1, p2, p3⟩ := ih (scores.drop t.flatten.length) (counts.drop t.flatten.length)
      (fun u hu => hw u (List.mem_cons_of_mem _ hu)) he hfit ho (by rw [List.length_drop]; omega)
      (by rw [List.length_drop]; omega)
    refine ⟨out :: outs, ?_, by rw [List.length_cons, p2, List.length_cons], ?_⟩
    · rw [collections]
      simp only [Option.bind_eq_bind, o1, Option.bind_some, p1, List.flatten_cons]
    · intro k u hu
      cases k with
      | zero =>
        obtain rfl : t = u := by simpa using hu
        exact ⟨out, rfl, o2, by simpa using o1⟩
      | succ k =>
        obtain ⟨out', q1, q2, q3⟩ := p3 k u (by simpa using hu)
        refine ⟨out', by simpa using q1, q2, ?_⟩
        rw [List.take_succ_cons, List.flatten_cons, List.flatten_append, List.length_append]
        rw [List.drop_drop, List.drop_drop] at q3
        exact q3

/-- With three axes retrieval is done independently in every collection. -/
theorem bestMatching3_correct (ts : List (List (List Int))) (scores : List K) (counts : List Nat)
    (hw : ∀ t ∈ ts, ∀ r ∈ t, ∀ c ∈ r, mn ≤ c ∧ c ≤ mx) (he : mn ≤ eos ∧ eos ≤ mx) (hfit : mx + 2 - mn < 2 ^ 31)
    (ho : 2 ≤ maxOrder) (hs : scores.length = ts.flatten.flatten.length)
    (hc : counts.length = ts.flatten.flatten.length) :
    ∃ outs : List (List (Stat K)), bestMatching3 ts scores counts eos mn mx maxOrder = some outs.flatten ∧
      outs.length = ts.length ∧ ∀ (k : Nat) t, ts[k]? = some t → ∃ out, outs[k]? = some out ∧
        out.length = t.flatten.length ∧
        bestMatching t ((scores.drop (ts.take k).flatten.flatten.length).take t.flatten.length)
          ((counts.drop (ts.take k).flatten.flatten.length).take t.flatten.length) eos mn mx maxOrder = some out := by
  rw [bestMatching3]
  rw [if_pos ⟨he.1, he.2, ho, hs.symm, hc.symm⟩]
  exact collections_correct ts scores counts hw he hfit ho hs hc

end

end Verif.Nbest
