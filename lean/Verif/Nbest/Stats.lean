import Verif.Nbest.Encode
import Mathlib.Algebra.Ring.Basic

/-!
# `GetBestMatchingStats` returns what the specification says
-/

namespace Verif.Nbest

/-- The value of a position of the text. -/
def valAt {M : Type} [Zero M] (N : Nat) (v : List M) (p : Nat) : M := if N ≤ p then 0 else v.getD (N - 1 - p) 0

theorem reorder_eq {M : Type} [Zero M] (sa : List Nat) (N : Nat) (v : List M) (hv : v.length = N) :
    reorder sa N v = some (sa.map (valAt N v)) := by
  rw [reorder]
  induction sa with
  | nil => rfl
  | cons s sa ih =>
    have : (if N ≤ s then some 0 else v[N - 1 - s]?) = some (valAt N v s) := by
      rw [valAt]
      split
      · rfl
      · have hlt : N - 1 - s < v.length := by omega
        rw [List.getElem?_eq_getElem hlt, List.getD_eq_getElem _ _ hlt]
    rw [List.mapM_cons, this, ih]; rfl

theorem reverse_range (N : Nat) : (List.range N).reverse = (List.range N).map (fun j => N - 1 - j) := by
  apply List.ext_getElem
  · simp
  · intro i h1 h2
    simp at h1 ⊢

/-- Sums over positions of the text are sums over tokens. -/
theorem sum_positions {M : Type} [AddCommMonoid M] (N : Nat) (v : List M) (P : Nat → Prop) [DecidablePred P] :
    ((List.range (N + 2)).map (fun p => if P p then valAt N v p else 0)).sum =
      total v ((List.range N).filter (fun j => P (N - 1 - j))) := by
  rw [total, sum_filter, List.range_succ, List.range_succ, List.map_append, List.map_append, List.sum_append,
    List.sum_append]
  have h1 : valAt N v N = 0 := if_pos le_rfl
  have h2 : valAt N v (N + 1) = 0 := if_pos (by omega)
  simp only [List.map_cons, List.map_nil, List.sum_cons, List.sum_nil, h1, h2, ite_self, add_zero]
  rw [← ((List.reverse_perm (List.range N)).map _).sum_eq, reverse_range, List.map_map]
  congr 1
  apply List.map_congr_left
  intro j hj
  have hj := List.mem_range.mp hj
  simp only [Function.comp_apply]
  congr 1
  rw [valAt, if_neg (by omega), show N - 1 - (N - 1 - j) = j by omega]

theorem le_foldr_max (l : List Nat) (a : Nat) (h : a ∈ l) : a ≤ l.foldr max 0 := by
  induction l with
  | nil => simp at h
  | cons b l ih =>
    rcases List.mem_cons.mp h with rfl | h
    · exact le_max_left _ _
    · exact le_trans (ih h) (le_max_right _ _)

theorem foldr_max_le (l : List Nat) (b : Nat) (h : ∀ a ∈ l, a ≤ b) : l.foldr max 0 ≤ b := by
  induction l with
  | nil => exact Nat.zero_le _
  | cons a l ih => exact max_le (h a List.mem_cons_self) (ih (fun c hc => h c (List.mem_cons_of_mem _ hc)))

theorem dist_get (tokens : List (List Int)) (i : Nat) (hi : i < tokens.flatten.length) :
    (tokens.flatMap (fun r => (List.range r.length).map (· + 1)))[i]? = some (toBegin tokens i) := by
  induction tokens generalizing i with
  | nil => simp at hi
  | cons r rs ih =>
    rw [List.flatMap_cons, toBegin]
    by_cases h : i < r.length
    · rw [if_pos h, List.getElem?_append_left (by simpa using h)]
      simp [h]
    · rw [if_neg h, List.getElem?_append_right (by simpa using h)]
      simp only [List.length_map, List.length_range]
      apply ih
      rw [List.flatten_cons, List.length_append] at hi
      omega

theorem exists_step {C : Nat → Nat} (a d : Nat) (h : C a < C (a + d)) : ∃ k, a ≤ k ∧ k < a + d ∧ C k < C (k + 1) := by
  induction d with
  | zero => exact absurd h (lt_irrefl _)
  | succ d ih =>
    by_cases h' : C a < C (a + d)
    · obtain ⟨k, h1, h2, h3⟩ := ih h'
      exact ⟨k, h1, by omega, h3⟩
    · exact ⟨a + d, by omega, by omega, by rw [show a + d + 1 = a + (d + 1) by omega]; omega⟩

section
variable {K : Type} [Field K] {tokens : List (List Int)} {scores : List K} {counts : List Nat}
  {eos mn mx maxOrder : Int}

/-- `between` on a table of sums in the order of the suffixes. -/
theorem between_eq {M : Type} [AddCommMonoid M] [Sub M] (hsub : ∀ a b : M, a + b - a = b) {N : Nat} {sa : List Nat}
    (hlen : sa.length = N + 2) (hperm : sa.Perm (List.range (N + 2))) (v : List M) {f : Iv} (hlt : f.lb ≤ f.rb)
    (hb : f.rb < N + 2) (P : Nat → Prop) [DecidablePred P]
    (hP : ∀ (k : Nat) (hk : k < sa.length), sa[k] < N → (In k f ↔ P sa[k])) :
    between (excl 0 (sa.map (valAt N v))) f = some (total v ((List.range N).filter (fun j => P (N - 1 - j)))) := by
  rw [between, excl_get _ _ _ (by simp; omega), excl_get _ _ _ (by simp; omega)]
  simp only [Option.bind_eq_bind, Option.bind_some, zero_add]
  rw [sum_take_split _ f.lb (f.rb + 1) (by omega), hsub]
  congr 1
  rw [← sum_positions, ← (hperm.map _).sum_eq]
  congr 1
  apply List.ext_getElem
  · simp
  · intro k h1 h2
    have hk : k < sa.length := by simpa using h1
    simp only [List.getElem_map, List.getElem_range]
    have hval : (sa.map (valAt N v)).getD k 0 = valAt N v sa[k] := by
      rw [List.getD_eq_getElem _ _ (by simpa using hk), List.getElem_map]
    rw [hval]
    by_cases hN : sa[k] < N
    · have := hP k hk hN
      unfold In at this
      by_cases hPk : P sa[k]
      · rw [if_pos hPk, if_pos ⟨(this.mpr hPk).1, by have := (this.mpr hPk).2; omega⟩]
      · rw [if_neg hPk, if_neg]
        intro h
        exact hPk (this.mp ⟨h.1, by omega⟩)
    · have : valAt N v sa[k] = 0 := if_pos (by omega)
      rw [this]; simp

theorem statAt_specAt {b : Nat} (hw : ∀ t ∈ tokens.flatten, mn ≤ t ∧ t ≤ mx) (he : mn ≤ eos ∧ eos ≤ mx)
    (hb : (mx + 2 - mn) * 2 < 2 ^ b) (hs : scores.length = tokens.flatten.length)
    (hc : counts.length = tokens.flatten.length) :
    ∃ out, bestMatchingInternal b tokens scores counts eos mn mx maxOrder = some out ∧
      out.length = tokens.flatten.length ∧
      ∀ i, i < tokens.flatten.length → counts.getD i 0 = 0 →
        out[i]? = some (specAt (wrap b maxOrder) tokens scores counts eos maxOrder i) := by
  set w := tokens.flatten with hwdef
  set N := w.length with hN
  obtain ⟨hT, henc, -⟩ := encText_text hw he
  set x : Nat → Nat := fun p => (encText w eos mn mx).getD p 0 with hx
  replace hT : Text (encText w eos mn mx) (N + 2) (enc mn (mx + 1)) x := hT
  obtain ⟨sa, hsa, hSA⟩ := createSuffixArray_sorts hT
  have hsalen : sa.length = N + 2 := by simpa using hSA.perm.length_eq
  have hsamem : ∀ s, s ∈ sa ↔ s < N + 2 := fun s => by rw [hSA.perm.mem_iff, List.mem_range]
  rw [bestMatchingInternal]
  simp only [← hwdef, ← hN, Option.bind_eq_bind, textOf_eq hw he hb, Option.bind_some, hsa,
    reorder_eq sa N counts hc, reorder_eq sa N scores hs,
    reorder_eq sa N (scores.map (fun v => v * v)) (by simpa using hs)]
  set C : Nat → Nat := fun k => ((sa.map (valAt N counts)).take k).sum with hC
  have hCget : ∀ k, k ≤ N + 2 → (excl 0 (sa.map (valAt N counts)))[k]? = some (C k) := by
    intro k hk
    rw [excl_get _ _ _ (by simp; omega), zero_add]
  have hClen : (excl 0 (sa.map (valAt N counts))).length = N + 2 + 1 := by rw [excl_length]; simp [hsalen]
  have hlastC : (excl 0 (sa.map (valAt N counts))).getLast? = some (C (N + 2)) := by
    rw [List.getLast?_eq_getElem?, hClen, Nat.add_sub_cancel]; exact hCget _ le_rfl
  have hCstep : ∀ k, k < N + 2 → ∀ (hk : k < sa.length), C (k + 1) = C k + valAt N counts sa[k] := by
    intro k hk hk'
    rw [hC]
    simp only
    rw [List.take_add_one, List.sum_append, List.getElem?_map, List.getElem?_eq_getElem hk']
    simp
  have hmono : ∀ a b, a ≤ b → b ≤ N + 2 → C a ≤ C b := by
    intro a b hab hbn
    induction b with
    | zero => obtain rfl : a = 0 := by omega
              exact le_rfl
    | succ b ih =>
      by_cases h : a = b + 1
      · rw [h]
      · have h1 := ih (by omega) (by omega)
        have h2 := hCstep b (by omega) (by omega)
        omega
  -- the keys
  have hkeyrank : ∀ j, j < N → counts.getD j 0 ≠ 0 → ∃ k, ∃ hk : k < sa.length, sa[k] = N - 1 - j ∧ C k < C (k + 1) := by
    intro j hj hkey
    obtain ⟨k, hk⟩ := List.mem_iff_getElem.mp ((hsamem (N - 1 - j)).mpr (by omega))
    obtain ⟨hk1, hk2⟩ := hk
    refine ⟨k, hk1, hk2, ?_⟩
    have := hCstep k (by omega) hk1
    rw [hk2, valAt, if_neg (by omega), show N - 1 - (N - 1 - j) = j by omega] at this
    omega
  have hrankkey : ∀ k, ∀ hk : k < sa.length, C k < C (k + 1) → sa[k] < N ∧ counts.getD (N - 1 - sa[k]) 0 ≠ 0 := by
    intro k hk hlt
    have := hCstep k (by omega) hk
    rw [valAt] at this
    by_cases h : N ≤ sa[k]
    · rw [if_pos h] at this; omega
    · rw [if_neg h] at this
      exact ⟨by omega, by omega⟩
  by_cases htot : C (N + 2) = 0
  · rw [hlastC, htot, if_pos rfl]
    refine ⟨_, rfl, by simp, ?_⟩
    intro i hi _
    have hnokey : ∀ j, j < N → counts.getD j 0 = 0 := by
      intro j hj
      by_contra hkey
      obtain ⟨k, hk, -, hlt⟩ := hkeyrank j hj hkey
      have := hmono (k + 1) (N + 2) (by omega) le_rfl
      omega
    have hbest : best w eos counts i = 0 := by
      rw [best]
      have : (List.range w.length).filter (fun j => counts.getD j 0 ≠ 0) = [] := by
        rw [List.filter_eq_nil_iff]
        intro j hj
        have := hnokey j (List.mem_range.mp hj)
        simpa using this
      rw [this]; rfl
    have htotal : total counts (matching w eos counts i) = 0 := by
      rw [total]
      apply List.sum_eq_zero
      intro a ha
      obtain ⟨j, hj, rfl⟩ := List.mem_map.mp ha
      exact hnokey j (List.mem_range.mp (List.mem_filter.mp hj).1)
    rw [List.getElem?_replicate, if_pos hi, specAt]
    simp only [← hwdef, hbest, meanAt, varAt, htotal, if_true, if_pos (Nat.zero_le 1)]
  · rw [hlastC, if_neg (by simpa using htot)]
    obtain ⟨lcp, hlcp, hlcplen, hlcp0, hlcpget⟩ := createLcpArray_eq (n := N + 2)
      (fun i hi => hT.get i (by omega)) hT.ends (by omega) hSA
    set σ : Nat → Nat := fun k => sa.getD k 0 with hσ
    set L : Nat → Nat := fun k => lcp.getD k 0 with hL
    have hσget : ∀ k, ∀ hk : k < sa.length, σ k = sa[k] := fun k hk => List.getD_eq_getElem _ _ hk
    have hR : Ranks x (N + 2) σ L := by
      constructor
      · intro a c hac hcn
        rw [hσget a (by omega), hσget c (by omega)]
        exact List.pairwise_iff_getElem.mp hSA.sorted a c (by omega) (by omega) hac
      · intro a ha
        obtain ⟨l, h1, h2⟩ := hlcpget a _ _ (List.getElem?_eq_getElem (by omega)) (List.getElem?_eq_getElem (by omega))
        rw [hσget a (by omega), hσget (a + 1) (by omega)]
        have : L (a + 1) = l := by rw [hL]; simp only; rw [List.getD_eq_getElem?_getD, h1]; rfl
        rw [this]; exact h2
    have hL0 : L (N + 1) = 0 := by
      refine last_zero (encText_less hw he) hR ?_ ?_
      · intro p hp
        obtain ⟨k, hk1, hk2⟩ := List.mem_iff_getElem.mp ((hsamem p).mpr hp)
        exact ⟨k, by omega, by rw [hσget k hk1]; exact hk2⟩
      · intro k hk
        rw [hσget k (by omega)]
        exact (hsamem _).mp (List.getElem_mem _)
    obtain ⟨ivs, lp, htree, hTree⟩ := createLcpIntervals_tree (L := L) (n := N + 2) (lcp := lcp) (by omega)
      (fun i hi => by
        rw [hL]; simp only
        rw [List.getD_eq_getElem _ _ (by omega), List.getElem?_eq_getElem (by omega)]) hL0
    obtain ⟨tp, htp, htplen, htpget⟩ := findTightest_eq hTree hClen hCget
    obtain ⟨inv, hinv, hinvlen, hinvget, -⟩ := writeAll_spec (List.replicate (N + 2) 0) sa.zipIdx
      (by
        intro u hu
        have := List.mem_zipIdx_iff_getElem?.mp hu
        rw [List.length_replicate]
        exact (hsamem _).mp (List.mem_of_getElem? this))
      (by
        rw [List.zipIdx_map_fst]
        exact hSA.perm.nodup_iff.mpr List.nodup_range)
    have htree' : createLcpIntervals lcp (N + 2) = some (ivs, lp) := htree
    have htp' : findTightest (N + 2) ivs (excl 0 (sa.map (valAt N counts))) lp = some tp := htp
    simp only [hlcp, Option.bind_some, htree', htp', hinv]
    -- every position
    have hall : ∀ i, i < N → ∃ (f : Iv), IsIv L (N + 2) f.lcp f.lb f.rb ∧ (f.lcp = 0 → f.parent = none) ∧
        (counts.getD i 0 = 0 → f.lcp = best w eos counts i) ∧
        statAt b N maxOrder inv tp ivs (tokens.flatMap (fun r => (List.range r.length).map (· + 1)))
          (excl 0 (sa.map (valAt N scores))) (excl 0 (sa.map (valAt N (scores.map (fun v => v * v)))))
          (excl 0 (sa.map (valAt N counts))) i =
        (between (excl 0 (sa.map (valAt N scores))) f).bind (fun s =>
          (between (excl 0 (sa.map (valAt N (scores.map (fun v => v * v))))) f).bind (fun q =>
            (between (excl 0 (sa.map (valAt N counts))) f).bind (fun c =>
              statOf b maxOrder f (toBegin tokens i) s q c))) ∧
        (counts.getD i 0 = 0 → ∀ (k : Nat) (hk : k < sa.length), sa[k] < N →
          (In k f ↔ best w eos counts i ≤ lcpLen ((eos :: w).reverse.drop (N - 1 - i)) ((eos :: w).reverse.drop sa[k]))) := by
      intro i hi
      obtain ⟨r, hr1, hr2⟩ := List.mem_iff_getElem.mp ((hsamem (N - 1 - i)).mpr (by omega))
      obtain ⟨d, f, hd, hti⟩ := htpget r (by omega)
      have hf := hTree.sound f (List.mem_of_getElem? hti.get)
      have hrin : In r f := ⟨hti.left, hti.right⟩
      have hinvr : inv[N - 1 - i]? = some r := by
        refine hinvget (N - 1 - i, r) ?_
        rw [List.mem_zipIdx_iff_getElem?, List.getElem?_eq_getElem hr1, hr2]
      have hbest : counts.getD i 0 = 0 → f.lcp = best w eos counts i := by
        -- the value is the length of the longest match
        intro hquery
        apply le_antisymm
        · -- some key is in the interval
          have hne : C f.lb < C (f.rb + 1) := by
            rcases hti.key with h | h
            · exact h
            · obtain ⟨g, g1, g2, g3, g4, g5⟩ := hTree.root
              rw [List.getLast?_eq_getElem?, ← h, Nat.add_sub_cancel, hti.get] at g1
              obtain rfl := Option.some.inj g1
              rw [g3, g4, show N + 2 - 1 + 1 = N + 2 by omega]
              have : C 0 = 0 := by rw [hC]; simp
              omega
          have hflt := hf.lt
          obtain ⟨k, k1, k2, k3⟩ := exists_step (C := C) f.lb (f.rb + 1 - f.lb)
            (by rw [show f.lb + (f.rb + 1 - f.lb) = f.rb + 1 by omega]; exact hne)
          have hkn : k < N + 2 := by have := hf.bound; omega
          obtain ⟨q1, q2⟩ := hrankkey k (by omega) k3
          have hkin : In k f := ⟨k1, by omega⟩
          have hcom := (hR.in_iff hf hrin hkn).mp hkin
          rw [hσget r hr1, hσget k (by omega), hr2] at hcom
          have hpne : N - 1 - i ≠ sa[k] := by
            intro h
            rw [← h, show N - 1 - (N - 1 - i) = i by omega] at q2
            exact q2 hquery
          have := (common_iff hw he (by omega) (by omega) hpne).mp hcom
          refine le_trans this (le_foldr_max _ _ (List.mem_map.mpr ⟨N - 1 - sa[k], ?_, ?_⟩))
          · rw [List.mem_filter, List.mem_range]
            exact ⟨by omega, by simpa using q2⟩
          · rw [hist_eq w eos i hi, hist_eq w eos _ (by omega), ← hN, show N - 1 - (N - 1 - sa[k]) = sa[k] by omega]
        · apply foldr_max_le
          intro a ha
          obtain ⟨j, hj, rfl⟩ := List.mem_map.mp ha
          obtain ⟨hj1, hj2⟩ := List.mem_filter.mp hj
          have hj1 := List.mem_range.mp hj1
          have hj2 : counts.getD j 0 ≠ 0 := by simpa using hj2
          obtain ⟨k, hk, hk2, hk3⟩ := hkeyrank j hj1 hj2
          have hij : i ≠ j := by rintro rfl; exact hj2 hquery
          have hrk : r ≠ k := by
            rintro rfl
            rw [hr2] at hk2; omega
          refine hR.best hmono hTree (i := r) (by omega) hti (j := k) (by omega) hrk hk3 ?_
          rw [hσget r hr1, hσget k hk, hr2, hk2]
          rw [common_iff hw he (by omega) (by omega) (by omega), hist_eq w eos i hi, hist_eq w eos j hj1]
      refine ⟨f, hf, ?_, hbest, ?_, ?_⟩
      · -- an interval of value zero is the top
        intro h0
        obtain ⟨g, g1, g2, g3, g4, g5⟩ := hTree.root
        have hgm : g ∈ ivs := by
          rw [List.getLast?_eq_getElem?] at g1; exact List.mem_of_getElem? g1
        have hg := hTree.sound g hgm
        have n1 := hf.nested hg (p := 0 + r) ⟨by have := hrin.1; omega, by have := hrin.2; omega⟩
          ⟨by omega, by omega⟩ (by omega)
        have n2 := hg.nested hf (p := 0 + r) ⟨by omega, by omega⟩
          ⟨by have := hrin.1; omega, by have := hrin.2; omega⟩ (by omega)
        obtain ⟨q, hq1, hq2⟩ := List.mem_iff_getElem.mp hgm
        obtain ⟨d1, d2⟩ := List.getElem?_eq_some_iff.mp hti.get
        rcases Nat.lt_trichotomy q d with h | h | h
        · have := List.pairwise_iff_getElem.mp hTree.sorted q d hq1 d1 h
          rw [hq2, d2] at this; omega
        · subst h
          rw [hq2] at d2; rw [← d2]; exact g5
        · have := List.pairwise_iff_getElem.mp hTree.sorted d q d1 hq1 h
          rw [hq2, d2] at this; omega
      · rw [statAt]
        simp only [Option.bind_eq_bind, hinvr, Option.bind_some, hd, hti.get, dist_get tokens i hi]
      · intro hquery k hk hkN
        rw [hR.in_iff hf hrin (by omega), hσget r hr1, hσget k hk, hr2, hbest hquery]
        by_cases hself : N - 1 - i = sa[k]
        · rw [← hself]
          refine ⟨fun _ => ?_, fun _ m _ => rfl⟩
          rw [lcpLen_self]
          refine foldr_max_le _ _ ?_
          intro a ha
          obtain ⟨j, hj, rfl⟩ := List.mem_map.mp ha
          rw [← hist_eq w eos i hi]
          by_contra hgt
          obtain ⟨c, hc1, -⟩ := (le_lcpLen _ _ _).mp (le_refl (lcpLen (hist w eos i) (hist w eos j)))
            (hist w eos i).length (by omega)
          have := (List.getElem?_eq_some_iff.mp hc1).1
          omega
        · exact common_iff hw he (by omega) (by omega) hself
    obtain ⟨out, ho1, ho2, ho3⟩ := mapM_spec (statAt b N maxOrder inv tp ivs
        (tokens.flatMap (fun r => (List.range r.length).map (· + 1)))
          (excl 0 (sa.map (valAt N scores))) (excl 0 (sa.map (valAt N (scores.map (fun v => v * v)))))
          (excl 0 (sa.map (valAt N counts)))) (List.range N) (by
      intro i hi
      obtain ⟨f, hf, hf0, -, hst, -⟩ := hall i (List.mem_range.mp hi)
      have hlt := hf.lt
      have hbd := hf.bound
      rw [hst]
      have hbt : ∀ {M : Type} [AddCommMonoid M] [Sub M] (v : List M),
          ∃ u, between (excl 0 (sa.map (valAt N v))) f = some u := by
        intro M _ _ v
        rw [between, excl_get _ _ _ (by simp; omega), excl_get _ _ _ (by simp; omega)]
        exact ⟨_, rfl⟩
      obtain ⟨u1, e1⟩ := hbt scores
      obtain ⟨u2, e2⟩ := hbt (scores.map (fun v => v * v))
      obtain ⟨u3, e3⟩ := hbt counts
      rw [e1, e2, e3]
      simp only [Option.bind_some, statOf]
      by_cases h0 : f.lcp = 0
      · rw [if_pos h0, if_pos (hf0 h0)]; exact ⟨_, rfl⟩
      · rw [if_neg h0]; exact ⟨_, rfl⟩)
    refine ⟨out, ho1, by simpa using ho2, ?_⟩
    intro i hi hquery
    obtain ⟨f, hf, hf0, hbest, hst, hin⟩ := hall i hi
    have hbest := hbest hquery
    have hin := hin hquery
    have hgo := List.getElem?_eq_getElem (show i < out.length by rw [ho2]; simpa using hi)
    obtain ⟨a, ha1, ha2⟩ := ho3 i _ hgo
    rw [List.getElem?_range hi] at ha1
    obtain rfl := Option.some.inj ha1
    rw [hgo, ← ha2, hst]
    have hmatch : (List.range N).filter (fun j => best w eos counts i ≤
        lcpLen ((eos :: w).reverse.drop (N - 1 - i)) ((eos :: w).reverse.drop (N - 1 - j))) =
        matching w eos counts i := by
      rw [matching]
      apply List.filter_congr
      intro j hj
      have hj := List.mem_range.mp hj
      rw [hist_eq w eos i hi, hist_eq w eos j hj]
    have e1 := between_eq (fun a b : K => add_sub_cancel_left a b) hsalen hSA.perm scores (by have := hf.lt; omega)
      hf.bound (fun p => best w eos counts i ≤
        lcpLen ((eos :: w).reverse.drop (N - 1 - i)) ((eos :: w).reverse.drop p)) hin
    have e2 := between_eq (fun a b : K => add_sub_cancel_left a b) hsalen hSA.perm (scores.map (fun v => v * v))
      (by have := hf.lt; omega) hf.bound (fun p => best w eos counts i ≤
        lcpLen ((eos :: w).reverse.drop (N - 1 - i)) ((eos :: w).reverse.drop p)) hin
    have e3 := between_eq Nat.add_sub_cancel_left hsalen hSA.perm counts (by have := hf.lt; omega)
      hf.bound (fun p => best w eos counts i ≤
        lcpLen ((eos :: w).reverse.drop (N - 1 - i)) ((eos :: w).reverse.drop p)) hin
    rw [hmatch] at e1 e2 e3
    rw [e1, e2, e3]
    simp only [Option.bind_some, statOf, specAt, ← hwdef, meanAt, varAt]
    have hle1 : (total counts (matching w eos counts i) = 0 ∨ total counts (matching w eos counts i) = 1) ↔
        total counts (matching w eos counts i) ≤ 1 := by omega
    simp only [hle1]
    by_cases h0 : f.lcp = 0
    · rw [if_pos h0, if_pos (hf0 h0)]
      rw [hbest] at h0
      simp only [h0, if_true]
    · rw [if_neg h0]
      rw [hbest] at h0
      simp only [h0, if_false, hbest]

end

end Verif.Nbest
