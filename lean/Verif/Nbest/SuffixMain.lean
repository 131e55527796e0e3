import Verif.Nbest.Suffix

/-!
# The suffix array
-/

namespace Verif.Nbest

variable {text : List Nat} {n K : Nat} {x : Nat → Nat}

/-- What holds when the sample has been sorted. -/
structure Ranked (n : Nat) (x : Nat → Nat) (sa R : List Nat) : Prop where
  perm : sa.Perm (List.range ((n + 2) / 3 + n / 3))
  sorted : (sa.map (samplePos ((n + 2) / 3))).Pairwise (Lt x)
  len : R.length = (n + 2) / 3 + n / 3 + 3
  zero : ∀ q, (n + 2) / 3 + n / 3 ≤ q → q < (n + 2) / 3 + n / 3 + 3 → R[q]? = some 0
  rank : ∀ (k s : Nat), sa[k]? = some s → R[s]? = some (k + 1)

theorem Ranked.order {sa R : List Nat} (h : Ranked n x sa R) :
    ∀ i ∈ sample n, ∃ a, R[idx ((n + 2) / 3) i]? = some a ∧ 0 < a ∧
      ∀ j ∈ sample n, ∀ b, R[idx ((n + 2) / 3) j]? = some b → (a ≤ b ↔ i = j ∨ Lt x i j) := by
  have hex : ∀ i ∈ sample n, ∃ k : Nat, sa[k]? = some (idx ((n + 2) / 3) i) := by
    intro i hi
    have : idx ((n + 2) / 3) i ∈ sa := by
      rw [h.perm.mem_iff, List.mem_range]; exact idx_lt n i hi
    exact List.mem_iff_getElem?.mp this
  have hlt : ∀ (k l s t : Nat), sa[k]? = some s → sa[l]? = some t → k < l →
      Lt x (samplePos ((n + 2) / 3) s) (samplePos ((n + 2) / 3) t) := by
    intro k l s t hk hl hkl
    have hk' := List.getElem?_eq_some_iff.mp hk
    have hl' := List.getElem?_eq_some_iff.mp hl
    have := List.pairwise_iff_getElem.mp h.sorted k l (by simpa using hk'.1) (by simpa using hl'.1) hkl
    simpa [hk'.2, hl'.2] using this
  intro i hi
  obtain ⟨k, hk⟩ := hex i hi
  refine ⟨k + 1, h.rank k _ hk, by omega, ?_⟩
  intro j hj b hb
  obtain ⟨l, hl⟩ := hex j hj
  rw [h.rank l _ hl] at hb
  obtain rfl := Option.some.inj hb
  have e1 := pos_idx n i hi
  have e2 := pos_idx n j hj
  constructor
  · intro hle
    rcases Nat.eq_or_lt_of_le hle with he | hlt'
    · have : k = l := by omega
      subst this
      rw [hk] at hl
      exact .inl (idx_inj n i j hi hj (Option.some.inj hl))
    · have := hlt k l _ _ hk hl (by omega)
      rw [e1, e2] at this
      exact .inr this
  · intro hor
    by_contra hc
    have := hlt l k _ _ hl hk (by omega)
    rw [e1, e2] at this
    rcases hor with rfl | h'
    · exact Lt.irrefl x _ this
    · exact h'.asymm this

/-- Steps 2 and 3. -/
theorem finish (hT : Text text n K x) {sa R : List Nat} (h : Ranked n x sa R) :
    ∃ sa0 out, radixPass ((sa.filter (fun s => s < (n + 2) / 3)).map (fun s => 3 * s)) text 0 K = some sa0 ∧
      merge text R ((n + 2) / 3) (sa.drop ((n + 2) / 3 - (n + 1) / 3)) sa0 = some out ∧ IsSuffixArray x n out := by
  set n0 := (n + 2) / 3 with hn0
  set R0 := (sa.filter (fun s => decide (s < n0))).map (fun s => 3 * s) with hR0
  have hnd : sa.Nodup := h.perm.nodup_iff.mpr List.nodup_range
  have hmem : ∀ s, s ∈ sa ↔ s < n0 + n / 3 := fun s => by rw [h.perm.mem_iff, List.mem_range]
  have hR0mem : ∀ j, j ∈ R0 ↔ j < n ∧ j % 3 = 0 := by
    intro j
    rw [hR0, List.mem_map]
    constructor
    · rintro ⟨s, hs, rfl⟩
      have := (List.mem_filter.mp hs).2
      simp only [decide_eq_true_eq] at this
      omega
    · rintro ⟨h1, h2⟩
      refine ⟨j / 3, List.mem_filter.mpr ⟨(hmem _).mpr (by omega), by simp only [decide_eq_true_eq]; omega⟩, by omega⟩
  have hR0sorted : R0.Pairwise (fun a b => Lt x (a + 1) (b + 1)) := by
    rw [hR0, List.pairwise_map]
    have h1 : sa.Pairwise (fun s t => Lt x (samplePos n0 s) (samplePos n0 t)) := List.pairwise_map.mp h.sorted
    have h2 := h1.filter (fun s => decide (s < n0))
    refine h2.imp_of_mem ?_
    intro s t hs ht hlt
    have e1 := (List.mem_filter.mp hs).2
    have e2 := (List.mem_filter.mp ht).2
    simp only [decide_eq_true_eq] at e1 e2
    rw [samplePos, samplePos, if_pos e1, if_pos e2] at hlt
    rw [show 3 * s + 1 = s * 3 + 1 by omega, show 3 * t + 1 = t * 3 + 1 by omega]
    exact hlt
  have hkey : ∀ j ∈ R0, text[j + 0]? = some (x j) ∧ x j ≤ K := by
    intro j hj
    have := (hR0mem j).mp hj
    exact ⟨hT.get j (by omega), hT.le j⟩
  have e0 := radixPass_eq R0 text 0 K x hkey
  have p0 := bucket_perm x R0 K (fun j hj => (hkey j hj).2)
  have s0 := bucket_stable x R0 _ hR0sorted (K + 1)
  generalize bucketTo x R0 (K + 1) = sa0 at e0 p0 s0
  have s0' : sa0.Pairwise (Lt x) := s0.imp (fun {a b} hab => (Lt.step x a b).mpr hab)
  -- the empty suffix is dropped
  have hdrop : ∀ s, s ∈ sa.drop (n0 - (n + 1) / 3) ↔ s < n0 + n / 3 ∧ samplePos n0 s < n := by
    by_cases hn : n % 3 = 1
    · have hd : n0 - (n + 1) / 3 = 1 := by omega
      have hfirst : sa[0]? = some (n0 - 1) := by
        have hin : n0 - 1 ∈ sa := (hmem _).mpr (by omega)
        obtain ⟨k, hk⟩ := List.mem_iff_getElem?.mp hin
        cases k with
        | zero => exact hk
        | succ k =>
          exfalso
          have hk' := List.getElem?_eq_some_iff.mp hk
          have := List.pairwise_iff_getElem.mp h.sorted 0 (k + 1)
            (by rw [List.length_map]; exact Nat.lt_of_le_of_lt (Nat.zero_le _) hk'.1) (by simpa using hk'.1) (by omega)
          simp only [List.getElem_map, hk'.2] at this
          rw [show samplePos n0 (n0 - 1) = n by unfold samplePos; split <;> omega] at this
          obtain ⟨m, -, h2⟩ := this
          have := (hT.ends (n + m)).mpr (by omega)
          omega
      cases hsa : sa with
      | nil => rw [hsa] at hfirst; simp at hfirst
      | cons d rest =>
        rw [hsa] at hfirst hnd
        have hd' : d = n0 - 1 := by simpa using hfirst
        have hnd' := List.nodup_cons.mp hnd
        intro s
        rw [hd, List.drop_one, List.tail_cons]
        have h1 := hmem s
        rw [hsa, List.mem_cons] at h1
        constructor
        · intro hs
          refine ⟨h1.mp (.inr hs), ?_⟩
          have hne : s ≠ d := by rintro rfl; exact hnd'.1 hs
          have hs2 := h1.mp (.inr hs)
          unfold samplePos
          split <;> omega
        · rintro ⟨h2, h3⟩
          rcases h1.mpr h2 with rfl | h4
          · exfalso
            unfold samplePos at h3
            split at h3 <;> omega
          · exact h4
    · intro s
      rw [show n0 - (n + 1) / 3 = 0 by omega, List.drop_zero, hmem]
      constructor
      · intro hs
        refine ⟨hs, ?_⟩
        unfold samplePos
        split <;> omega
      · exact fun h => h.1
  have hsub : (sa.drop (n0 - (n + 1) / 3)).Sublist sa := List.drop_sublist _ _
  obtain ⟨out, g1, g2, g3⟩ := merge_eq (x := x) text R n0 (sa.drop (n0 - (n + 1) / 3)) sa0
    (by
      intro s hs j hj
      have h1 := (hdrop s).mp hs
      have h2 := (hR0mem j).mp (p0.mem_iff.mp hj)
      obtain ⟨b, hb1, hb2⟩ := sampleLeq_eq hT R h.len h.zero h.order s j h1.1 h1.2 h2.2 h2.1
      refine ⟨b, hb1, hb2, ?_⟩
      intro hb
      have hne : samplePos n0 s ≠ j := by
        intro he
        have := (mem_sample n _).mp (pos_mem n s h1.1)
        rw [← hn0, he] at this
        omega
      rcases Lt.total hT.ends (le_of_lt h1.2) (le_of_lt h2.1) hne with h3 | h3
      · have := hb2.mpr h3
        rw [hb] at this
        simp at this
      · exact h3)
    (by exact h.sorted.sublist (hsub.map _)) s0'
  refine ⟨sa0, out, e0, g1, ?_, g3⟩
  have hndo : out.Nodup := g3.imp (fun {a b} hab => by rintro rfl; exact Lt.irrefl x _ hab)
  rw [List.perm_ext_iff_of_nodup hndo List.nodup_range]
  intro i
  rw [g2.mem_iff, List.mem_append, List.mem_map, List.mem_range, p0.mem_iff, hR0mem]
  constructor
  · rintro (⟨s, hs, rfl⟩ | h1)
    · exact ((hdrop s).mp hs).2
    · exact h1.1
  · intro hi
    by_cases h3 : i % 3 = 0
    · exact .inr ⟨hi, h3⟩
    · have hm : i ∈ sample n := by rw [mem_sample]; omega
      refine .inl ⟨idx n0 i, (hdrop _).mpr ⟨idx_lt n i hm, ?_⟩, pos_idx n i hm⟩
      rw [pos_idx n i hm]; exact hi

/-- `CreateSuffixArray` returns the suffix array. -/
theorem createSuffixArray_sorts (hT : Text text n K x) :
    ∃ sa, createSuffixArray text n K = some sa ∧ IsSuffixArray x n sa := by
  induction n using Nat.strong_induction_on generalizing text K x with
  | _ n ih =>
    rw [createSuffixArray]
    by_cases h1 : n = 1
    · rw [if_pos h1]
      subst h1
      exact ⟨[0], rfl, by simp [List.range_succ], by simp⟩
    · rw [if_neg h1]
      obtain ⟨R, sa, e1, e2, hR, hp, hs⟩ := passes_eq hT
      obtain ⟨name, R', ρ, e3, hlen, hT', hname, hord, hall⟩ := names_result hT R sa hR hp hs
      obtain ⟨s1, e11, e12⟩ := Option.bind_eq_some_iff.mp e1
      have e11 : radixPass ((List.range (n + ((n + 2) / 3 - (n + 1) / 3))).filter (fun i => decide (i % 3 ≠ 0)))
        text 2 K = some s1 := e11
      simp only [Option.bind_eq_bind, e11, e12, e2, e3, Option.bind_some]
      set n0 := (n + 2) / 3 with hn0
      set n02 := n0 + n / 3 with hn02
      suffices hsuf : ∃ sa' R'', (if h : name < n02 then
            (createSuffixArray R' n02 name).bind fun sa =>
              (writeAll R' (sa.zipIdx.map (fun x => (x.1, x.2 + 1)))).bind fun R => some (sa, R)
          else (writeAll sa ((R'.take n02).zipIdx.map (fun x => (x.1 - 1, x.2)))).bind fun sa => some (sa, R')) =
          some (sa', R'') ∧ Ranked n x sa' R'' by
        obtain ⟨sa', R'', g1, g2⟩ := hsuf
        obtain ⟨sa0, out, g3, g4, g5⟩ := finish hT g2
        refine ⟨out, ?_, g5⟩
        by_cases hl : name < n02
        · rw [dif_pos hl] at g1 ⊢
          obtain ⟨a1, b1, g1⟩ := Option.bind_eq_some_iff.mp g1
          obtain ⟨a2, b2, g1⟩ := Option.bind_eq_some_iff.mp g1
          obtain ⟨rfl, rfl⟩ := Prod.mk.inj (Option.some.inj g1)
          simp only [b1, b2, Option.bind_some]
          exact Option.bind_eq_some_iff.mpr ⟨sa0, g3, g4⟩
        · rw [dif_neg hl] at g1 ⊢
          obtain ⟨a1, b1, g1⟩ := Option.bind_eq_some_iff.mp g1
          obtain ⟨rfl, rfl⟩ := Prod.mk.inj (Option.some.inj g1)
          simp only [b1, Option.bind_some]
          exact Option.bind_eq_some_iff.mpr ⟨sa0, g3, g4⟩
      have hzero : ∀ q, n02 ≤ q → q < n02 + 3 → R'[q]? = some 0 := by
        intro q hq1 hq2
        rw [hT'.get q hq2, (hT'.ends q).mpr hq1]
      by_cases hlt : name < n02
      · obtain ⟨sa', g1, g2⟩ := ih n02 (by omega) hT'
        have hmem : ∀ s, s ∈ sa' ↔ s < n02 := fun s => by rw [g2.perm.mem_iff, List.mem_range]
        have hfst : ((sa'.zipIdx.map (fun x => (x.1, x.2 + 1))).map Prod.fst) = sa' := by
          rw [List.map_map]
          exact List.zipIdx_map_fst 0 sa'
        obtain ⟨R'', w1, w2, w3, w4⟩ := writeAll_spec R' (sa'.zipIdx.map (fun x => (x.1, x.2 + 1)))
          (by
            intro w hw
            have : w.1 ∈ sa' := by rw [← hfst]; exact List.mem_map_of_mem hw
            have := (hmem _).mp this
            omega)
          (by rw [hfst]; exact g2.perm.nodup_iff.mpr List.nodup_range)
        refine ⟨sa', R'', by rw [dif_pos hlt, g1]; simp only [Option.bind_some, w1], g2.perm, ?_, by omega, ?_, ?_⟩
        · rw [List.pairwise_map]
          refine g2.sorted.imp_of_mem ?_
          intro s t hs' ht' hst
          exact lift_iff hT.ends ρ hT'.ends hord s t ((hmem s).mp hs') ((hmem t).mp ht') hst
        · intro q hq1 hq2
          rw [w4 q (by rw [hfst, hmem]; omega)]
          exact hzero q hq1 hq2
        · intro k s hk
          refine w3 (s, k + 1) (List.mem_map.mpr ⟨(s, k), ?_, rfl⟩)
          rw [List.mem_zipIdx_iff_getElem?]; exact hk
      · have hname' : name = n02 := by omega
        have hall := hall hname'
        have hperm := sample_perm n sa hp
        rw [← hn0, ← hn02] at hperm
        have hsalen : sa.length = n02 := by simpa using hperm.length_eq
        have hw : writeAll sa ((R'.take n02).zipIdx.map (fun x => (x.1 - 1, x.2))) = some (sa.map (idx n0)) := by
          apply writeAll_target
          · simp
          · intro w hw
            obtain ⟨⟨r, q⟩, hq, rfl⟩ := List.mem_map.mp hw
            rw [List.mem_zipIdx_iff_getElem?] at hq
            simp only at hq ⊢
            have hqlt : q < n02 := by
              have := (List.getElem?_eq_some_iff.mp hq).1
              rw [List.length_take] at this; omega
            rw [List.getElem?_take, if_pos hqlt, hT'.get q (by omega)] at hq
            obtain rfl := Option.some.inj hq
            have : q ∈ sa.map (idx n0) := by rw [hperm.mem_iff, List.mem_range]; exact hqlt
            obtain ⟨k, hk⟩ := List.mem_iff_getElem?.mp this
            rw [List.getElem?_map] at hk
            obtain ⟨s, hk', rfl⟩ := Option.map_eq_some_iff.mp hk
            rw [hall k s hk', Nat.add_sub_cancel, List.getElem?_map, hk']; rfl
          · intro k hk
            left
            have hk' := List.getElem?_eq_getElem hk
            have hm : sa[k] ∈ sample n := hp.mem_iff.mp (List.getElem_mem hk)
            have hil := idx_lt n _ hm
            rw [← hn0] at hil
            refine ⟨idx n0 sa[k], List.mem_map.mpr ⟨(k + 1, idx n0 sa[k]), ?_, by simp⟩⟩
            rw [List.mem_zipIdx_iff_getElem?]
            simp only
            rw [List.getElem?_take, if_pos (by omega), hT'.get _ (by omega), hall k _ hk']
        refine ⟨sa.map (idx n0), R', by rw [dif_neg hlt, hw]; rfl, hperm, ?_, hlen, hzero, ?_⟩
        · rw [List.pairwise_map]
          have hlt2 : (sa.map (idx n0)).Pairwise (Lt ρ) := by
            rw [List.pairwise_map, List.pairwise_iff_getElem]
            intro k l hk hl hkl
            refine ⟨0, by simp, ?_⟩
            have a1 := hall k _ (List.getElem?_eq_getElem hk)
            have a2 := hall l _ (List.getElem?_eq_getElem hl)
            simp only [Nat.add_zero]
            omega
          refine hlt2.imp_of_mem ?_
          intro s t hs' ht' hst
          have m1 := List.mem_range.mp (hperm.mem_iff.mp hs')
          have m2 := List.mem_range.mp (hperm.mem_iff.mp ht')
          exact lift_iff hT.ends ρ hT'.ends hord s t m1 m2 hst
        · intro k s hk
          rw [List.getElem?_map] at hk
          obtain ⟨t, hk', rfl⟩ := Option.map_eq_some_iff.mp hk
          have hm : t ∈ sample n := hp.mem_iff.mp (List.mem_of_getElem? hk')
          have hil := idx_lt n _ hm
          rw [← hn0] at hil
          rw [hT'.get _ (by omega), hall k t hk']

end Verif.Nbest
