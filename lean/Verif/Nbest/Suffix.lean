import Verif.Nbest.Names
import Mathlib.Data.List.Pairwise

/-!
# `CreateSuffixArray` sorts the suffixes
-/

namespace Verif.Nbest

/-- The array `text` holds the text `x` of length `n`, with symbols of at most `K`, and three zeros. -/
structure Text (text : List Nat) (n K : Nat) (x : Nat → Nat) : Prop where
  get : ∀ i, i < n + 3 → text[i]? = some (x i)
  ends : Ends x n
  le : ∀ i, x i ≤ K

/-- The positions from 0 to `n - 1` in the order of their suffixes. -/
structure IsSuffixArray (x : Nat → Nat) (n : Nat) (sa : List Nat) : Prop where
  perm : sa.Perm (List.range n)
  sorted : sa.Pairwise (Lt x)

/-- The sample, lines 78-80. -/
def sample (n : Nat) : List Nat := (List.range (n + ((n + 2) / 3 - (n + 1) / 3))).filter (fun i => i % 3 ≠ 0)

theorem mem_sample (n i : Nat) : i ∈ sample n ↔ i < n + ((n + 2) / 3 - (n + 1) / 3) ∧ i % 3 ≠ 0 := by
  simp [sample]

theorem idx_lt (n i : Nat) (h : i ∈ sample n) : idx ((n + 2) / 3) i < (n + 2) / 3 + n / 3 := by
  rw [mem_sample] at h
  unfold idx
  split <;> omega

theorem idx_inj (n i j : Nat) (hi : i ∈ sample n) (hj : j ∈ sample n)
    (h : idx ((n + 2) / 3) i = idx ((n + 2) / 3) j) : i = j := by
  rw [mem_sample] at hi hj
  unfold idx at h
  split at h <;> split at h <;> omega

theorem pos_mem (n s : Nat) (h : s < (n + 2) / 3 + n / 3) : samplePos ((n + 2) / 3) s ∈ sample n := by
  rw [mem_sample]
  unfold samplePos
  split <;> omega

theorem idx_pos (n0 s : Nat) : idx n0 (samplePos n0 s) = s := by
  unfold samplePos
  split
  · rw [idx, if_pos (by omega)]; omega
  · rw [idx, if_neg (by omega)]; omega

theorem pos_idx (n i : Nat) (h : i ∈ sample n) : samplePos ((n + 2) / 3) (idx ((n + 2) / 3) i) = i :=
  idx_inj n _ _ (pos_mem n _ (idx_lt n i h)) h (idx_pos _ _)

theorem idx_next (n i : Nat) (h : i ∈ sample n) : idx ((n + 2) / 3) (i + 3) = idx ((n + 2) / 3) i + 1 := by
  rw [mem_sample] at h
  unfold idx
  split <;> split <;> omega

/-- The list of places is a permutation. -/
theorem sample_perm (n : Nat) (l : List Nat) (h : l.Perm (sample n)) :
    (l.map (idx ((n + 2) / 3))).Perm (List.range ((n + 2) / 3 + n / 3)) := by
  have hnd : (sample n).Nodup := List.Nodup.filter _ List.nodup_range
  refine (h.map _).trans ?_
  rw [List.perm_ext_iff_of_nodup ?_ List.nodup_range]
  · intro s
    rw [List.mem_map, List.mem_range]
    constructor
    · rintro ⟨i, hi, rfl⟩; exact idx_lt n i hi
    · intro hs; exact ⟨_, pos_mem n s hs, idx_pos _ s⟩
  · exact hnd.map_on (fun i hi j hj he => idx_inj n i j hi hj he)

section
variable {text : List Nat} {n K : Nat} {x : Nat → Nat}

theorem sample_le (n i : Nat) (h : i ∈ sample n) : i ≤ n := by
  rw [mem_sample] at h; omega

/-- The three passes. -/
theorem passes_eq (hT : Text text n K x) : ∃ R sa, (radixPass (sample n) text 2 K).bind (fun s => radixPass s text 1 K) = some R ∧
    radixPass R text 0 K = some sa ∧ R.length = (n + 2) / 3 + n / 3 ∧ sa.Perm (sample n) ∧ TSorted x sa := by
  have key : ∀ off, off ≤ 2 → ∀ a : List Nat, a.Perm (sample n) →
      ∀ i ∈ a, text[i + off]? = some (x (i + off)) ∧ x (i + off) ≤ K := by
    intro off ho a ha i hi
    have := sample_le n i (ha.mem_iff.mp hi)
    exact ⟨hT.get _ (by omega), hT.le _⟩
  have p1 := bucket_perm (fun i => x (i + 2)) (sample n) K (fun i hi => (key 2 le_rfl _ (.refl _) i hi).2)
  have s1 := bucket_stable (fun i => x (i + 2)) (sample n) (fun _ _ => True) (List.pairwise_of_forall (fun _ _ => trivial)) (K + 1)
  have e1 := radixPass_eq (sample n) text 2 K (fun i => x (i + 2)) (key 2 le_rfl _ (.refl _))
  generalize bucketTo (fun i => x (i + 2)) (sample n) (K + 1) = a1 at p1 s1 e1
  have p2 := bucket_perm (fun i => x (i + 1)) a1 K (fun i hi => (key 1 (by omega) _ p1 i hi).2)
  have s2 := bucket_stable (fun i => x (i + 1)) a1 _ s1 (K + 1)
  have e2 := radixPass_eq a1 text 1 K (fun i => x (i + 1)) (key 1 (by omega) _ p1)
  generalize bucketTo (fun i => x (i + 1)) a1 (K + 1) = a2 at p2 s2 e2
  have p2' := p2.trans p1
  have p3 := bucket_perm (fun i => x i) a2 K (fun i hi => (key 0 (by omega) _ p2' i hi).2)
  have s3 := bucket_stable (fun i => x i) a2 _ s2 (K + 1)
  have e3 := radixPass_eq a2 text 0 K (fun i => x i) (key 0 (by omega) _ p2')
  generalize bucketTo (fun i => x i) a2 (K + 1) = a3 at p3 s3 e3
  refine ⟨a2, a3, ?_, e3, ?_, p3.trans p2', ?_⟩
  · rw [e1]; exact e2
  · have := (sample_perm n a2 p2').length_eq
    simpa using this
  · refine s3.imp ?_
    intro i j h
    unfold TLt TEq
    omega

/-- What holds after the names have been written: `R` is a text whose suffixes are in the order of those of
the sample. -/
theorem names_result (hT : Text text n K x) (R sa : List Nat) (hR : R.length = (n + 2) / 3 + n / 3)
    (hp : sa.Perm (sample n)) (hs : TSorted x sa) : ∃ name R' ρ,
    nameLoop text ((n + 2) / 3) sa 0 none (R ++ [0, 0, 0]) = some (name, R') ∧
    R'.length = (n + 2) / 3 + n / 3 + 3 ∧
    Text R' ((n + 2) / 3 + n / 3) name ρ ∧ name ≤ (n + 2) / 3 + n / 3 ∧
    (∀ i ∈ sample n, ∀ j ∈ sample n,
      (ρ (idx ((n + 2) / 3) i) < ρ (idx ((n + 2) / 3) j) ↔ TLt x i j) ∧
      (ρ (idx ((n + 2) / 3) i) = ρ (idx ((n + 2) / 3) j) ↔ TEq x i j)) ∧
    (name = (n + 2) / 3 + n / 3 → ∀ (k s : Nat), sa[k]? = some s → ρ (idx ((n + 2) / 3) s) = k + 1) := by
  set n0 := (n + 2) / 3 with hn0
  set n02 := n0 + n / 3 with hn02
  have hmem : ∀ s ∈ sa, s ∈ sample n := fun s h => hp.mem_iff.mp h
  have hfst := namesOf_fst x sa 0 none
  have hnd : sa.Nodup := hp.nodup_iff.mpr (List.Nodup.filter _ List.nodup_range)
  have hsalen : sa.length = n02 := by
    have := (sample_perm n sa hp).length_eq
    simpa using this
  have hfst' : ((namesOf x sa 0 none).map (fun w => (idx n0 w.1, w.2))).map Prod.fst = sa.map (idx n0) := by
    rw [List.map_map]
    conv_rhs => rw [← hfst, List.map_map]
    rfl
  obtain ⟨R', h1, h2, h3, h4⟩ := writeAll_spec (R ++ [0, 0, 0])
    ((namesOf x sa 0 none).map (fun w => (idx n0 w.1, w.2)))
    (by
      intro w hw
      have : w.1 ∈ sa.map (idx n0) := by rw [← hfst']; exact List.mem_map_of_mem hw
      obtain ⟨s, hs', he⟩ := List.mem_map.mp this
      have := idx_lt n s (hmem s hs')
      rw [← hn0, he] at this
      simp only [List.length_append, List.length_cons, List.length_nil]
      omega)
    (by
      rw [hfst']
      exact (sample_perm n sa hp).nodup_iff.mpr List.nodup_range)
  have hlen : R'.length = n02 + 3 := by rw [h2]; simp [hR]
  have hnm : ∀ w ∈ namesOf x sa 0 none, R'[idx n0 w.1]? = some w.2 := fun w hw =>
    h3 _ (List.mem_map_of_mem (f := fun w => (idx n0 w.1, w.2)) hw)
  have hex : ∀ s ∈ sample n, ∃ m, (s, m) ∈ namesOf x sa 0 none := by
    intro s hs'
    have : s ∈ (namesOf x sa 0 none).map Prod.fst := by rw [hfst]; exact hp.mem_iff.mpr hs'
    obtain ⟨w, hw, rfl⟩ := List.mem_map.mp this
    exact ⟨w.2, hw⟩
  have hge := names_ge x sa 0 none
  have hpos := names_pos x sa 0
  have hzero : ∀ q, n02 ≤ q → q < n02 + 3 → R'[q]? = some 0 := by
    intro q hq1 hq2
    rw [h4 q, List.getElem?_append_right (by omega), hR]
    · obtain rfl | rfl | rfl : q = n02 ∨ q = n02 + 1 ∨ q = n02 + 2 := by omega
      · simp
      · simp
      · simp
    · rw [hfst']
      intro hq
      have := (sample_perm n sa hp).mem_iff.mp hq
      rw [List.mem_range] at this
      omega
  refine ⟨lastName x sa 0 none, R', fun q => R'.getD q 0, ?_, hlen, ⟨?_, ?_, ?_⟩, ?_, ?_, ?_⟩
  · rw [nameLoop_eq text x n n0 hT.get sa (fun s h => sample_le n s (hmem s h)), h1]; rfl
  · intro i hi
    simp only [List.getD_eq_getElem?_getD]
    rw [List.getElem?_eq_getElem (by omega)]; rfl
  · intro i
    simp only [List.getD_eq_getElem?_getD]
    constructor
    · intro h
      by_contra hlt
      obtain ⟨m, hm⟩ := hex _ (pos_mem n i (by omega))
      have := hnm _ hm
      simp only [idx_pos, ← hn0] at this
      rw [this] at h
      have := hpos _ hm
      simp only [Option.getD_some] at h this
      omega
    · intro h
      by_cases h' : i < n02 + 3
      · rw [hzero i h h']; rfl
      · rw [List.getElem?_eq_none (by omega)]; rfl
  · intro i
    simp only [List.getD_eq_getElem?_getD]
    by_cases h : i < n02
    · obtain ⟨m, hm⟩ := hex _ (pos_mem n i (by omega))
      have := hnm _ hm
      simp only [idx_pos, ← hn0] at this
      rw [this]
      exact (hge.1 _ hm).2
    · by_cases h' : i < n02 + 3
      · rw [hzero i (by omega) h']; simp
      · rw [List.getElem?_eq_none (by omega)]; simp
  · have := hge.2.2; omega
  · intro i hi j hj
    obtain ⟨m, hm⟩ := hex i hi
    obtain ⟨m', hm'⟩ := hex j hj
    have e1 := hnm _ hm
    have e2 := hnm _ hm'
    simp only [List.getD_eq_getElem?_getD]
    simp only at e1 e2
    rw [e1, e2]
    simp only [Option.getD_some]
    have hsrt := names_sorted x sa hs 0 none
    by_cases hw : (i, m) = (j, m')
    · obtain ⟨rfl, rfl⟩ := Prod.mk.inj hw
      unfold TLt TEq
      omega
    · have hpair : ∀ w ∈ namesOf x sa 0 none, ∀ v ∈ namesOf x sa 0 none, w ≠ v →
          ((w.2 = v.2 ∧ TEq x w.1 v.1) ∨ (w.2 < v.2 ∧ TLt x w.1 v.1)) ∨
          ((v.2 = w.2 ∧ TEq x v.1 w.1) ∨ (v.2 < w.2 ∧ TLt x v.1 w.1)) := by
        have hsym : (namesOf x sa 0 none).Pairwise (fun w v =>
            ((w.2 = v.2 ∧ TEq x w.1 v.1) ∨ (w.2 < v.2 ∧ TLt x w.1 v.1)) ∨
            ((v.2 = w.2 ∧ TEq x v.1 w.1) ∨ (v.2 < w.2 ∧ TLt x v.1 w.1))) := hsrt.imp Or.inl
        intro w hw v hv hne
        haveI : Std.Symm (fun w v : Nat × Nat =>
            ((w.2 = v.2 ∧ TEq x w.1 v.1) ∨ (w.2 < v.2 ∧ TLt x w.1 v.1)) ∨
            ((v.2 = w.2 ∧ TEq x v.1 w.1) ∨ (v.2 < w.2 ∧ TLt x v.1 w.1))) := ⟨fun _ _ h => h.symm⟩
        exact hsym.forall hw hv hne
      rcases hpair _ hm _ hm' hw with (⟨h5, h6⟩ | ⟨h5, h6⟩) | (⟨h5, h6⟩ | ⟨h5, h6⟩) <;>
        simp only at h5 h6 <;> unfold TLt TEq at * <;> omega
  · intro hname k s hk
    have hall := names_all x sa 0 none (by rw [hname, hsalen]; omega)
    have hm : (s, k + 1) ∈ namesOf x sa 0 none := by
      rw [hall, List.mem_map]
      refine ⟨(s, k), ?_, by simp⟩
      rw [List.mem_zipIdx_iff_getElem?]
      exact hk
    have := hnm _ hm
    simp only at this
    simp only [List.getD_eq_getElem?_getD, this, Option.getD_some]

/-- The suffixes of the names are in the order of the suffixes of the text. -/
theorem lift_lt (hx : Ends x n) (ρ : Nat → Nat) (hρ : Ends ρ ((n + 2) / 3 + n / 3))
    (hn : ∀ i ∈ sample n, ∀ j ∈ sample n,
      (ρ (idx ((n + 2) / 3) i) < ρ (idx ((n + 2) / 3) j) ↔ TLt x i j) ∧
      (ρ (idx ((n + 2) / 3) i) = ρ (idx ((n + 2) / 3) j) ↔ TEq x i j))
    (i j : Nat) (hi : i ∈ sample n) (hj : j ∈ sample n) (h : Lt x i j) :
    Lt ρ (idx ((n + 2) / 3) i) (idx ((n + 2) / 3) j) := by
  obtain ⟨k, h1, h2⟩ := h
  induction k using Nat.strong_induction_on generalizing i j with
  | _ k ih =>
    by_cases hk : k < 3
    · refine ⟨0, by simp, ?_⟩
      simp only [Nat.add_zero]
      rw [(hn i hi j hj).1]
      unfold TLt
      have e0 := h1 0
      have e1 := h1 1
      simp only [Nat.add_zero] at e0
      obtain rfl | rfl | rfl : k = 0 ∨ k = 1 ∨ k = 2 := by omega
      · simp only [Nat.add_zero] at h2; omega
      · have := e0 (by omega); omega
      · have := e0 (by omega); have := e1 (by omega); omega
    · have e0 := h1 0 (by omega)
      have e1 := h1 1 (by omega)
      have e2 := h1 2 (by omega)
      have e3 : 3 < k → x (i + 3) = x (j + 3) := h1 3
      simp only [Nat.add_zero] at e0
      have hne : i ≠ j := by rintro rfl; omega
      have z := fun a => hx a
      have z0 := z i; have z0' := z j; have z1 := z (i + 1); have z1' := z (j + 1)
      have z2 := z (i + 2); have z2' := z (j + 2); have z3 := z (i + 3); have z3' := z (j + 3)
      have hi' := (mem_sample n i).mp hi
      have hj' := (mem_sample n j).mp hj
      have hin : i + 3 ≤ n := by omega
      have hjn : j + 3 ≤ n := by omega
      have hname : ρ (idx ((n + 2) / 3) i) = ρ (idx ((n + 2) / 3) j) := (hn i hi j hj).2.mpr ⟨e0, e1, e2⟩
      rw [Lt.step]
      refine .inr ⟨hname, ?_⟩
      have h3 : x (i + 3) ≤ x (j + 3) := by
        rcases Nat.eq_or_lt_of_le (show 3 ≤ k by omega) with rfl | h
        · omega
        · have := e3 h; omega
      have hj3 : j + 3 ∈ sample n := by rw [mem_sample]; omega
      by_cases hi3 : i + 3 ∈ sample n
      · rw [← idx_next n i hi, ← idx_next n j hj]
        apply ih (k - 3) (by omega) (i + 3) (j + 3) hi3 hj3
        · intro m hm
          have := h1 (m + 3) (by omega)
          rw [show i + 3 + m = i + (m + 3) by omega, show j + 3 + m = j + (m + 3) by omega]; exact this
        · rw [show i + 3 + (k - 3) = i + k by omega, show j + 3 + (k - 3) = j + k by omega]; exact h2
      · refine ⟨0, by simp, ?_⟩
        simp only [Nat.add_zero]
        rw [mem_sample] at hi3
        have e : ρ (idx ((n + 2) / 3) i + 1) = 0 := by
          rw [hρ]
          unfold idx
          split <;> omega
        rw [e, ← idx_next n j hj]
        have := (hρ (idx ((n + 2) / 3) (j + 3))).not.mpr (by have := idx_lt n _ hj3; omega)
        omega

theorem lift_iff (hx : Ends x n) (ρ : Nat → Nat) (hρ : Ends ρ ((n + 2) / 3 + n / 3))
    (hn : ∀ i ∈ sample n, ∀ j ∈ sample n,
      (ρ (idx ((n + 2) / 3) i) < ρ (idx ((n + 2) / 3) j) ↔ TLt x i j) ∧
      (ρ (idx ((n + 2) / 3) i) = ρ (idx ((n + 2) / 3) j) ↔ TEq x i j))
    (s t : Nat) (hs : s < (n + 2) / 3 + n / 3) (ht : t < (n + 2) / 3 + n / 3) (h : Lt ρ s t) :
    Lt x (samplePos ((n + 2) / 3) s) (samplePos ((n + 2) / 3) t) := by
  have m1 := pos_mem n s hs
  have m2 := pos_mem n t ht
  have hne : samplePos ((n + 2) / 3) s ≠ samplePos ((n + 2) / 3) t := by
    intro he
    have := congrArg (idx ((n + 2) / 3)) he
    rw [idx_pos, idx_pos] at this
    subst this
    exact Lt.irrefl ρ s h
  rcases Lt.total hx (sample_le n _ m1) (sample_le n _ m2) hne with h1 | h1
  · exact h1
  · have := lift_lt hx ρ hρ hn _ _ m2 m1 h1
    rw [idx_pos, idx_pos] at this
    exact (h.asymm this).elim

/-- The comparison of the merge. -/
theorem sampleLeq_eq (hT : Text text n K x) (R : List Nat) (hR : R.length = (n + 2) / 3 + n / 3 + 3)
    (hz : ∀ q, (n + 2) / 3 + n / 3 ≤ q → q < (n + 2) / 3 + n / 3 + 3 → R[q]? = some 0)
    (hrank : ∀ i ∈ sample n, ∃ a, R[idx ((n + 2) / 3) i]? = some a ∧ 0 < a ∧
      ∀ j ∈ sample n, ∀ b, R[idx ((n + 2) / 3) j]? = some b → (a ≤ b ↔ i = j ∨ Lt x i j))
    (s j : Nat) (hs : s < (n + 2) / 3 + n / 3) (hsn : samplePos ((n + 2) / 3) s < n) (hj : j % 3 = 0) (hjn : j < n) :
    ∃ b, sampleLeq text R ((n + 2) / 3) s j = some b ∧ (b = true ↔ Lt x (samplePos ((n + 2) / 3) s) j) := by
  set n0 := (n + 2) / 3 with hn0
  have hmem := pos_mem n s hs
  rw [← hn0] at hmem
  have hmem' := (mem_sample n _).mp hmem
  have hidx : idx n0 (samplePos n0 s) = s := idx_pos n0 s
  have hx := hT.ends
  unfold sampleLeq
  by_cases hlt : s < n0
  · have hpos : samplePos n0 s = s * 3 + 1 := if_pos hlt
    rw [hpos] at hmem' hidx hsn ⊢
    have hj1 : j + 1 ∈ sample n := by rw [mem_sample]; omega
    obtain ⟨b, hb, hb0, hbr⟩ := hrank _ hj1
    have hij : idx n0 (j + 1) = j / 3 := by rw [idx, if_pos (by omega)]; omega
    rw [hij] at hb
    have hget : ∃ a, R[s + n0]? = some a ∧ (a ≤ b ↔ Lt x (s * 3 + 2) (j + 1)) := by
      by_cases hi1 : s * 3 + 2 ∈ sample n
      · obtain ⟨a, ha, ha0, har⟩ := hrank _ hi1
        have : idx n0 (s * 3 + 2) = s + n0 := by rw [idx, if_neg (by omega)]; omega
        rw [this] at ha
        refine ⟨a, ha, ?_⟩
        rw [har _ hj1 b (by rw [hij]; exact hb)]
        constructor
        · rintro (h | h)
          · omega
          · exact h
        · exact .inr
      · rw [mem_sample] at hi1
        refine ⟨0, hz _ (by omega) (by omega), ?_⟩
        constructor
        · intro _
          refine ⟨0, by simp, ?_⟩
          have h1 := (hx (s * 3 + 2 + 0)).mpr (by omega)
          have h2 := (hx (j + 1 + 0)).not.mpr (by omega)
          omega
        · intro _; omega
    obtain ⟨a, ha, har⟩ := hget
    refine ⟨leq2 (x (s * 3 + 1)) a (x j) b, ?_, ?_⟩
    · simp only [hT.get (s * 3 + 1) (by omega), hT.get j (by omega), Option.bind_eq_bind, Option.bind_some, if_pos hlt, ha, hb]
    · rw [Lt.step, ← har]
      simp [leq2]
  · have hpos : samplePos n0 s = (s - n0) * 3 + 2 := if_neg hlt
    rw [hpos] at hmem' hidx hsn ⊢
    set i := (s - n0) * 3 + 2 with hi
    obtain ⟨a, ha⟩ : ∃ a, R[s - n0 + 1]? = some a := ⟨_, List.getElem?_eq_getElem (by omega)⟩
    obtain ⟨b, hb⟩ : ∃ b, R[j / 3 + n0]? = some b := ⟨_, List.getElem?_eq_getElem (by omega)⟩
    refine ⟨leq3 (x i) (x (i + 1)) a (x j) (x (j + 1)) b, ?_, ?_⟩
    · simp only [hT.get i (by omega), hT.get j (by omega), Option.bind_eq_bind, Option.bind_some, if_neg hlt,
        hT.get (i + 1) (by omega), hT.get (j + 1) (by omega), ha, hb]
    · have key : x (i + 1) = x (j + 1) → (a ≤ b ↔ Lt x (i + 1 + 1) (j + 1 + 1)) := by
        intro he
        have z1 := hx (i + 1)
        have z2 := hx (j + 1)
        have hi2 : i + 2 ∈ sample n := by rw [mem_sample]; omega
        have hii : idx n0 (i + 2) = s - n0 + 1 := by rw [idx, if_pos (by omega)]; omega
        obtain ⟨a', ha', ha0, har⟩ := hrank _ hi2
        rw [hii, ha] at ha'
        obtain rfl := Option.some.inj ha'
        by_cases hj2 : j + 2 ∈ sample n
        · have hjj : idx n0 (j + 2) = j / 3 + n0 := by rw [idx, if_neg (by omega)]; omega
          rw [har _ hj2 b (by rw [hjj]; exact hb)]
          constructor
          · rintro (h | h)
            · omega
            · exact h
          · exact .inr
        · rw [mem_sample] at hj2
          have hb' := hz (j / 3 + n0) (by omega) (by omega)
          rw [hb] at hb'
          obtain rfl := Option.some.inj hb'
          constructor
          · intro h; omega
          · intro h
            rw [Lt.step] at h
            have h1 := (hx (j + 1 + 1)).mpr (by omega)
            have h2 := hx (i + 1 + 1)
            have h3 := hx (i + 1 + 1)
            exfalso
            omega
      rw [Lt.step, Lt.step (i := i + 1)]
      simp only [leq3, leq2]
      constructor
      · intro h
        simp only [Bool.or_eq_true, decide_eq_true_eq, Bool.and_eq_true] at h
        rcases h with h | ⟨h1, h | ⟨h2, h3⟩⟩
        · exact .inl h
        · exact .inr ⟨h1, .inl h⟩
        · exact .inr ⟨h1, .inr ⟨h2, (key h2).mp h3⟩⟩
      · intro h
        simp only [Bool.or_eq_true, decide_eq_true_eq, Bool.and_eq_true]
        rcases h with h | ⟨h1, h | ⟨h2, h3⟩⟩
        · exact .inl h
        · exact .inr ⟨h1, .inl h⟩
        · exact .inr ⟨h1, .inr ⟨h2, (key h2).mpr h3⟩⟩

/-- The merge of sorted lists. -/
theorem merge_eq (text R : List Nat) (n0 : Nat) (l12 l0 : List Nat)
    (hle : ∀ s ∈ l12, ∀ j ∈ l0, ∃ b, sampleLeq text R n0 s j = some b ∧ (b = true ↔ Lt x (samplePos n0 s) j) ∧
      (b = false → Lt x j (samplePos n0 s)))
    (h12 : (l12.map (samplePos n0)).Pairwise (Lt x)) (h0 : l0.Pairwise (Lt x)) :
    ∃ out, merge text R n0 l12 l0 = some out ∧ out.Perm (l12.map (samplePos n0) ++ l0) ∧ out.Pairwise (Lt x) := by
  induction hm : l12.length + l0.length generalizing l12 l0 with
  | zero =>
    have h1 : l12 = [] := List.eq_nil_of_length_eq_zero (by omega)
    have h2 : l0 = [] := List.eq_nil_of_length_eq_zero (by omega)
    subst h1 h2
    exact ⟨[], by rw [merge], by simp, by simp⟩
  | succ m ih =>
    cases l12 with
    | nil => exact ⟨l0, by rw [merge], by simp, h0⟩
    | cons s l12 =>
      cases l0 with
      | nil => exact ⟨(s :: l12).map (samplePos n0), by rw [merge], by simp, h12⟩
      | cons j l0 =>
        obtain ⟨b, hb, hb1, hb2⟩ := hle s List.mem_cons_self j List.mem_cons_self
        have h12' := List.pairwise_cons.mp h12
        have h0' := List.pairwise_cons.mp h0
        rw [merge, hb]
        simp only [Option.bind_eq_bind, Option.bind_some]
        cases b with
        | true =>
          obtain ⟨out, g1, g2, g3⟩ := ih l12 (j :: l0) (fun s' hs' => hle s' (List.mem_cons_of_mem _ hs')) h12'.2 h0
            (by simp only [List.length_cons] at hm ⊢; omega)
          refine ⟨samplePos n0 s :: out, by simp [g1], ?_, List.pairwise_cons.mpr ⟨?_, g3⟩⟩
          · simpa using g2
          · intro y hy
            rcases List.mem_append.mp (g2.mem_iff.mp hy) with h | h
            · exact h12'.1 y h
            · rcases List.mem_cons.mp h with rfl | h
              · exact hb1.mp rfl
              · exact (hb1.mp rfl).trans (h0'.1 y h)
        | false =>
          obtain ⟨out, g1, g2, g3⟩ := ih (s :: l12) l0
            (fun s' hs' j' hj' => hle s' hs' j' (List.mem_cons_of_mem _ hj')) h12 h0'.2
            (by simp only [List.length_cons] at hm ⊢; omega)
          refine ⟨j :: out, by simp [g1], ?_, List.pairwise_cons.mpr ⟨?_, g3⟩⟩
          · exact (g2.cons j).trans List.perm_middle.symm
          · intro y hy
            rcases List.mem_append.mp (g2.mem_iff.mp hy) with h | h
            · rcases List.mem_cons.mp h with rfl | h
              · exact hb2 rfl
              · exact (hb2 rfl).trans (h12'.1 y h)
            · exact h0'.1 y h

end

end Verif.Nbest
