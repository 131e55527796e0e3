import Verif.Nbest.LcpModel
import Verif.Nbest.Suffix

/-!
# Longest common prefixes
-/

namespace Verif.Nbest

/-- The suffixes at `i` and `j` agree in `k` symbols. -/
def Common (x : Nat → Nat) (i j k : Nat) : Prop := ∀ m, m < k → x (i + m) = x (j + m)

/-- The suffixes at `i` and `j` agree in `k` symbols and not in more. -/
def IsLcp (x : Nat → Nat) (i j k : Nat) : Prop := Common x i j k ∧ x (i + k) ≠ x (j + k)

theorem Common.mono {x : Nat → Nat} {i j k l : Nat} (h : Common x i j k) (hl : l ≤ k) : Common x i j l :=
  fun m hm => h m (by omega)

theorem Common.symm {x : Nat → Nat} {i j k : Nat} (h : Common x i j k) : Common x j i k :=
  fun m hm => (h m hm).symm

theorem Common.trans {x : Nat → Nat} {i j l k : Nat} (h : Common x i j k) (h' : Common x j l k) : Common x i l k :=
  fun m hm => (h m hm).trans (h' m hm)

theorem IsLcp.symm {x : Nat → Nat} {i j k : Nat} (h : IsLcp x i j k) : IsLcp x j i k :=
  ⟨h.1.symm, h.2.symm⟩

theorem IsLcp.le_iff {x : Nat → Nat} {i j k l : Nat} (h : IsLcp x i j k) : l ≤ k ↔ Common x i j l := by
  refine ⟨fun hl => h.1.mono hl, fun hc => ?_⟩
  by_contra hlt
  exact h.2 (hc k (by omega))

theorem IsLcp.unique {x : Nat → Nat} {i j k l : Nat} (h : IsLcp x i j k) (h' : IsLcp x i j l) : k = l :=
  Nat.le_antisymm (h'.le_iff.mpr h.1) (h.le_iff.mpr h'.1)

theorem Lt.isLcp {x : Nat → Nat} {i j : Nat} (h : Lt x i j) : ∃ k, IsLcp x i j k ∧ x (i + k) < x (j + k) := by
  obtain ⟨k, h1, h2⟩ := h
  exact ⟨k, ⟨h1, by omega⟩, h2⟩

/-- What the first and the third have in common, the second has in common with them. -/
theorem Common.between {x : Nat → Nat} {i j l k : Nat} (h1 : Lt x i j) (h2 : Lt x j l) (hc : Common x i l k) :
    Common x i j k := by
  obtain ⟨a, ha, ha'⟩ := h1.isLcp
  obtain ⟨b, hb, hb'⟩ := h2.isLcp
  rw [← ha.le_iff]
  by_contra hlt
  have e := hc a (by omega)
  rcases Nat.lt_trichotomy a b with h | rfl | h
  · have := hb.1 a h; omega
  · omega
  · have := ha.1 b h
    have := hc b (by omega)
    omega

/-- The common prefix of suffixes is within the text. -/
theorem Common.bound {x : Nat → Nat} {n i j k : Nat} (hx : Ends x n) (hi : i ≤ n) (hj : j ≤ n) (hne : i ≠ j)
    (hc : Common x i j k) : i + k ≤ n ∧ j + k ≤ n := by
  by_contra hlt
  rcases Nat.lt_or_gt_of_ne hne with h | h
  · have e := hc (n - j) (by omega)
    have a1 : x (j + (n - j)) = 0 := (hx _).mpr (by omega)
    have a2 := (hx (i + (n - j))).mp (by omega)
    omega
  · have e := hc (n - i) (by omega)
    have a1 : x (i + (n - i)) = 0 := (hx _).mpr (by omega)
    have a2 := (hx (j + (n - i))).mp (by omega)
    omega

/-- The loop finds the length of the common prefix. -/
theorem extend_eq {text : List Nat} {x : Nat → Nat} {n : Nat} (hg : ∀ i, i ≤ n → text[i]? = some (x i))
    {i j K : Nat} (hx : Ends x n) (hi : i ≤ n) (hj : j ≤ n) (hne : i ≠ j) (hl : IsLcp x i j K) :
    ∀ d k, K = k + d → extend text i j k = some K := by
  have hb := hl.1.bound hx hi hj hne
  intro d
  induction d with
  | zero =>
    intro k hk
    obtain rfl : K = k := by omega
    rw [extend]
    rw [hg _ hb.1, hg _ hb.2]
    simp only
    rw [if_neg hl.2]
  | succ d ih =>
    intro k hk
    rw [extend]
    rw [hg _ (by omega : i + k ≤ n), hg _ (by omega : j + k ≤ n)]
    simp only
    rw [if_pos (hl.1 k (by omega))]
    exact ih (k + 1) (by omega)

theorem isLcp_exists {x : Nat → Nat} {n i j : Nat} (hx : Ends x n) (hi : i ≤ n) (hj : j ≤ n) (hne : i ≠ j) :
    ∃ k, IsLcp x i j k := by
  rcases Lt.total hx hi hj hne with h | h
  · obtain ⟨k, hk, -⟩ := h.isLcp; exact ⟨k, hk⟩
  · obtain ⟨k, hk, -⟩ := h.isLcp; exact ⟨k, hk.symm⟩

/-- The suffix `j` is the last one before `i`. -/
structure Prev (x : Nat → Nat) (n i j : Nat) : Prop where
  lt : j < n
  less : Lt x j i
  last : ∀ l, l < n → Lt x l i → l = j ∨ Lt x l j

/-- What the next suffix has in common with its predecessor. -/
theorem Prev.next {x : Nat → Nat} {n i j k p : Nat} (hx : Ends x n) (hi : i + 1 < n) (h : Prev x n i j)
    (hc : Common x i j k) (hp : Prev x n (i + 1) p) : Common x (i + 1) p (k - 1) := by
  by_cases hk : k ≤ 1
  · intro m hm; omega
  · have hj : j + 1 < n := by
      by_contra hge
      have h1 := hc 1 (by omega)
      have h2 : x (j + 1) = 0 := (hx _).mpr (by omega)
      have h3 := (hx (i + 1)).mp (by omega)
      omega
    have h0 := hc 0 (by omega)
    simp only [Nat.add_zero] at h0
    have hless : Lt x (j + 1) (i + 1) := by
      rcases (Lt.step x j i).mp h.less with h' | h'
      · omega
      · exact h'.2
    have hc' : Common x (j + 1) (i + 1) (k - 1) := by
      intro m hm
      have := hc (m + 1) (by omega)
      rw [show j + 1 + m = j + (m + 1) by omega, show i + 1 + m = i + (m + 1) by omega]
      exact this.symm
    rcases hp.last (j + 1) hj hless with rfl | h'
    · exact hc'.symm
    · exact hc'.symm.trans (Common.between h' hp.less hc')

/-- What `phi` contains. -/
def Phi (x : Nat → Nat) (n : Nat) (i : Nat) : Option Nat → Prop
  | none => ∀ l, l < n → ¬ Lt x l i
  | some j => Prev x n i j

theorem plcpLoop_eq {text : List Nat} {x : Nat → Nat} {n : Nat} (hg : ∀ i, i ≤ n → text[i]? = some (x i))
    (hx : Ends x n) (phi : List (Option Nat)) (i k : Nat) (hi : i + phi.length = n)
    (hphi : ∀ (m : Nat) p, phi[m]? = some p → Phi x n (i + m) p)
    (hk : ∀ j, phi[0]? = some (some j) → Common x i j k) :
    ∃ plcp, plcpLoop text phi i k = some plcp ∧ plcp.length = phi.length ∧
      ∀ (m : Nat) p, phi[m]? = some p → match p with
        | none => plcp[m]? = some 0
        | some j => ∃ l, plcp[m]? = some l ∧ IsLcp x (i + m) j l := by
  induction phi generalizing i k with
  | nil => exact ⟨[], rfl, rfl, by simp⟩
  | cons p phi ih =>
    simp only [List.length_cons] at hi
    have hp0 := hphi 0 p rfl
    rw [plcpLoop]
    have hval : ∃ k', lcpAt text i k p = some k' ∧
        (match p with | none => k' = 0 | some j => IsLcp x i j k') := by
      cases p with
      | none => exact ⟨0, rfl, rfl⟩
      | some j =>
        have hne : i ≠ j := by rintro rfl; exact Lt.irrefl x _ hp0.less
        obtain ⟨K, hK⟩ := isLcp_exists hx (by omega) (le_of_lt hp0.lt) hne
        have hkK := hK.le_iff.mpr (hk j rfl)
        exact ⟨K, extend_eq hg hx (by omega) (le_of_lt hp0.lt) hne hK (K - k) k (by omega), hK⟩
    obtain ⟨k', hk1, hk2⟩ := hval
    obtain ⟨rest, h1, h2, h3⟩ := ih (i + 1) (k' - 1) (by omega)
      (by
        intro m q hq
        have := hphi (m + 1) q (by simpa using hq)
        rw [show i + 1 + m = i + (m + 1) by omega]; exact this)
      (by
        intro j hj
        have hq := hphi 1 (some j) (by simpa using hj)
        have hlen := (List.getElem?_eq_some_iff.mp hj).1
        cases p with
        | none => simp only at hk2; subst hk2; intro m hm; omega
        | some j0 => exact Prev.next hx (by omega) hp0 hk2.1 hq)
    refine ⟨k' :: rest, ?_, by simp [h2], ?_⟩
    · simp only [Option.bind_eq_bind, hk1, Option.bind_some, h1]
    · intro m q hq
      cases m with
      | zero =>
        simp only [List.getElem?_cons_zero, Option.some.injEq] at hq ⊢
        subst hq
        cases p with
        | none => exact hk2
        | some j => exact ⟨k', rfl, hk2⟩
      | succ m =>
        have := h3 m q (by simpa using hq)
        cases q with
        | none => simpa using this
        | some j =>
          obtain ⟨l, e1, e2⟩ := this
          refine ⟨l, by simpa using e1, ?_⟩
          rw [show i + (m + 1) = i + 1 + m by omega]; exact e2

theorem mapM_get (l sa : List Nat) (h : ∀ s ∈ sa, s < l.length) :
    ∃ r, sa.mapM (fun s => l[s]?) = some r ∧ r.length = sa.length ∧
      ∀ (k s : Nat), sa[k]? = some s → r[k]? = l[s]? := by
  induction sa with
  | nil => exact ⟨[], rfl, rfl, by simp⟩
  | cons a sa ih =>
    obtain ⟨r, h1, h2, h3⟩ := ih (fun s hs => h s (List.mem_cons_of_mem _ hs))
    have ha := List.getElem?_eq_getElem (h a List.mem_cons_self)
    refine ⟨l[a]'(h a List.mem_cons_self) :: r, ?_, by simp [h2], ?_⟩
    · simp [List.mapM_cons, ha, h1]
    · intro k s hk
      cases k with
      | zero =>
        simp only [List.getElem?_cons_zero, Option.some.injEq] at hk
        subst hk
        rw [List.getElem?_cons_zero]; exact ha.symm
      | succ k => simpa using h3 k s (by simpa using hk)

/-- `CreateLcpArray` returns the lengths of the common prefixes of neighbours. -/
theorem createLcpArray_eq {text : List Nat} {x : Nat → Nat} {n : Nat}
    (hg : ∀ i, i ≤ n → text[i]? = some (x i)) (hx : Ends x n) (hn : 0 < n) {sa : List Nat}
    (hsa : IsSuffixArray x n sa) :
    ∃ lcp, createLcpArray text sa n = some lcp ∧ lcp.length = n ∧ lcp[0]? = some 0 ∧
      ∀ k s t : Nat, sa[k]? = some s → sa[k + 1]? = some t → ∃ l, lcp[k + 1]? = some l ∧ IsLcp x s t l := by
  have hlen : sa.length = n := by simpa using hsa.perm.length_eq
  have hmem : ∀ s, s ∈ sa ↔ s < n := fun s => by rw [hsa.perm.mem_iff, List.mem_range]
  have hnd : sa.Nodup := hsa.perm.nodup_iff.mpr List.nodup_range
  have hlt : ∀ (k l s t : Nat), sa[k]? = some s → sa[l]? = some t → k < l → Lt x s t := by
    intro k l s t hk hl hkl
    have hk' := List.getElem?_eq_some_iff.mp hk
    have hl' := List.getElem?_eq_some_iff.mp hl
    have := List.pairwise_iff_getElem.mp hsa.sorted k l hk'.1 hl'.1 hkl
    rw [hk'.2, hl'.2] at this
    exact this
  cases hs : sa with
  | nil => rw [hs] at hlen; simp at hlen; omega
  | cons s0 rest =>
    have hfst : ((s0, (none : Option Nat)) :: ((s0 :: rest).zip rest).map
        (fun x => (x.2, some x.1))).map Prod.fst = s0 :: rest := by
      rw [List.map_cons, List.map_map]
      congr 1
      have : (Prod.fst ∘ fun x : Nat × Nat => (x.2, some x.1)) = Prod.snd := rfl
      rw [this, List.map_snd_zip]
      simp
    obtain ⟨phi, w1, w2, w3, -⟩ := writeAll_spec (List.replicate n (some 0))
      ((s0, none) :: ((s0 :: rest).zip rest).map (fun x => (x.2, some x.1)))
      (by
        intro w hw
        have : w.1 ∈ sa := by rw [hs, ← hfst]; exact List.mem_map_of_mem hw
        rw [List.length_replicate]; exact (hmem _).mp this)
      (by rw [hfst, ← hs]; exact hnd)
    rw [List.length_replicate] at w2
    have hphi0 : phi[s0]? = some none := w3 (s0, none) List.mem_cons_self
    have hphi1 : ∀ (k s t : Nat), sa[k]? = some s → sa[k + 1]? = some t → phi[t]? = some (some s) := by
      intro k s t hk ht
      refine w3 (t, some s) (List.mem_cons_of_mem _ (List.mem_map.mpr ⟨(s, t), ?_, rfl⟩))
      rw [hs] at hk ht
      have ht' : rest[k]? = some t := by simpa using ht
      exact List.mem_iff_getElem?.mpr ⟨k, by rw [List.getElem?_zip_eq_some]; exact ⟨hk, ht'⟩⟩
    have hP : ∀ (i : Nat) p, phi[i]? = some p → Phi x n (0 + i) p := by
      intro i p hp
      rw [Nat.zero_add]
      have hi := (List.getElem?_eq_some_iff.mp hp).1
      obtain ⟨k, hk⟩ := List.mem_iff_getElem?.mp ((hmem i).mpr (by omega))
      cases k with
      | zero =>
        have : s0 = i := by rw [hs] at hk; simpa using hk
        subst this
        rw [hphi0] at hp
        obtain rfl := Option.some.inj hp
        intro l hl hlt'
        obtain ⟨m, hm⟩ := List.mem_iff_getElem?.mp ((hmem l).mpr hl)
        cases m with
        | zero => rw [hk] at hm; obtain rfl := Option.some.inj hm; exact Lt.irrefl x _ hlt'
        | succ m => exact (hlt 0 (m + 1) _ _ hk hm (by omega)).asymm hlt'
      | succ k =>
        have hk' := (List.getElem?_eq_some_iff.mp hk).1
        have hs' := List.getElem?_eq_getElem (show k < sa.length by omega)
        rw [hphi1 k _ i hs' hk] at hp
        obtain rfl := Option.some.inj hp
        refine ⟨(hmem _).mp (List.getElem_mem _), hlt k (k + 1) _ _ hs' hk (by omega), ?_⟩
        intro l hl hlt'
        obtain ⟨m, hm⟩ := List.mem_iff_getElem?.mp ((hmem l).mpr hl)
        rcases Nat.lt_trichotomy m k with h | rfl | h
        · exact .inr (hlt m k _ _ hm hs' h)
        · rw [hs'] at hm; exact .inl (Option.some.inj hm).symm
        · exfalso
          rcases Nat.eq_or_lt_of_le (show k + 1 ≤ m by omega) with h' | h'
          · subst h'; rw [hk] at hm; obtain rfl := Option.some.inj hm; exact Lt.irrefl x _ hlt'
          · exact (hlt (k + 1) m _ _ hk hm h').asymm hlt'
    obtain ⟨plcp, e1, e2, e3⟩ := plcpLoop_eq hg hx phi 0 0 (by omega) hP (fun j _ m hm => by omega)
    obtain ⟨lcp, f1, f2, f3⟩ := mapM_get plcp sa (fun s hs => by have := (hmem s).mp hs; omega)
    refine ⟨lcp, ?_, by omega, ?_, ?_⟩
    · rw [← hs, createLcpArray, hs]
      simp only [List.getElem?_cons_zero, Option.bind_eq_bind, Option.bind_some, List.tail_cons, w1, e1]
      rw [← hs]; exact f1
    · rw [f3 0 s0 (by rw [hs]; rfl)]
      exact e3 s0 none hphi0
    · intro k s t hk ht
      rw [← hs] at hk ht
      obtain ⟨l, g1, g2⟩ := e3 t (some s) (hphi1 k s t hk ht)
      rw [Nat.zero_add] at g2
      exact ⟨l, by rw [f3 (k + 1) t ht]; exact g1, g2.symm⟩

end Verif.Nbest
