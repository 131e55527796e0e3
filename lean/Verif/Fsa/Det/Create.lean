import Mathlib.Data.List.Nodup
import Mathlib.Data.List.Pairwise
import Verif.Fsa.Det.Tree

/-!
# `CreateFsa`: the final state becomes the last one
-/

namespace Verif.Fsa.Det
variable {W : Type}

theorem newToOld_perm (n fin : Nat) (h : fin < n) : (newToOld n fin).Perm (List.range n) := by
  unfold newToOld
  have h1 : List.range n = List.range fin ++ (fin :: List.range' (fin + 1) (n - 1 - fin)) := by
    rw [List.range_eq_range', List.range_eq_range', ← List.range'_succ,
      show n - 1 - fin + 1 = n - fin by omega]
    have := @List.range'_append_1 0 fin (n - fin)
    rw [Nat.zero_add] at this
    rw [this]
    congr 1
    omega
  rw [h1, List.append_assoc]
  exact List.Perm.append_left _ (List.perm_append_singleton _ _)

theorem newToOld_length (n fin : Nat) (h : fin < n) : (newToOld n fin).length = n := by
  rw [(newToOld_perm n fin h).length_eq, List.length_range]

theorem newToOld_nodup (n fin : Nat) (h : fin < n) : (newToOld n fin).Nodup :=
  (newToOld_perm n fin h).nodup_iff.2 List.nodup_range

theorem mem_newToOld (n fin i : Nat) (h : fin < n) : i ∈ newToOld n fin ↔ i < n := by
  rw [(newToOld_perm n fin h).mem_iff, List.mem_range]

theorem newToOld_last (n fin : Nat) (h : fin < n) : (newToOld n fin)[n - 1]? = some fin := by
  unfold newToOld
  rw [List.getElem?_append_right (by simp; omega)]
  simp only [List.length_append, List.length_range, List.length_range']
  rw [show n - 1 - (fin + (n - 1 - fin)) = 0 by omega]
  rfl

theorem newToOld_first (n fin : Nat) (h : fin ≠ 0) : (newToOld n fin)[0]? = some 0 := by
  obtain ⟨m, rfl⟩ := Nat.exists_eq_succ_of_ne_zero h
  unfold newToOld
  rw [List.range_succ_eq_map]
  rfl

theorem idxOf_of_get {l : List Nat} (hn : l.Nodup) {i x : Nat} (h : l[i]? = some x) : l.idxOf x = i := by
  obtain ⟨hi, rfl⟩ := List.getElem?_eq_some_iff.1 h
  exact hn.idxOf_getElem i hi

theorem get_idxOf {l : List Nat} {x : Nat} (h : x ∈ l) : l[l.idxOf x]? = some x := by
  have hlt := List.idxOf_lt_length_iff.2 h
  rw [List.getElem?_eq_getElem hlt, List.getElem_idxOf]

variable {W : Type} [AddCommGroup W] [LinearOrder W]

theorem numStates_ge (arcs : List (Arc W × List Nat)) (n : Nat) :
    n ≤ arcs.foldl (fun n x => max n (max x.1.src x.1.dst + 1)) n ∧
      ∀ z ∈ arcs, z.1.src < arcs.foldl (fun n x => max n (max x.1.src x.1.dst + 1)) n ∧
        z.1.dst < arcs.foldl (fun n x => max n (max x.1.src x.1.dst + 1)) n := by
  induction arcs generalizing n with
  | nil => simp
  | cons x xs ih =>
    rw [List.foldl_cons]
    obtain ⟨h1, h2⟩ := ih (max n (max x.1.src x.1.dst + 1))
    refine ⟨by omega, ?_⟩
    intro z hz
    rcases List.mem_cons.1 hz with rfl | hz
    · omega
    · exact h2 z hz

theorem numStatesOut_gt (arcs : List (Arc W × List Nat)) : ∀ z ∈ arcs,
    z.1.src < numStatesOut arcs ∧ z.1.dst < numStatesOut arcs := (numStates_ge arcs 0).2

theorem oldFinal_spec (arcs : List (Arc W × List Nat)) (F : Nat) :
    ∀ r, (r = none ∨ r = some F) → (∀ z ∈ arcs, z.1.label = -1 → z.1.dst = F) →
      oldFinal r arcs =
        some (if r = some F ∨ ∃ z ∈ arcs, z.1.label = -1 then some F else none) := by
  induction arcs with
  | nil =>
    intro r hr _
    rcases hr with rfl | rfl <;> simp [oldFinal]
  | cons x xs ih =>
    intro r hr hF
    have hF' : ∀ z ∈ xs, z.1.label = -1 → z.1.dst = F := fun z hz => hF z (by simp [hz])
    have hiff : x.1.label ≠ -1 →
        ((∃ z ∈ x :: xs, z.1.label = -1) ↔ ∃ z ∈ xs, z.1.label = -1) := by
      intro hl
      constructor
      · rintro ⟨z, hz, h⟩
        rcases List.mem_cons.1 hz with rfl | hz
        · exact absurd h hl
        · exact ⟨z, hz, h⟩
      · rintro ⟨z, hz, h⟩
        exact ⟨z, by simp [hz], h⟩
    rcases hr with rfl | rfl
    · rw [oldFinal]
      by_cases hl : x.1.label = -1
      · have hd := hF x (by simp) hl
        have h1 : ∃ z ∈ x :: xs, z.1.label = -1 := ⟨x, by simp, hl⟩
        rw [if_pos hl, if_pos (Or.inr h1), hd, ih (some F) (Or.inr rfl) hF', if_pos (Or.inl rfl)]
      · rw [if_neg hl, ih none (Or.inl rfl) hF']
        simp only [hiff hl]
    · rw [oldFinal]
      rw [if_pos (Or.inl rfl)]
      by_cases hl : x.1.label = -1
      · have hd := hF x (by simp) hl
        rw [if_pos hl, if_pos hd, ih (some F) (Or.inr rfl) hF', if_pos (Or.inl rfl)]
      · rw [if_neg hl, ih (some F) (Or.inr rfl) hF', if_pos (Or.inl rfl)]

/-- An arc after the renumbering. -/
def moved (n2o : List Nat) (x : Arc W × List Nat) : Arc W × List Nat :=
  (⟨n2o.idxOf x.1.src, n2o.idxOf x.1.dst, x.1.label, x.1.score⟩, x.2)

omit [AddCommGroup W] [LinearOrder W] in
theorem mem_moveArcs (arcs : List (Arc W × List Nat)) (n2o : List Nat) (hn : n2o.Nodup)
    (hs : ∀ z ∈ arcs, z.1.src ∈ n2o) (y : Arc W × List Nat) :
    y ∈ moveArcs arcs n2o ↔ ∃ z ∈ arcs, y = moved n2o z := by
  unfold moveArcs moved
  simp only [List.mem_flatMap, List.mem_map, List.mem_filter, beq_iff_eq]
  constructor
  · rintro ⟨⟨s, i⟩, hsi, z, ⟨hz, hzs⟩, rfl⟩
    rw [List.mem_zipIdx_iff_getElem?] at hsi
    have := idxOf_of_get hn hsi
    refine ⟨z, hz, ?_⟩
    rw [hzs, this]
  · rintro ⟨z, hz, rfl⟩
    exact ⟨(z.1.src, n2o.idxOf z.1.src),
      List.mem_zipIdx_iff_getElem?.2 (get_idxOf (hs z hz)), z, ⟨hz, rfl⟩, rfl⟩

omit [AddCommGroup W] [LinearOrder W] in
theorem moveArcs_det (arcs : List (Arc W × List Nat)) (n2o : List Nat)
    (h : (arcs.map fun x => (x.1.src, x.1.label)).Nodup) :
    (((moveArcs arcs n2o).map Prod.fst).map fun a => (a.src, a.label)).Nodup := by
  rw [List.map_map]
  unfold moveArcs
  rw [List.map_flatMap, List.nodup_flatMap]
  constructor
  · rintro ⟨s, i⟩ _
    rw [List.map_map]
    have h1 : ((arcs.filter fun x => x.1.src == s).map fun x => (x.1.src, x.1.label)).Nodup :=
      h.sublist (List.filter_sublist.map _)
    have h2 : ((arcs.filter fun x => x.1.src == s).map fun x => (x.1.src, x.1.label)) =
        ((arcs.filter fun x => x.1.src == s).map fun x => x.1.label).map fun l => (s, l) := by
      rw [List.map_map]
      refine List.map_congr_left fun z hz => ?_
      have := (List.mem_filter.1 hz).2
      simp only [beq_iff_eq] at this
      simp [this]
    rw [h2] at h1
    have h3 := List.Nodup.of_map _ h1
    have h4 : ((arcs.filter fun x => x.1.src == s).map
        (((fun a : Arc W => (a.src, a.label)) ∘ Prod.fst) ∘ fun x : Arc W × List Nat =>
          ((⟨i, n2o.idxOf x.1.dst, x.1.label, x.1.score⟩ : Arc W), x.2))) =
        ((arcs.filter fun x => x.1.src == s).map fun x => x.1.label).map fun l => (i, l) := by
      rw [List.map_map]
      rfl
    rw [h4]
    exact h3.map fun a b hab => by simpa using hab
  · have hz : (n2o.zipIdx.map Prod.snd).Nodup := by
      rw [List.zipIdx_map_snd]
      exact List.nodup_range'
    have := List.pairwise_map.1 hz
    refine this.imp ?_
    rintro ⟨s, i⟩ ⟨s', i'⟩ hne
    simp only [Function.onFun, List.disjoint_left, List.mem_map]
    rintro p ⟨a, ⟨z, _, rfl⟩, rfl⟩ ⟨b, ⟨z', _, rfl⟩, he⟩
    simp only [Function.comp, Prod.mk.injEq] at he
    exact hne he.1.symm

omit [AddCommGroup W] [LinearOrder W] in
theorem moveArcs_sorted (arcs : List (Arc W × List Nat)) (n2o : List Nat) :
    ((moveArcs arcs n2o).map Prod.fst).Pairwise (fun a b => a.src ≤ b.src) := by
  unfold moveArcs
  rw [List.pairwise_map, List.pairwise_flatMap]
  constructor
  · rintro ⟨s, i⟩ _
    rw [List.pairwise_map]
    exact List.Pairwise.imp_of_mem (R := fun _ _ => True) (fun _ _ _ => le_refl _)
      (List.pairwise_of_forall fun _ _ => trivial)
  · have hz : (n2o.zipIdx.map Prod.snd).Pairwise (· < ·) := by
      rw [List.zipIdx_map_snd]
      exact List.pairwise_lt_range'
    rw [List.pairwise_map] at hz
    refine hz.imp ?_
    rintro ⟨s, i⟩ ⟨s', i'⟩ hlt x hx y hy
    simp only [List.mem_map] at hx hy
    obtain ⟨a, _, rfl⟩ := hx
    obtain ⟨b, _, rfl⟩ := hy
    exact le_of_lt hlt

/-- What `createFsa` returns. -/
structure Created (arcs : List (Arc W × List Nat)) (F : Nat) (g : Fsa W) (d : List (List Nat))
    (n2o : List Nat) : Prop where
  nodup : n2o.Nodup
  src : ∀ z ∈ arcs, z.1.src ∈ n2o
  dst : ∀ z ∈ arcs, z.1.dst ∈ n2o
  first : n2o[0]? = some 0
  last : n2o[g.final]? = some F
  garcs : g.arcs = (moveArcs arcs n2o).map Prod.fst
  derivs : d = (moveArcs arcs n2o).map Prod.snd

theorem createFsa_spec (arcs : List (Arc W × List Nat)) (F : Nat)
    (hne : ∃ z ∈ arcs, z.1.label = -1) (hF : ∀ z ∈ arcs, z.1.label = -1 ↔ z.1.dst = F)
    (hs : ∀ z ∈ arcs, z.1.src ≠ F) (h0 : F ≠ 0) :
    ∃ g d n2o, createFsa arcs = some (g, d) ∧ g.Valid ∧ Created arcs F g d n2o := by
  obtain ⟨z0, hz0, hl0⟩ := hne
  have hd0 := (hF z0 hz0).1 hl0
  have hlt : F < numStatesOut arcs := by
    have := (numStatesOut_gt arcs z0 hz0).2
    rwa [hd0] at this
  have hnd := newToOld_nodup _ _ hlt
  have hmem := fun i => mem_newToOld (numStatesOut arcs) F i hlt
  have hsrc : ∀ z ∈ arcs, z.1.src ∈ newToOld (numStatesOut arcs) F :=
    fun z hz => (hmem _).2 (numStatesOut_gt arcs z hz).1
  have hdst : ∀ z ∈ arcs, z.1.dst ∈ newToOld (numStatesOut arcs) F :=
    fun z hz => (hmem _).2 (numStatesOut_gt arcs z hz).2
  have hlast := newToOld_last _ _ hlt
  have hlen := newToOld_length _ _ hlt
  refine ⟨⟨numStatesOut arcs, (moveArcs arcs (newToOld (numStatesOut arcs) F)).map Prod.fst⟩,
    (moveArcs arcs (newToOld (numStatesOut arcs) F)).map Prod.snd, newToOld (numStatesOut arcs) F,
    ?_, ?_, ⟨hnd, hsrc, hdst, newToOld_first _ _ h0, hlast, rfl, rfl⟩⟩
  · unfold createFsa
    have h1 : arcs.isEmpty = false := by
      cases arcs with
      | nil => simp at hz0
      | cons _ _ => rfl
    rw [h1, oldFinal_spec arcs F none (Or.inl rfl) fun z hz h => (hF z hz).1 h,
      if_pos (Or.inr ⟨z0, hz0, hl0⟩)]
    have h2 : arcs.any (fun x => x.1.src == F) = false := by
      rw [List.any_eq_false]
      intro z hz
      simpa using hs z hz
    simp [h2]
  · have hidx : ∀ i ∈ newToOld (numStatesOut arcs) F,
        (newToOld (numStatesOut arcs) F).idxOf i < numStatesOut arcs := by
      intro i hi
      have := List.idxOf_lt_length_iff.2 hi
      rwa [hlen] at this
    have hfin : ∀ i ∈ newToOld (numStatesOut arcs) F,
        ((newToOld (numStatesOut arcs) F).idxOf i = numStatesOut arcs - 1 ↔ i = F) := by
      intro i hi
      constructor
      · intro h
        have := get_idxOf hi
        rw [h, hlast] at this
        exact (Option.some.inj this).symm
      · rintro rfl
        exact idxOf_of_get hnd hlast
    have key : ∀ a ∈ (moveArcs arcs (newToOld (numStatesOut arcs) F)).map Prod.fst,
        ∃ z ∈ arcs, a = (moved (newToOld (numStatesOut arcs) F) z).1 := by
      intro a ha
      obtain ⟨y, hy, rfl⟩ := List.mem_map.1 ha
      obtain ⟨z, hz, rfl⟩ := (mem_moveArcs arcs _ hnd hsrc y).1 hy
      exact ⟨z, hz, rfl⟩
    refine ⟨?_, moveArcs_sorted arcs _, ?_, ?_, ?_⟩
    · show 2 ≤ numStatesOut arcs
      omega
    · intro a ha
      obtain ⟨z, hz, rfl⟩ := key a ha
      have h1 := hidx _ (hsrc z hz)
      have h2 := mt (hfin _ (hsrc z hz)).1 (hs z hz)
      show (newToOld (numStatesOut arcs) F).idxOf z.1.src < numStatesOut arcs - 1
      omega
    · intro a ha
      obtain ⟨z, hz, rfl⟩ := key a ha
      exact hidx _ (hdst z hz)
    · intro a ha
      obtain ⟨z, hz, rfl⟩ := key a ha
      exact (hF z hz).trans (hfin _ (hdst z hz)).symm

omit [AddCommGroup W] [LinearOrder W] in
theorem Created.get {arcs : List (Arc W × List Nat)} {F : Nat} {g : Fsa W} {d : List (List Nat)}
    {n2o : List Nat} (h : Created arcs F g d n2o) {k : Nat} {a : Arc W} (ha : g.arcs[k]? = some a) :
    ∃ z ∈ arcs, a = (moved n2o z).1 ∧ d[k]? = some z.2 := by
  rw [h.garcs, List.getElem?_map] at ha
  cases hy : (moveArcs arcs n2o)[k]? with
  | none => simp [hy] at ha
  | some y =>
    rw [hy] at ha
    obtain ⟨z, hz, rfl⟩ := (mem_moveArcs arcs n2o h.nodup h.src y).1 (List.mem_of_getElem? hy)
    refine ⟨z, hz, (Option.some.inj ha).symm, ?_⟩
    rw [h.derivs, List.getElem?_map, hy]
    rfl

omit [AddCommGroup W] [LinearOrder W] in
theorem Created.mem {arcs : List (Arc W × List Nat)} {F : Nat} {g : Fsa W} {d : List (List Nat)}
    {n2o : List Nat} (h : Created arcs F g d n2o) {z : Arc W × List Nat} (hz : z ∈ arcs) :
    (moved n2o z).1 ∈ g.arcs := by
  rw [h.garcs]
  exact List.mem_map_of_mem ((mem_moveArcs arcs n2o h.nodup h.src _).2 ⟨z, hz, rfl⟩)

/-- A path of the result is a path through the arcs it was made from. -/
theorem Created.chain_back {arcs : List (Arc W × List Nat)} {F : Nat} {g : Fsa W}
    {d : List (List Nat)} {n2o : List Nat} (h : Created arcs F g d n2o) (q : List (Arc W)) :
    ∀ (ks : List Nat) (s t s' t' : Nat), Names g.arcs ks q → Chain s q t → n2o[s]? = some s' →
      n2o[t]? = some t' → ∃ zs : List (Arc W × List Nat), (∀ z ∈ zs, z ∈ arcs) ∧
        Chain s' (zs.map Prod.fst) t' ∧ labels (zs.map Prod.fst) = labels q ∧
        score (zs.map Prod.fst) = score q ∧
        (zs.map Prod.snd).flatten = (ks.map fun k => (d[k]?).getD []).flatten := by
  induction q with
  | nil =>
    intro ks s t s' t' hn hc hs ht
    have hk : ks = [] := by simpa [Names] using hn
    have hc : s = t := hc
    subst hk hc
    rw [hs] at ht
    cases ht
    exact ⟨[], by simp, rfl, rfl, rfl, rfl⟩
  | cons a q ih =>
    intro ks s t s' t' hn hc hs ht
    cases ks with
    | nil => simp [Names] at hn
    | cons k ks =>
      simp only [Names, List.map_cons, List.cons.injEq] at hn
      obtain ⟨hk, hn⟩ := hn
      obtain ⟨hsrc, hc⟩ := hc
      obtain ⟨z, hz, rfl, hd⟩ := h.get hk
      obtain ⟨zs, h1, h2, h3, h4, h5⟩ := ih ks _ t _ t' hn hc (get_idxOf (h.dst z hz)) ht
      refine ⟨z :: zs, ?_, ?_, ?_, ?_, ?_⟩
      · intro y hy
        rcases List.mem_cons.1 hy with rfl | hy
        · exact hz
        · exact h1 y hy
      · refine ⟨?_, h2⟩
        have h6 := get_idxOf (h.src z hz)
        have hsrc : n2o.idxOf z.1.src = s := hsrc
        rw [hsrc, hs] at h6
        exact (Option.some.inj h6).symm
      · simp only [labels, List.map_cons] at h3 ⊢
        rw [h3]
        rfl
      · simp only [score, List.map_cons, List.sum_cons] at h4 ⊢
        rw [h4]
        rfl
      · simp only [List.map_cons, List.flatten_cons, h5, hd]
        rfl

omit [AddCommGroup W] [LinearOrder W] in
theorem Created.chain_fwd {arcs : List (Arc W × List Nat)} {F : Nat} {g : Fsa W}
    {d : List (List Nat)} {n2o : List Nat} (h : Created arcs F g d n2o)
    (zs : List (Arc W × List Nat)) : ∀ (s t : Nat), (∀ z ∈ zs, z ∈ arcs) →
      Chain s (zs.map Prod.fst) t → Path g.arcs (n2o.idxOf s) (zs.map fun z => (moved n2o z).1)
        (n2o.idxOf t) := by
  induction zs with
  | nil =>
    intro s t _ hc
    have hc : s = t := hc
    rw [hc]
    exact (path_nil ..).2 rfl
  | cons z zs ih =>
    intro s t hz hc
    obtain ⟨rfl, hc⟩ := hc
    rw [List.map_cons, path_cons]
    exact ⟨h.mem (hz z (by simp)), rfl, ih _ t (fun y hy => hz y (by simp [hy])) hc⟩

end Verif.Fsa.Det
