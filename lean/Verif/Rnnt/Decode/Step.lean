import Verif.Rnnt.Decode.Group
import Verif.Util.MapM

/-! One frame of one stream. -/

namespace Verif.Rnnt.Dec

theorem mapM_eq_map {α β : Type} {f : α → Option β} {g : α → β} {l : List α} (h : ∀ x ∈ l, f x = some (g x)) :
    l.mapM f = some (l.map g) := by
  induction l with
  | nil => rfl
  | cons a l ih =>
    rw [List.mapM_cons, h a (by simp), ih (fun x hx => h x (by simp [hx]))]
    rfl

section
variable {K : Type} [Field K] [LinearOrder K] [IsStrictOrderedRing K]

local notation "S" => WithBot K

/-- `Advance` after the first pass for a stream in a batch of its own. -/
def step2 (cfg : Cfg K) (n : Nat) (nested : List (List (List (Pend S)))) : Option (States S × Frame S) := do
  let items := nested.flatten.flatten
  let G := group n items
  let T := pruneStates cfg G.flatten.length items G
  let A := pruneContexts cfg T.length items T
  let st ← nextStates items A
  some (st, frameArcs nested A)

/-- What a frame does to a stream: `nested` are the arcs after the first pass. -/
structure StepSpec (cfg : Cfg K) (n : Nat) (nested : List (List (List (Pend S)))) (st : States S) (fr : Frame S) :
    Prop where
  sorted : (st.flatten.map Prod.fst).Pairwise (· < ·)
  ctxNe : ∀ c ∈ st, c ≠ []
  ctx : ∀ c ∈ st, ∀ x ∈ c, ∀ y ∈ c, x.1 / n = y.1 / n
  ctxs : st.Pairwise (fun c c' => ∀ x ∈ c, ∀ y ∈ c', x.1 / n < y.1 / n)
  scoreMem : ∀ x ∈ st.flatten, ∃ p ∈ nested.flatten.flatten, p.dest = x.1 ∧ p.fin = x.2
  scoreMax : ∀ x ∈ st.flatten, ∀ p ∈ nested.flatten.flatten, p.dest = x.1 → p.fin ≤ x.2
  maxStates : 0 < cfg.maxStates → (st.flatten.length : Int) ≤ cfg.maxStates
  maxContexts : 0 < cfg.maxContexts → (st.length : Int) ≤ cfg.maxContexts
  inBeam : ∀ x ∈ st.flatten, ∀ p ∈ nested.flatten.flatten, sub p.fin cfg.beam ≤ x.2
  best : nested.flatten.flatten ≠ [] → ∃ x ∈ st.flatten, ∀ p ∈ nested.flatten.flatten, p.fin ≤ x.2
  dropped : ∀ p ∈ nested.flatten.flatten, (∀ p' ∈ nested.flatten.flatten, sub p'.fin cfg.beam ≤ p.fin) →
    p.dest ∉ st.flatten.map Prod.fst →
    (0 < cfg.maxStates ∧ ∃ l : List Nat, l.Nodup ∧ (l.length : Int) = cfg.maxStates ∧ p.dest ∉ l ∧
      ∀ v ∈ l, ∃ p' ∈ nested.flatten.flatten, p'.dest = v ∧ p.fin ≤ p'.fin) ∨
    (0 < cfg.maxContexts ∧ (st.length : Int) = cfg.maxContexts ∧ ∀ c ∈ st, ∃ x ∈ c, p.fin ≤ x.2)
  frame : fr = nested.map (List.map (List.filterMap (fun p =>
    ((st.flatten.map Prod.fst).idxOf? p.dest).map (fun k => (⟨p.arc, p.score, p.label, k⟩ : Ai S)))))

omit [Field K] [LinearOrder K] [IsStrictOrderedRing K] in
theorem destOf_get (items : List (Pend S)) (i : Nat) (p : Pend S) (h : items[i]? = some p) : destOf items i = p.dest := by
  simp [destOf, h]

omit [Field K] [LinearOrder K] [IsStrictOrderedRing K] in
theorem finOf_get (items : List (Pend S)) (i : Nat) (p : Pend S) (h : items[i]? = some p) : finOf items i = p.fin := by
  simp [finOf, h]

/-- The best score of the arcs of a state. -/
def groupMax (items : List (Pend S)) (q : List Nat) : S := maxOf (q.map (finOf items))

omit [IsStrictOrderedRing K] in
theorem groupMax_mem (items : List (Pend S)) (q : List Nat) (hne : q ≠ []) (hlt : ∀ i ∈ q, i < items.length) :
    ∃ i ∈ q, ∃ p, items[i]? = some p ∧ p.fin = groupMax items q := by
  have : maxOf (q.map (finOf items)) ∈ q.map (finOf items) := maxOf_mem (by simpa using hne)
  obtain ⟨i, hi, he⟩ := List.mem_map.1 this
  have hl := hlt i hi
  exact ⟨i, hi, items[i], List.getElem?_eq_getElem hl, by
    rw [← finOf_get items i _ (List.getElem?_eq_getElem hl), he]; rfl⟩

omit [IsStrictOrderedRing K] in
theorem le_groupMax (items : List (Pend S)) (q : List Nat) (i : Nat) (hi : i ∈ q) (p : Pend S)
    (h : items[i]? = some p) : p.fin ≤ groupMax items q := by
  rw [← finOf_get items i p h]
  exact le_maxOf (List.mem_map.2 ⟨i, hi, rfl⟩)

theorem zipWith_sublist {α : Type} (G : List (List α)) (F : List (List Bool)) (h : F.length = G.length) :
    List.Forall₂ (fun c' c => c'.Sublist c) (List.zipWith keepFlags G F) G := by
  induction G generalizing F with
  | nil => simp
  | cons c G ih =>
    cases F with
    | nil => simp at h
    | cons f F =>
      simp only [List.zipWith_cons_cons]
      exact List.Forall₂.cons (keepFlags_sublist _ _) (ih F (by simpa using h))

theorem findIdx_group (items : List (Pend S)) (L : List (List Nat)) (i : Nat) (p : Pend S) (hp : items[i]? = some p)
    (hne : ∀ q ∈ L, q ≠ [])
    (hfull : ∀ q ∈ L, ∀ i ∈ q, i < items.length ∧ ∀ j, j ∈ q ↔ (j < items.length ∧ destOf items j = destOf items i)) :
    L.findIdx? (fun arcs => arcs.contains i) = (L.map (fun q => destOf items (q.headD 0))).idxOf? p.dest := by
  induction L with
  | nil => rfl
  | cons q L ih =>
    have ih := ih (fun q hq => hne q (by simp [hq])) (fun q hq => hfull q (by simp [hq]))
    have hq := hne q (by simp)
    have hf := hfull q (by simp)
    have hi : i < items.length := (List.getElem?_eq_some_iff.1 hp).1
    have hd := destOf_get items i p hp
    have hhead : q.headD 0 ∈ q := by cases q with
      | nil => exact absurd rfl hq
      | cons a q => simp
    have hiff : q.contains i = true ↔ destOf items (q.headD 0) = p.dest := by
      rw [List.contains_iff_mem, (hf _ hhead).2 i, hd]
      constructor
      · rintro ⟨_, h⟩; exact h.symm
      · intro h; exact ⟨hi, h.symm⟩
    rw [List.findIdx?_cons, List.map_cons, List.idxOf?_cons, ih]
    by_cases h : q.contains i = true
    · rw [if_pos h, if_pos (by simpa using hiff.1 h)]
    · rw [if_neg h, if_neg (by simpa using fun h' => h (hiff.2 h'))]

theorem step2_spec (cfg : Cfg K) (hb : 0 ≤ cfg.beam) (n : Nat) (nested : List (List (List (Pend S))))
    (hfin : nested.flatten.flatten = [] ∨ ∃ p ∈ nested.flatten.flatten, p.fin ≠ ⊥) :
    ∃ st fr, step2 cfg n nested = some (st, fr) ∧ StepSpec cfg n nested st fr := by
  set items := nested.flatten.flatten with hitems
  obtain ⟨hG, hGne, hcov⟩ := group_spec n items
  set G := group n items with hGdef
  have hstate : stateMax items G = G.flatten.map (groupMax items) := rfl
  set T := pruneStates cfg G.flatten.length items G with hT
  have hTf : T.flatten = keepFlags G.flatten (pruneKeep G.flatten.length cfg.beam cfg.maxStates
      (G.flatten.map (groupMax items))) := by
    rw [hT, pruneStates, hstate]
    exact zipWith_keepFlags_flatten _ _ (by rw [pruneKeep_length, List.length_map])
  have hTs : List.Forall₂ (fun c' c => c'.Sublist c) T G := by
    rw [hT, pruneStates]
    exact zipWith_sublist _ _ (reshape_length _ _)
  have hP1 : Pruned cfg.beam cfg.maxStates (groupMax items) G.flatten T.flatten := by
    rw [hTf]; exact prune_spec _ _ _ _ _ le_rfl
  set A := pruneContexts cfg T.length items T with hA
  have hP2 : Pruned cfg.beam cfg.maxContexts (fun ctx => maxOf (ctx.flatten.map (finOf items))) T A :=
    prune_spec _ _ _ _ _ le_rfl
  have hgT : Grouped n items T := hG.sub hTs
  have hgA : Grouped n items A := hgT.sublist hP2.sublist
  have hltG : ∀ q ∈ G.flatten, ∀ i ∈ q, i < items.length := fun q hq i hi => (hG.full q hq i hi).1
  have hAT : A.flatten.Sublist T.flatten := hP2.sublist.flatten
  have hTG : T.flatten.Sublist G.flatten := hP1.sublist
  -- the group of an item
  have hgrp : ∀ p ∈ items, ∃ q ∈ G.flatten, ∃ i ∈ q, items[i]? = some p := by
    intro p hp
    obtain ⟨i, hi⟩ := List.getElem?_of_mem hp
    obtain ⟨q, hq, hiq⟩ := hcov i (List.getElem?_eq_some_iff.1 hi).1
    exact ⟨q, hq, i, hiq, hi⟩
  set best := maxOf (G.flatten.map (groupMax items)) with hbest
  have hle : ∀ p ∈ items, p.fin ≤ best := by
    intro p hp
    obtain ⟨q, hq, i, hi, hpi⟩ := hgrp p hp
    exact (le_groupMax items q i hi p hpi).trans (le_maxOf (List.mem_map.2 ⟨q, hq, rfl⟩))
  have hattain : items ≠ [] → ∃ p ∈ items, p.fin = best := by
    intro hne
    obtain ⟨p, hp⟩ := List.exists_mem_of_ne_nil _ hne
    obtain ⟨q, hq, _⟩ := hgrp p hp
    have hm : best ∈ G.flatten.map (groupMax items) :=
      maxOf_mem (by intro h; rw [List.map_eq_nil_iff] at h; rw [h] at hq; simp at hq)
    obtain ⟨q, hq, he⟩ := List.mem_map.1 hm
    obtain ⟨i, hi, p, hpi, hpf⟩ := groupMax_mem items q (hG.nonempty q hq) (hltG q hq)
    exact ⟨p, List.mem_of_getElem? hpi, hpf.trans he⟩
  -- contexts
  have hfc : ∀ c ∈ T, ∀ q ∈ c, groupMax items q ≤ maxOf (c.flatten.map (finOf items)) := by
    intro c hc q hq
    have hqT : q ∈ G.flatten := hTG.subset (List.mem_flatten.2 ⟨c, hc, hq⟩)
    obtain ⟨i, hi, p, hpi, hpf⟩ := groupMax_mem items q (hG.nonempty q hqT) (hltG q hqT)
    rw [← hpf, ← finOf_get items i p hpi]
    exact le_maxOf (List.mem_map.2 ⟨i, List.mem_flatten.2 ⟨q, hq, hi⟩, rfl⟩)
  have hfc2 : ∀ c ∈ T, maxOf (c.flatten.map (finOf items)) ≠ ⊥ →
      ∃ q ∈ c, groupMax items q = maxOf (c.flatten.map (finOf items)) := by
    intro c hc hne
    have hm : maxOf (c.flatten.map (finOf items)) ∈ c.flatten.map (finOf items) :=
      maxOf_mem (by intro h; rw [h] at hne; exact hne rfl)
    obtain ⟨i, hi, he⟩ := List.mem_map.1 hm
    obtain ⟨q, hq, hiq⟩ := List.mem_flatten.1 hi
    refine ⟨q, hq, le_antisymm (hfc c hc q hq) ?_⟩
    rw [← he]
    exact le_maxOf (List.mem_map.2 ⟨i, hiq, rfl⟩)
  have hbestC : items ≠ [] → maxOf (T.map (fun ctx => maxOf (ctx.flatten.map (finOf items)))) = best := by
    intro hne
    have hGn : G.flatten ≠ [] := by
      obtain ⟨p, hp⟩ := List.exists_mem_of_ne_nil _ hne
      obtain ⟨q, hq, _⟩ := hgrp p hp
      intro h; rw [h] at hq; simp at hq
    obtain ⟨q, hq, he⟩ := hP1.best hb hGn
    obtain ⟨c, hc, hqc⟩ := List.mem_flatten.1 hq
    apply le_antisymm
    · apply maxOf_le
      intro y hy
      obtain ⟨c, hc, rfl⟩ := List.mem_map.1 hy
      apply maxOf_le
      intro z hz
      obtain ⟨i, hi, rfl⟩ := List.mem_map.1 hz
      obtain ⟨q, hq, hiq⟩ := List.mem_flatten.1 hi
      have hqG : q ∈ G.flatten := hTG.subset (List.mem_flatten.2 ⟨c, hc, hq⟩)
      have hl := hltG q hqG i hiq
      rw [finOf_get items i _ (List.getElem?_eq_getElem hl)]
      exact hle _ (List.getElem_mem hl)
    · refine (le_of_eq he.symm).trans ?_
      exact (hfc c hc q hqc).trans (le_maxOf (List.mem_map.2 ⟨c, hc, rfl⟩))
  have hbot : items ≠ [] → best ≠ ⊥ := by
    intro hne hbo
    rcases hfin with h | ⟨p, hp, hpb⟩
    · exact hne h
    · have := hle p hp
      rw [hbo] at this
      exact hpb (le_bot_iff.1 this)
  have hAne : ∀ c ∈ A, c ≠ [] := by
    intro c hc hcn
    have hcT := hP2.sublist.subset hc
    have hne : items ≠ [] := by
      intro h0
      have : G = [] := by rw [hGdef, h0]; rfl
      rw [this] at hTs
      rw [List.forall₂_nil_right_iff] at hTs
      rw [hTs] at hcT
      simp at hcT
    have := hP2.inBeam c hc
    rw [hbestC hne, hcn] at this
    have h2 : sub best cfg.beam = ⊥ := le_bot_iff.1 this
    exact hbot hne (sub_eq_bot.1 h2)
  -- the new states
  set val : List Nat → Nat × S := fun q => (destOf items (q.headD 0), groupMax items q) with hval
  have hst : nextStates items A = some (A.map (List.map val)) := by
    apply mapM_eq_map
    intro c hc
    apply mapM_eq_map
    intro q hq
    have := hgA.nonempty q (List.mem_flatten.2 ⟨c, hc, hq⟩)
    cases q with
    | nil => exact absurd rfl this
    | cons i q => rfl
  refine ⟨A.map (List.map val), frameArcs nested A, ?_, ?_⟩
  · change (do
      let st ← nextStates items A
      some (st, frameArcs nested A)) = _
    rw [hst]; rfl
  · have hflat : (A.map (List.map val)).flatten = A.flatten.map val := by rw [List.map_flatten]
    have hvals : (A.map (List.map val)).flatten.map Prod.fst = A.flatten.map (fun q => destOf items (q.headD 0)) := by
      rw [hflat, List.map_map]; rfl
    have hhead : ∀ q ∈ G.flatten, q.headD 0 ∈ q := by
      intro q hq
      have := hG.nonempty q hq
      cases q with
      | nil => exact absurd rfl this
      | cons a q => simp
    have hqd : ∀ q ∈ G.flatten, ∀ i ∈ q, destOf items i = destOf items (q.headD 0) :=
      fun q hq i hi => (((hG.full q hq _ (hhead q hq)).2 i).1 hi).2
    have hAG : A.flatten.Sublist G.flatten := hAT.trans hTG
    refine ⟨?_, ?_, ?_, ?_, ?_, ?_, ?_, ?_, ?_, ?_, ?_, ?_⟩
    · rw [hvals, List.pairwise_map]
      refine List.Pairwise.imp_of_mem ?_ hgA.sorted
      intro q q' hq hq' h
      exact h _ (hhead q (hAG.subset hq)) _ (hhead q' (hAG.subset hq'))
    · intro c hc
      obtain ⟨c0, hc0, rfl⟩ := List.mem_map.1 hc
      simpa using hAne c0 hc0
    · intro c hc x hx y hy
      obtain ⟨c0, hc0, rfl⟩ := List.mem_map.1 hc
      obtain ⟨q, hq, rfl⟩ := List.mem_map.1 hx
      obtain ⟨q', hq', rfl⟩ := List.mem_map.1 hy
      exact hgA.context c0 hc0 q hq q' hq' _ (hhead q (hAG.subset (List.mem_flatten.2 ⟨c0, hc0, hq⟩))) _
        (hhead q' (hAG.subset (List.mem_flatten.2 ⟨c0, hc0, hq'⟩)))
    · rw [List.pairwise_map]
      refine List.Pairwise.imp_of_mem ?_ hgA.contexts
      intro c c' hc hc' h x hx y hy
      obtain ⟨q, hq, rfl⟩ := List.mem_map.1 hx
      obtain ⟨q', hq', rfl⟩ := List.mem_map.1 hy
      exact h q hq q' hq' _ (hhead q (hAG.subset (List.mem_flatten.2 ⟨c, hc, hq⟩))) _
        (hhead q' (hAG.subset (List.mem_flatten.2 ⟨c', hc', hq'⟩)))
    · intro x hx
      rw [hflat] at hx
      obtain ⟨q, hq, rfl⟩ := List.mem_map.1 hx
      have hqG := hAG.subset hq
      obtain ⟨i, hi, p, hpi, hpf⟩ := groupMax_mem items q (hG.nonempty q hqG) (hltG q hqG)
      exact ⟨p, List.mem_of_getElem? hpi, by rw [← destOf_get items i p hpi]; exact hqd q hqG i hi, hpf⟩
    · intro x hx p hp hd
      rw [hflat] at hx
      obtain ⟨q, hq, rfl⟩ := List.mem_map.1 hx
      have hqG := hAG.subset hq
      obtain ⟨i, hi⟩ := List.getElem?_of_mem hp
      have hiq : i ∈ q := ((hG.full q hqG _ (hhead q hqG)).2 i).2
        ⟨(List.getElem?_eq_some_iff.1 hi).1, by rw [destOf_get items i p hi]; exact hd⟩
      exact le_groupMax items q i hiq p hi
    · intro hm
      rw [hflat, List.length_map]
      have h1 := hP1.limit hm
      have h2 := hAT.length_le
      omega
    · intro hm
      rw [List.length_map]
      exact hP2.limit hm
    · intro x hx p hp
      rw [hflat] at hx
      obtain ⟨q, hq, rfl⟩ := List.mem_map.1 hx
      exact (sub_mono _ (hle p hp)).trans (hP1.inBeam q (hAT.subset hq))
    · intro hne
      have hTn : T ≠ [] := by
        intro h0
        have := hbestC hne
        rw [h0] at this
        exact hbot hne this.symm
      obtain ⟨c, hc, he⟩ := hP2.best hb hTn
      rw [hbestC hne] at he
      obtain ⟨q, hq, hqe⟩ := hfc2 c (hP2.sublist.subset hc) (by rw [he]; exact hbot hne)
      refine ⟨val q, by rw [hflat]; exact List.mem_map.2 ⟨q, List.mem_flatten.2 ⟨c, hc, hq⟩, rfl⟩, ?_⟩
      intro p hp
      exact (hle p hp).trans (le_of_eq (by rw [← he, ← hqe]))
    · intro p hp hbeam hnot
      have hne : items ≠ [] := by intro h0; rw [← hitems, h0] at hp; simp at hp
      obtain ⟨p0, hp0, hp0e⟩ := hattain hne
      have hbp : sub best cfg.beam ≤ p.fin := by rw [← hp0e]; exact hbeam p0 hp0
      obtain ⟨q, hq, i, hiq, hpi⟩ := hgrp p hp
      have hqge := le_groupMax items q i hiq p hpi
      have hpd : destOf items (q.headD 0) = p.dest := by
        rw [← destOf_get items i p hpi]; exact (hqd q hq i hiq).symm
      by_cases hqT : q ∈ T.flatten
      · right
        obtain ⟨c, hc, hqc⟩ := List.mem_flatten.1 hqT
        have hcA : c ∉ A := by
          intro hcA
          apply hnot
          rw [hvals]
          exact List.mem_map.2 ⟨q, List.mem_flatten.2 ⟨c, hcA, hqc⟩, hpd⟩
        obtain ⟨h1, h2, h3⟩ := hP2.dropped c hc (by
          rw [hbestC hne]
          exact hbp.trans (hqge.trans (hfc c hc q hqc))) hcA
        refine ⟨h1, by rw [List.length_map]; exact h2, ?_⟩
        intro d hd
        obtain ⟨d0, hd0, rfl⟩ := List.mem_map.1 hd
        have hmx := (hqge.trans (hfc c hc q hqc)).trans (h3 d0 hd0)
        by_cases hz : maxOf (d0.flatten.map (finOf items)) = ⊥
        · obtain ⟨q', hq'⟩ := List.exists_mem_of_ne_nil _ (hAne d0 hd0)
          refine ⟨val q', List.mem_map.2 ⟨q', hq', rfl⟩, ?_⟩
          rw [hz] at hmx
          rw [le_bot_iff.1 hmx]
          exact bot_le
        · obtain ⟨q', hq', he'⟩ := hfc2 d0 (hP2.sublist.subset hd0) hz
          exact ⟨val q', List.mem_map.2 ⟨q', hq', rfl⟩, hmx.trans (le_of_eq he'.symm)⟩
      · left
        obtain ⟨h1, h2, h3⟩ := hP1.dropped q hq (hbp.trans hqge) hqT
        refine ⟨h1, T.flatten.map (fun q => destOf items (q.headD 0)), ?_, by rw [List.length_map]; exact h2, ?_, ?_⟩
        · rw [List.nodup_iff_pairwise_ne, List.pairwise_map]
          refine List.Pairwise.imp_of_mem ?_ hgT.sorted
          intro q q' hq hq' h
          exact Nat.ne_of_lt (h _ (hhead q (hTG.subset hq)) _ (hhead q' (hTG.subset hq')))
        · intro hmem
          obtain ⟨q', hq', he'⟩ := List.mem_map.1 hmem
          have hq'G := hTG.subset hq'
          have hin : i ∈ q' := ((hG.full q' hq'G _ (hhead q' hq'G)).2 i).2
            ⟨(List.getElem?_eq_some_iff.1 hpi).1, by rw [destOf_get items i p hpi]; exact he'.symm⟩
          apply hqT
          have : q = q' := by
            by_contra hqq
            obtain ⟨x, hx⟩ := List.getElem?_of_mem hq
            obtain ⟨y, hy⟩ := List.getElem?_of_mem hq'G
            obtain ⟨hxl, hxe⟩ := List.getElem?_eq_some_iff.1 hx
            obtain ⟨hyl, hye⟩ := List.getElem?_eq_some_iff.1 hy
            have hs := List.pairwise_iff_getElem.1 hG.sorted
            rcases Nat.lt_trichotomy x y with h | h | h
            · have := hs x y hxl hyl h i (by rw [hxe]; exact hiq) i (by rw [hye]; exact hin)
              omega
            · subst h; exact hqq (hxe.symm.trans hye)
            · have := hs y x hyl hxl h i (by rw [hye]; exact hin) i (by rw [hxe]; exact hiq)
              omega
          rw [this]; exact hq'
        · intro v hv
          obtain ⟨q', hq', rfl⟩ := List.mem_map.1 hv
          have hq'G := hTG.subset hq'
          obtain ⟨i', hi', p', hpi', hpf'⟩ := groupMax_mem items q' (hG.nonempty q' hq'G) (hltG q' hq'G)
          refine ⟨p', List.mem_of_getElem? hpi', ?_, ?_⟩
          · rw [← destOf_get items i' p' hpi']; exact hqd q' hq'G i' hi'
          · rw [hpf']; exact hqge.trans (h3 q' hq')
    · rw [hvals]
      unfold frameArcs
      simp only []
      refine (congrArg (fun o => reshape nested ((reshape nested.flatten o).map List.flatten))
        (?_ : _ = items.map (fun p => (((A.flatten.map (fun q => destOf items (q.headD 0))).idxOf? p.dest).map
            (fun k => (⟨p.arc, p.score, p.label, k⟩ : Ai S))).toList))).trans ?_
      · rw [← hitems]
        apply List.ext_getElem?
        intro i
        rw [List.getElem?_map, List.getElem?_map, List.getElem?_zipIdx]
        cases hi : items[i]? with
        | none => rfl
        | some p =>
          simp only [Option.map_some, Nat.zero_add]
          rw [findIdx_group items A.flatten i p hi hgA.nonempty hgA.full]
          cases (A.flatten.map (fun q => destOf items (q.headD 0))).idxOf? p.dest <;> rfl
      conv_lhs => rw [hitems, reshape_map, List.map_map]
      rw [reshape_map]
      apply List.map_congr_left
      intro c _
      apply List.map_congr_left
      intro q _
      rw [List.filterMap_eq_flatMap_toList]
      rfl

end

end Verif.Rnnt.Dec
