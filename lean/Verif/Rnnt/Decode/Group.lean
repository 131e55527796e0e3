import Verif.Rnnt.Decode.Prune

/-! Grouping the arcs by context and state. -/

namespace Verif.Rnnt.Dec

section
variable {α : Type}

/-- Splitting a sorted list where the key changes. -/
theorem splitBy_key (key : α → Nat) (l : List α) (h : l.Pairwise (fun a b => key a ≤ key b)) :
    (∀ p ∈ l.splitBy (fun a b => key a == key b), p ≠ []) ∧
    (∀ p ∈ l.splitBy (fun a b => key a == key b), ∀ a ∈ p, ∀ b ∈ p, key a = key b) ∧
    (l.splitBy (fun a b => key a == key b)).Pairwise (fun p p' => ∀ a ∈ p, ∀ b ∈ p', key a < key b) := by
  have hne : ∀ p ∈ l.splitBy (fun a b => key a == key b), p ≠ [] := fun p hp => List.ne_nil_of_mem_splitBy hp
  have heq : ∀ p ∈ l.splitBy (fun a b => key a == key b), ∀ a ∈ p, ∀ b ∈ p, key a = key b := by
    intro p hp
    have := List.isChain_of_mem_splitBy hp
    have h2 : p.IsChain (fun a b => key a = key b) := this.imp (fun a b h => by simpa using h)
    have : IsTrans α (fun a b => key a = key b) := ⟨fun a b c h h' => h.trans h'⟩
    have h3 : p.Pairwise (fun a b => key a = key b) := List.isChain_iff_pairwise.1 h2
    intro a ha b hb
    have : Std.Symm (fun a b => key a = key b) := ⟨fun a b h => h.symm⟩
    exact List.Pairwise.forall_of_forall (R := fun a b => key a = key b) (fun _ _ => rfl) h3 ha hb
  refine ⟨hne, heq, ?_⟩
  have hfl : (l.splitBy (fun a b => key a == key b)).flatten = l := List.flatten_splitBy _ _
  have hch := List.isChain_getLast_head_splitBy (fun a b => key a == key b) l
  generalize l.splitBy (fun a b => key a == key b) = L at hne heq hfl hch
  rw [← hfl, List.pairwise_flatten] at h
  have hsort := h.2
  have h4 : L.IsChain (fun p p' => (p ≠ [] ∧ p' ≠ []) ∧ ∀ a ∈ p, ∀ b ∈ p', key a < key b) := by
    clear hfl h
    induction L with
    | nil => exact List.IsChain.nil
    | cons p L ih =>
      cases L with
      | nil => exact List.IsChain.singleton _
      | cons p' L =>
        rw [List.isChain_cons_cons] at hch ⊢
        rw [List.pairwise_cons] at hsort
        refine ⟨⟨⟨hne p (by simp), hne p' (by simp)⟩, ?_⟩, ih (fun q hq => hne q (by simp [hq]))
          (fun q hq => heq q (List.mem_cons_of_mem _ hq)) hch.2 hsort.2⟩
        intro a ha b hb
        obtain ⟨h1, h2, h3⟩ := hch.1
        have e1 : key a = key (p.getLast h1) := heq p (by simp) _ ha _ (List.getLast_mem h1)
        have e2 : key b = key (p'.head h2) := heq p' (by simp) _ hb _ (List.head_mem h2)
        have e3 := hsort.1 p' (by simp) a ha b hb
        have e4 : key (p.getLast h1) ≠ key (p'.head h2) := by simpa using h3
        omega
  have : IsTrans (List α) (fun p p' => (p ≠ [] ∧ p' ≠ []) ∧ ∀ a ∈ p, ∀ b ∈ p', key a < key b) := by
    refine ⟨?_⟩
    rintro p q r ⟨⟨h1, h2⟩, h3⟩ ⟨⟨_, h5⟩, h6⟩
    refine ⟨⟨h1, h5⟩, ?_⟩
    intro a ha c hc
    obtain ⟨b, hb⟩ := List.exists_mem_of_ne_nil _ h2
    exact (h3 a ha b hb).trans (h6 b hb c hc)
  exact (List.isChain_iff_pairwise.1 h4).imp (fun h => h.2)

end

section
variable {K : Type} [Field K] [LinearOrder K]

local notation "S" => WithBot K

/-- The states of `G` are groups of arcs with the same destination, in order of destination; a context has
the states with the same quotient. -/
structure Grouped (n : Nat) (items : List (Pend S)) (G : List (List (List Nat))) : Prop where
  nonempty : ∀ q ∈ G.flatten, q ≠ []
  /-- A group has exactly the arcs with its destination. -/
  full : ∀ q ∈ G.flatten, ∀ i ∈ q, i < items.length ∧ ∀ j, j ∈ q ↔ (j < items.length ∧ destOf items j = destOf items i)
  sorted : G.flatten.Pairwise (fun p p' => ∀ a ∈ p, ∀ b ∈ p', destOf items a < destOf items b)
  context : ∀ c ∈ G, ∀ q ∈ c, ∀ q' ∈ c, ∀ a ∈ q, ∀ b ∈ q', destOf items a / n = destOf items b / n
  contexts : G.Pairwise (fun c c' => ∀ q ∈ c, ∀ q' ∈ c', ∀ a ∈ q, ∀ b ∈ q', destOf items a / n < destOf items b / n)

theorem group_spec (n : Nat) (items : List (Pend S)) : Grouped n items (group n items) ∧
    (∀ c ∈ group n items, c ≠ []) ∧ (∀ i < items.length, ∃ q ∈ (group n items).flatten, i ∈ q) := by
  set sorted := (List.range items.length).insertionSort (fun i j => destOf items i ≤ destOf items j) with hs
  have hperm : sorted.Perm (List.range items.length) := List.perm_insertionSort _ _
  have hsort : sorted.Pairwise (fun i j => destOf items i ≤ destOf items j) := by
    have : Std.Total (fun i j : Nat => destOf items i ≤ destOf items j) := ⟨fun i j => le_total _ _⟩
    have : IsTrans Nat (fun i j : Nat => destOf items i ≤ destOf items j) := ⟨fun i j k h h' => h.trans h'⟩
    exact List.pairwise_insertionSort _ _
  have hctx : sorted.Pairwise (fun i j => destOf items i / n ≤ destOf items j / n) :=
    hsort.imp (fun h => Nat.div_le_div_right h)
  obtain ⟨c1, c2, c3⟩ := splitBy_key (fun i => destOf items i / n) sorted hctx
  set C := sorted.splitBy (fun i j => destOf items i / n == destOf items j / n) with hC
  have hG : group n items = C.map (fun ctx => ctx.splitBy (fun i j => destOf items i == destOf items j)) := rfl
  have hCf : C.flatten = sorted := List.flatten_splitBy _ _
  have hCs : ∀ c ∈ C, c.Pairwise (fun i j => destOf items i ≤ destOf items j) := by
    rw [← hCf, List.pairwise_flatten] at hsort
    exact hsort.1
  have hst := fun c hc => splitBy_key (destOf items) c (hCs c hc)
  have hmemC : ∀ c ∈ C, ∀ q ∈ c.splitBy (fun i j => destOf items i == destOf items j), ∀ a ∈ q, a ∈ c := by
    intro c hc q hq a ha
    have : a ∈ (c.splitBy (fun i j => destOf items i == destOf items j)).flatten :=
      List.mem_flatten.2 ⟨q, hq, ha⟩
    rwa [List.flatten_splitBy] at this
  have hGf : (group n items).flatten.flatten = sorted := by
    rw [hG, ← hCf, List.flatten_flatten, List.map_map]
    congr 1
    conv_rhs => rw [← List.map_id C]
    apply List.map_congr_left
    intro c _
    simp
  have hcov : ∀ i < items.length, ∃ q ∈ (group n items).flatten, i ∈ q := by
    intro i hi
    have : i ∈ (group n items).flatten.flatten := by
      rw [hGf, hperm.mem_iff, List.mem_range]; exact hi
    exact List.mem_flatten.1 this
  have hcontexts : (group n items).Pairwise (fun c c' => ∀ q ∈ c, ∀ q' ∈ c', ∀ a ∈ q, ∀ b ∈ q',
      destOf items a / n < destOf items b / n) := by
    rw [hG, List.pairwise_map]
    refine List.Pairwise.imp_of_mem ?_ c3
    intro c c' hc hc' h q hq q' hq' a ha b hb
    exact h a (hmemC c hc q hq a ha) b (hmemC c' hc' q' hq' b hb)
  have hsorted : (group n items).flatten.Pairwise (fun p p' => ∀ a ∈ p, ∀ b ∈ p', destOf items a < destOf items b) := by
    rw [List.pairwise_flatten]
    refine ⟨?_, ?_⟩
    · intro c hc
      rw [hG] at hc
      obtain ⟨c0, hc0, rfl⟩ := List.mem_map.1 hc
      exact (hst c0 hc0).2.2
    · refine hcontexts.imp ?_
      intro c c' h q hq q' hq' a ha b hb
      by_contra hcon
      have := Nat.div_le_div_right (c := n) (Nat.le_of_not_lt hcon)
      have := h q hq q' hq' a ha b hb
      omega
  have hsame : ∀ q ∈ (group n items).flatten, ∀ a ∈ q, ∀ b ∈ q, destOf items a = destOf items b := by
    intro q hq
    obtain ⟨c, hc, hqc⟩ := List.mem_flatten.1 hq
    rw [hG] at hc
    obtain ⟨c0, hc0, rfl⟩ := List.mem_map.1 hc
    exact (hst c0 hc0).2.1 q hqc
  have hlt : ∀ q ∈ (group n items).flatten, ∀ a ∈ q, a < items.length := by
    intro q hq a ha
    have : a ∈ (group n items).flatten.flatten := List.mem_flatten.2 ⟨q, hq, ha⟩
    rw [hGf, hperm.mem_iff, List.mem_range] at this
    exact this
  refine ⟨⟨?_, ?_, hsorted, ?_, hcontexts⟩, ?_, hcov⟩
  · intro q hq
    obtain ⟨c, hc, hqc⟩ := List.mem_flatten.1 hq
    rw [hG] at hc
    obtain ⟨c0, hc0, rfl⟩ := List.mem_map.1 hc
    exact (hst c0 hc0).1 q hqc
  · intro q hq i hi
    refine ⟨hlt q hq i hi, ?_⟩
    intro j
    constructor
    · intro hj; exact ⟨hlt q hq j hj, hsame q hq j hj i hi⟩
    · rintro ⟨h1, h2⟩
      obtain ⟨q', hq', hj⟩ := hcov j h1
      by_cases he : q' = q
      · rwa [he] at hj
      · exfalso
        obtain ⟨x, hx⟩ := List.getElem?_of_mem hq
        obtain ⟨y, hy⟩ := List.getElem?_of_mem hq'
        obtain ⟨hxl, hxe⟩ := List.getElem?_eq_some_iff.1 hx
        obtain ⟨hyl, hye⟩ := List.getElem?_eq_some_iff.1 hy
        have hp := List.pairwise_iff_getElem.1 hsorted
        rcases Nat.lt_trichotomy x y with h | h | h
        · have := hp x y hxl hyl h i (by rw [hxe]; exact hi) j (by rw [hye]; exact hj)
          omega
        · subst h; rw [hxe] at hye; exact he hye.symm
        · have := hp y x hyl hxl h j (by rw [hye]; exact hj) i (by rw [hxe]; exact hi)
          omega
  · intro c hc q hq q' hq' a ha b hb
    rw [hG] at hc
    obtain ⟨c0, hc0, rfl⟩ := List.mem_map.1 hc
    exact c2 c0 hc0 a (hmemC c0 hc0 q hq a ha) b (hmemC c0 hc0 q' hq' b hb)
  · intro c hc
    rw [hG] at hc
    obtain ⟨c0, hc0, rfl⟩ := List.mem_map.1 hc
    rw [List.splitBy_ne_nil]
    exact c1 c0 hc0

/-- Dropping states and contexts keeps the grouping. -/
theorem Grouped.sub {n : Nat} {items : List (Pend S)} {G G' : List (List (List Nat))} (h : Grouped n items G)
    (h2 : List.Forall₂ (fun c' c => c'.Sublist c) G' G) : Grouped n items G' := by
  have hf : G'.flatten.Sublist G.flatten := by
    clear h
    induction h2 with
    | nil => simp
    | cons hab _ ih => simpa using hab.append ih
  have hmem : ∀ c' ∈ G', ∃ c ∈ G, c'.Sublist c := by
    clear h hf
    intro c' hc'
    induction h2 with
    | nil => simp at hc'
    | cons hab _ ih =>
      rcases List.mem_cons.1 hc' with h | h
      · subst h; exact ⟨_, by simp, hab⟩
      · obtain ⟨c, hc, hs⟩ := ih h; exact ⟨c, by simp [hc], hs⟩
  refine ⟨fun q hq => h.nonempty q (hf.subset hq), fun q hq => h.full q (hf.subset hq), h.sorted.sublist hf, ?_, ?_⟩
  · intro c' hc' q hq q' hq'
    obtain ⟨c, hc, hs⟩ := hmem c' hc'
    exact h.context c hc q (hs.subset hq) q' (hs.subset hq')
  · have hc := h.contexts
    clear h hf hmem
    induction h2 with
    | nil => exact List.Pairwise.nil
    | @cons c' c G' G hab hr ih =>
      rw [List.pairwise_cons] at hc ⊢
      refine ⟨?_, ih hc.2⟩
      intro d' hd' q hq q' hq'
      have : ∃ d ∈ G, d'.Sublist d := by
        clear ih hc hab
        induction hr with
        | nil => simp at hd'
        | cons hab _ ih =>
          rcases List.mem_cons.1 hd' with h | h
          · subst h; exact ⟨_, by simp, hab⟩
          · obtain ⟨c, hc, hs⟩ := ih h; exact ⟨c, by simp [hc], hs⟩
      obtain ⟨d, hd, hs⟩ := this
      exact hc.1 d hd q (hab.subset hq) q' (hs.subset hq')

theorem Grouped.sublist {n : Nat} {items : List (Pend S)} {G G' : List (List (List Nat))} (h : Grouped n items G)
    (h2 : G'.Sublist G) : Grouped n items G' := by
  have hf : G'.flatten.Sublist G.flatten := h2.flatten
  exact ⟨fun q hq => h.nonempty q (hf.subset hq), fun q hq => h.full q (hf.subset hq), h.sorted.sublist hf,
    fun c hc => h.context c (h2.subset hc), h.contexts.sublist h2⟩

end

end Verif.Rnnt.Dec
