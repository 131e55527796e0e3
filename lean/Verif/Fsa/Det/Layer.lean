import Verif.Fsa.Det.Model

/-!
# The elements of a `DetState`

`Succ`: what `GetDetStatesSuccessor` computes.  `Layer f x els`: the elements after reading `x`.
-/

namespace Verif.Fsa.Det
variable {W : Type} [AddCommGroup W] [LinearOrder W]

/-- A pair of a traceback state and an arc leaving its state. -/
abbrev Cand (W : Type) := Node W × (Arc W × Nat)

/-- The traceback state made from a pair. -/
def Cand.node (c : Cand W) : Node W := .step c.1 c.2.1.dst c.2.2 (c.1.fwd + c.2.1.score)

/-- `els` are the best of the candidates with label `l`, one per state. -/
structure ElsFor (cs : List (Cand W)) (l : Int) (els : List (Node W)) : Prop where
  nodup : (els.map Node.state).Nodup
  sound : ∀ n ∈ els, ∃ c ∈ cs, c.2.1.label = l ∧ n = Cand.node c
  complete : ∀ c ∈ cs, c.2.1.label = l → ∃ n ∈ els, n.state = c.2.1.dst ∧ (Cand.node c).fwd ≤ n.fwd

theorem Node.accept_state (e src : Node W) (i : Nat) (w : W) : (e.accept src i w).state = e.state := by
  unfold Node.accept
  split <;> rfl

theorem acceptArc_states (src : Node W) (x : Arc W × Nat) (els : List (Node W)) :
    (acceptArc src x els).map Node.state =
      if x.1.dst ∈ els.map Node.state then els.map Node.state
      else els.map Node.state ++ [x.1.dst] := by
  induction els with
  | nil => simp [acceptArc, Node.state]
  | cons e es ih =>
    rw [acceptArc]
    by_cases h : e.state = x.1.dst
    · simp [h, Node.accept_state]
    · rw [if_neg h, List.map_cons, ih]
      have : x.1.dst ∈ List.map Node.state (e :: es) ↔ x.1.dst ∈ es.map Node.state := by
        simp [Ne.symm h]
      by_cases h2 : x.1.dst ∈ es.map Node.state
      · rw [if_pos h2, if_pos (this.2 h2), List.map_cons]
      · rw [if_neg h2, if_neg (fun h => h2 (this.1 h)), List.map_cons, List.cons_append]

theorem acceptArc_mem (src : Node W) (x : Arc W × Nat) (els : List (Node W)) (n : Node W)
    (h : n ∈ acceptArc src x els) : n ∈ els ∨ n = Cand.node (src, x) := by
  induction els with
  | nil =>
    rw [acceptArc, List.mem_singleton] at h
    exact Or.inr h
  | cons e es ih =>
    rw [acceptArc] at h
    split at h
    · rename_i he
      rcases List.mem_cons.1 h with h | h
      · unfold Node.accept at h
        split at h
        · right; rw [h, he]; rfl
        · left; simp [h]
      · left; simp [h]
    · rcases List.mem_cons.1 h with h | h
      · left; simp [h]
      · rcases ih h with h | h
        · left; simp [h]
        · right; exact h

theorem acceptArc_ge (src : Node W) (x : Arc W × Nat) (els : List (Node W)) (n : Node W)
    (h : n ∈ els) : ∃ m ∈ acceptArc src x els, m.state = n.state ∧ n.fwd ≤ m.fwd := by
  induction els with
  | nil => cases h
  | cons e es ih =>
    rw [acceptArc]
    split
    · rcases List.mem_cons.1 h with rfl | h
      · refine ⟨_, List.mem_cons_self .., Node.accept_state .., ?_⟩
        unfold Node.accept
        split
        · rename_i h; exact le_of_lt h
        · exact le_refl _
      · exact ⟨n, by simp [h], rfl, le_refl _⟩
    · rcases List.mem_cons.1 h with rfl | h
      · exact ⟨n, by simp, rfl, le_refl _⟩
      · obtain ⟨m, hm, h2⟩ := ih h
        exact ⟨m, by simp [hm], h2⟩

theorem acceptArc_new (src : Node W) (x : Arc W × Nat) (els : List (Node W)) :
    ∃ m ∈ acceptArc src x els, m.state = x.1.dst ∧ (Cand.node (src, x)).fwd ≤ m.fwd := by
  induction els with
  | nil => exact ⟨Cand.node (src, x), by simp [acceptArc, Cand.node], rfl, le_refl _⟩
  | cons e es ih =>
    rw [acceptArc]
    split
    · rename_i he
      refine ⟨_, List.mem_cons_self .., by rw [Node.accept_state, he], ?_⟩
      unfold Node.accept
      split
      · exact le_refl _
      · rename_i h; exact not_lt.1 h
    · obtain ⟨m, hm, h2⟩ := ih
      exact ⟨m, by simp [hm], h2⟩

theorem acceptArc_ne_nil (src : Node W) (x : Arc W × Nat) (els : List (Node W)) :
    acceptArc src x els ≠ [] := by
  obtain ⟨m, hm, _⟩ := acceptArc_new src x els
  exact List.ne_nil_of_mem hm

theorem ElsFor.accept {cs : List (Cand W)} {l : Int} {els : List (Node W)} (h : ElsFor cs l els)
    (src : Node W) (x : Arc W × Nat) (hx : x.1.label = l) :
    ElsFor (cs ++ [(src, x)]) l (acceptArc src x els) := by
  constructor
  · rw [acceptArc_states]
    split
    · exact h.nodup
    · rename_i hn
      exact List.nodup_append.2 ⟨h.nodup, by simp, by
        intro a ha b hb
        cases List.mem_singleton.1 hb
        rintro rfl
        exact hn ha⟩
  · intro n hn
    rcases acceptArc_mem _ _ _ _ hn with hn | rfl
    · obtain ⟨c, hc, h2⟩ := h.sound n hn
      exact ⟨c, by simp [hc], h2⟩
    · exact ⟨(src, x), by simp, hx, rfl⟩
  · intro c hc hl
    rcases List.mem_append.1 hc with hc | hc
    · obtain ⟨n, hn, h1, h2⟩ := h.complete c hc hl
      obtain ⟨m, hm, h3, h4⟩ := acceptArc_ge src x els n hn
      exact ⟨m, hm, h3.trans h1, le_trans h2 h4⟩
    · cases List.mem_singleton.1 hc
      exact acceptArc_new src x els

theorem ElsFor.skip {cs : List (Cand W)} {l : Int} {els : List (Node W)} (h : ElsFor cs l els)
    (src : Node W) (x : Arc W × Nat) (hx : x.1.label ≠ l) : ElsFor (cs ++ [(src, x)]) l els := by
  constructor
  · exact h.nodup
  · intro n hn
    obtain ⟨c, hc, h2⟩ := h.sound n hn
    exact ⟨c, by simp [hc], h2⟩
  · intro c hc hl
    rcases List.mem_append.1 hc with hc | hc
    · exact h.complete c hc hl
    · cases List.mem_singleton.1 hc
      exact absurd hl hx

/-- The map from labels to elements, given the candidates seen so far. -/
structure MapFor (cs : List (Cand W)) (m : List (Int × List (Node W))) : Prop where
  nodup : (m.map Prod.fst).Nodup
  els : ∀ e ∈ m, e.2 ≠ [] ∧ ElsFor cs e.1 e.2
  complete : ∀ c ∈ cs, c.2.1.label ∈ m.map Prod.fst

theorem insertLabel_keys (src : Node W) (x : Arc W × Nat) (m : List (Int × List (Node W))) :
    (insertLabel src x m).map Prod.fst =
      if x.1.label ∈ m.map Prod.fst then m.map Prod.fst else m.map Prod.fst ++ [x.1.label] := by
  induction m with
  | nil => simp [insertLabel]
  | cons e es ih =>
    rw [insertLabel]
    by_cases h : e.1 = x.1.label
    · simp [h]
    · rw [if_neg h, List.map_cons, ih]
      have : x.1.label ∈ List.map Prod.fst (e :: es) ↔ x.1.label ∈ es.map Prod.fst := by
        simp [Ne.symm h]
      by_cases h2 : x.1.label ∈ es.map Prod.fst
      · rw [if_pos h2, if_pos (this.2 h2), List.map_cons]
      · rw [if_neg h2, if_neg (fun h => h2 (this.1 h)), List.map_cons, List.cons_append]

theorem insertLabel_mem (src : Node W) (x : Arc W × Nat) (m : List (Int × List (Node W)))
    (hn : (m.map Prod.fst).Nodup) (e : Int × List (Node W)) (h : e ∈ insertLabel src x m) :
    (e ∈ m ∧ e.1 ≠ x.1.label) ∨ (∃ d ∈ m, d.1 = x.1.label ∧ e = (d.1, acceptArc src x d.2)) ∨
      (x.1.label ∉ m.map Prod.fst ∧ e = (x.1.label, acceptArc src x [])) := by
  induction m with
  | nil =>
    rw [insertLabel, List.mem_singleton] at h
    exact Or.inr (Or.inr ⟨by simp, h⟩)
  | cons d ds ih =>
    rw [insertLabel] at h
    rw [List.map_cons, List.nodup_cons] at hn
    split at h
    · rename_i hd
      rcases List.mem_cons.1 h with h | h
      · exact Or.inr (Or.inl ⟨d, by simp, hd, h⟩)
      · refine Or.inl ⟨by simp [h], fun he => hn.1 ?_⟩
        rw [hd, ← he]
        exact List.mem_map_of_mem h
    · rename_i hd
      rcases List.mem_cons.1 h with h | h
      · exact Or.inl ⟨by simp [h], by rw [h]; exact hd⟩
      · rcases ih hn.2 h with ⟨h1, h2⟩ | ⟨c, hc, h2⟩ | ⟨h1, h2⟩
        · exact Or.inl ⟨by simp [h1], h2⟩
        · exact Or.inr (Or.inl ⟨c, by simp [hc], h2⟩)
        · refine Or.inr (Or.inr ⟨?_, h2⟩)
          simp only [List.map_cons, List.mem_cons, not_or]
          exact ⟨Ne.symm hd, h1⟩

theorem elsFor_nil (cs : List (Cand W)) (l : Int) (h : ∀ c ∈ cs, c.2.1.label ≠ l) :
    ElsFor cs l [] :=
  ⟨by simp, by simp, fun c hc hl => absurd hl (h c hc)⟩

theorem MapFor.insert {cs : List (Cand W)} {m : List (Int × List (Node W))} (h : MapFor cs m)
    (src : Node W) (x : Arc W × Nat) : MapFor (cs ++ [(src, x)]) (insertLabel src x m) := by
  constructor
  · rw [insertLabel_keys]
    split
    · exact h.nodup
    · rename_i hn
      exact List.nodup_append.2 ⟨h.nodup, by simp, by
        intro a ha b hb
        cases List.mem_singleton.1 hb
        rintro rfl
        exact hn ha⟩
  · intro e he
    rcases insertLabel_mem src x m h.nodup e he with ⟨h1, h2⟩ | ⟨d, hd, h2, rfl⟩ | ⟨h1, rfl⟩
    · obtain ⟨h3, h4⟩ := h.els e h1
      exact ⟨h3, h4.skip src x (Ne.symm h2)⟩
    · obtain ⟨h3, h4⟩ := h.els d hd
      exact ⟨acceptArc_ne_nil src x d.2, h4.accept src x h2.symm⟩
    · refine ⟨acceptArc_ne_nil src x [], (elsFor_nil cs _ fun c hc hl => h1 ?_).accept src x rfl⟩
      have hl : c.2.1.label = x.1.label := hl
      rw [← hl]
      exact h.complete c hc
  · intro c hc
    rw [insertLabel_keys]
    rcases List.mem_append.1 hc with hc | hc
    · have := h.complete c hc
      split
      · exact this
      · simp only [List.mem_append]; exact Or.inl this
    · cases List.mem_singleton.1 hc
      split
      · assumption
      · simp

/-- All candidates for the successors of `els`. -/
def cands (o : Orders W) (f : Fsa W) (els : List (Node W)) : List (Cand W) :=
  (o.nodes els).flatMap fun n => (leaving f n.state).map fun x => (n, x)

theorem labelToState_eq (o : Orders W) (f : Fsa W) (els : List (Node W)) :
    labelToState o f els = (cands o f els).foldl (fun m c => insertLabel c.1 c.2 m) [] := by
  unfold labelToState cands
  generalize ([] : List (Int × List (Node W))) = m
  induction o.nodes els generalizing m with
  | nil => rfl
  | cons n ns ih =>
    rw [List.foldl_cons, ih, List.flatMap_cons, List.foldl_append, List.foldl_map]

theorem mapFor_foldl (cs : List (Cand W)) : ∀ (pre : List (Cand W)) (m : List (Int × List (Node W))),
    MapFor pre m → MapFor (pre ++ cs) (cs.foldl (fun m c => insertLabel c.1 c.2 m) m) := by
  induction cs with
  | nil => intro pre m h; simpa using h
  | cons c cs ih =>
    intro pre m h
    have := ih (pre ++ [c]) (insertLabel c.1 c.2 m) (h.insert c.1 c.2)
    simpa using this

theorem labelToState_mapFor (o : Orders W) (f : Fsa W) (els : List (Node W)) :
    MapFor (cands o f els) (labelToState o f els) := by
  rw [labelToState_eq]
  exact mapFor_foldl _ [] [] ⟨by simp, by simp, by simp⟩

omit [AddCommGroup W] [LinearOrder W] in
theorem mem_leaving (f : Fsa W) (s : Nat) (x : Arc W × Nat) :
    x ∈ leaving f s ↔ f.arcs[x.2]? = some x.1 ∧ x.1.src = s := by
  unfold leaving
  rw [List.mem_filter, List.mem_zipIdx_iff_getElem?]
  simp

theorem mem_cands (o : Orders W) (f : Fsa W) (els : List (Node W)) (c : Cand W) :
    c ∈ cands o f els ↔ c.1 ∈ els ∧ f.arcs[c.2.2]? = some c.2.1 ∧ c.2.1.src = c.1.state := by
  unfold cands
  simp only [List.mem_flatMap, List.mem_map, (o.nodes_perm els).mem_iff]
  constructor
  · rintro ⟨n, hn, x, hx, rfl⟩
    exact ⟨hn, (mem_leaving f n.state x).1 hx⟩
  · rintro ⟨h1, h2⟩
    exact ⟨c.1, h1, c.2, (mem_leaving f c.1.state c.2).2 h2, rfl⟩

/-- `els'` are the elements after reading `l` from `els`: per state the best way to get there. -/
structure Succ (f : Fsa W) (els : List (Node W)) (l : Int) (els' : List (Node W)) : Prop where
  ne : els' ≠ []
  nodup : (els'.map Node.state).Nodup
  sound : ∀ n ∈ els', ∃ p ∈ els, ∃ (i : Nat) (a : Arc W), f.arcs[i]? = some a ∧ a.src = p.state ∧
    a.label = l ∧ n = .step p a.dst i (p.fwd + a.score)
  complete : ∀ p ∈ els, ∀ a ∈ f.arcs, a.src = p.state → a.label = l →
    ∃ n ∈ els', n.state = a.dst ∧ p.fwd + a.score ≤ n.fwd

theorem labelToState_spec (o : Orders W) (f : Fsa W) (els : List (Node W)) :
    ((labelToState o f els).map Prod.fst).Nodup ∧
      (∀ e ∈ labelToState o f els, Succ f els e.1 e.2) ∧
      ∀ p ∈ els, ∀ a ∈ f.arcs, a.src = p.state → a.label ∈ (labelToState o f els).map Prod.fst := by
  have h := labelToState_mapFor o f els
  refine ⟨h.nodup, ?_, ?_⟩
  · intro e he
    obtain ⟨h1, h2⟩ := h.els e he
    refine ⟨h1, h2.nodup, ?_, ?_⟩
    · intro n hn
      obtain ⟨c, hc, hl, rfl⟩ := h2.sound n hn
      obtain ⟨h3, h4, h5⟩ := (mem_cands o f els c).1 hc
      exact ⟨c.1, h3, c.2.2, c.2.1, h4, h5, hl, rfl⟩
    · intro p hp a ha hs hl
      obtain ⟨i, hi⟩ := List.mem_iff_getElem?.1 ha
      exact h2.complete (p, (a, i)) ((mem_cands o f els _).2 ⟨hp, hi, hs⟩) hl
  · intro p hp a ha hs
    obtain ⟨i, hi⟩ := List.mem_iff_getElem?.1 ha
    exact h.complete (p, (a, i)) ((mem_cands o f els _).2 ⟨hp, hi, hs⟩)

/-- `els` are the elements reached from the start by reading `x`. -/
inductive Layer (f : Fsa W) : List Int → List (Node W) → Prop
  | start : Layer f [] [.start]
  | step {x els l els'} : Layer f x els → Succ f els l els' → Layer f (x ++ [l]) els'

end Verif.Fsa.Det
