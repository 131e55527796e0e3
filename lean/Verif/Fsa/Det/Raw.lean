import Verif.Fsa.Det.Loop

/-!
# Paths through the arcs that the main loop leaves behind
-/

namespace Verif.Fsa.Det
variable {W : Type} [AddCommGroup W] [LinearOrder W] [IsOrderedAddMonoid W]

/-- The arcs of a list of output arcs. -/
def rawArcs (zs : List (Arc W × List Nat)) : List (Arc W) := zs.map Prod.fst

/-- The arcs they stand for. -/
def rawDeriv (zs : List (Arc W × List Nat)) : List Nat := (zs.map Prod.snd).flatten

/-- What pushing adds to the score of a path that ends in the key. -/
def Pushed (f : Fsa W) (op : Option (W → W → W)) (k : Key) (v : W) : Prop :=
  match op with
  | none => v = 0
  | some g => PushVal f g k v

omit [IsOrderedAddMonoid W] in
theorem Pushed.unique {f : Fsa W} {op : Option (W → W → W)} (hop : ∀ g, op = some g → PushOk g)
    {k : Key} {v w : W} (h : Pushed f op k v) (h2 : Pushed f op k w) : v = w := by
  cases op with
  | none => exact Eq.trans h (Eq.symm h2)
  | some g => exact PushVal.unique (hop g rfl) h h2

omit [IsOrderedAddMonoid W] in
/-- A key without symbols adds nothing. -/
theorem pushed_base (f : Fsa W) (op : Option (W → W → W)) (b : Nat) : Pushed f op ([], b) 0 := by
  cases op with
  | none => rfl
  | some g =>
    refine ⟨(b, 0), [], by simp, ?_, ?_, rfl⟩
    · intro x hx
      cases List.mem_singleton.1 hx
      refine ⟨⟨[], (path_nil ..).2 rfl, rfl, by simp [score]⟩, ?_⟩
      intro p _ hl
      have : p = [] := by simpa [labels] using hl
      rw [this]
      simp [score]
    · intro t p hp hl
      have : p = [] := by simpa [labels] using hl
      subst this
      rw [path_nil] at hp
      have hp : b = t := hp
      simp [hp]

omit [IsOrderedAddMonoid W] in
theorem scoreOk_pushed {f : Fsa W} {op : Option (W → W → W)} {k k' : Key} {w s : W}
    (h : ScoreOk f op k k' w s) : ∃ v v', Pushed f op k v ∧ Pushed f op k' v' ∧ s = w + v' - v := by
  cases op with
  | none =>
    refine ⟨0, 0, rfl, rfl, ?_⟩
    have h : s = w := h
    simp [h]
  | some g => exact h

/-- Along a path from the start, the arcs it stands for are a best way to read its labels. -/
theorem raw_sound {f : Fsa W} {op : Option (W → W → W)} (hop : ∀ g, op = some g → PushOk g)
    {st : St W} {keys : List Key} {done : List Nat} (h : Inv f op st keys done)
    (zs : List (Arc W × List Nat)) : ∀ (j : Nat) (k : Key), (∀ z ∈ zs, z ∈ st.arcs) →
      Chain 0 (rawArcs zs) j → keys[j]? = some k →
      ∃ p, Names f.arcs (rawDeriv zs) p ∧ Path f.arcs 0 p k.2 ∧
        labels p ++ k.1 = labels (rawArcs zs) ∧
        (∀ t q, Path f.arcs 0 q t → labels q = labels (rawArcs zs) →
          ∃ q', Path f.arcs k.2 q' t ∧ labels q' = k.1 ∧ score q ≤ score p + score q') ∧
        ∃ v, Pushed f op k v ∧ score (rawArcs zs) = score p + v := by
  induction zs using List.reverseRecOn with
  | nil =>
    intro j k _ hc hk
    have hj : 0 = j := hc
    subst hj
    rw [h.core.start] at hk
    cases hk
    refine ⟨[], rfl, (path_nil ..).2 rfl, rfl, ?_, 0, pushed_base f op 0, by simp [rawArcs, score]⟩
    intro t q hq hl
    exact ⟨q, hq, hl, by simp [score]⟩
  | append_singleton zs z ih =>
    intro j k hz hc hk
    have hr : rawArcs (zs ++ [z]) = rawArcs zs ++ [z.1] := by simp [rawArcs]
    have hd : rawDeriv (zs ++ [z]) = rawDeriv zs ++ z.2 := by simp [rawDeriv]
    rw [hr] at hc ⊢
    rw [hd]
    rw [chain_append] at hc
    obtain ⟨m, hc1, hc2⟩ := hc
    obtain ⟨rfl, hc2⟩ := hc2
    have hc2 : z.1.dst = j := hc2
    subst hc2
    obtain ⟨⟨k0, k1, w, h1, h2, ⟨⟨p1, h3, h4, h5, h6⟩, h7, _⟩, h8, _⟩, _⟩ :=
      h.core.arcs z (hz z (by simp))
    rw [h2] at hk
    cases hk
    obtain ⟨p, g1, g2, g3, g4, v, g5, g6⟩ := ih z.1.src k0 (fun y hy => hz y (by simp [hy])) hc1 h1
    refine ⟨p ++ p1, g1.append h3, (path_append ..).2 ⟨_, g2, h4⟩, ?_, ?_, ?_⟩
    · rw [labels_append, List.append_assoc, h5, ← List.append_assoc, g3, labels_append]
      rfl
    · intro t q hq hl
      rw [labels_append] at hl
      rcases List.eq_nil_or_concat q with rfl | ⟨q0, a, rfl⟩
      · simp [labels] at hl
      · rw [List.concat_eq_append] at hq hl ⊢
        rw [path_snoc] at hq
        rw [labels_append] at hl
        obtain ⟨hl1, hl2⟩ := List.append_inj' hl rfl
        obtain ⟨q1, e1, e2, e3⟩ := g4 a.src q0 hq.1 hl1
        have hla : labels [a] = [z.1.label] := hl2
        obtain ⟨q2, e4, e5, e6⟩ := h7 t (q1 ++ [a]) ((path_snoc ..).2 ⟨e1, hq.2⟩)
          (by rw [labels_append, e2, hla])
        refine ⟨q2, e4, e5, ?_⟩
        rw [score_snoc] at e6 ⊢
        rw [score_app, h6, add_assoc]
        calc score q0 + a.score ≤ (score p + score q1) + a.score := add_le_add_left e3 _
          _ = score p + (score q1 + a.score) := by abel
          _ ≤ score p + (w + score q2) := add_le_add_right e6 _
    · obtain ⟨v0, v1, e1, e2, e3⟩ := scoreOk_pushed h8
      have : v = v0 := g5.unique hop e1
      subst this
      refine ⟨v1, e2, ?_⟩
      rw [score_snoc, g6, e3, score_app, h6]
      abel

/-- Every string that the input can read from its start is read by the result. -/
theorem raw_complete {f : Fsa W} {op : Option (W → W → W)} (hop : ∀ g, op = some g → PushOk g)
    {st : St W} {keys : List Key} {done : List Nat} (h : Inv f op st keys done) (hq : st.queue = [])
    (p : List (Arc W)) : ∀ (t : Nat), Path f.arcs 0 p t →
      ∃ zs j k, (∀ z ∈ zs, z ∈ st.arcs) ∧ Chain 0 (rawArcs zs) j ∧ keys[j]? = some k ∧
        labels (rawArcs zs) = labels p := by
  induction p using List.reverseRecOn with
  | nil => intro t _; exact ⟨[], 0, _, by simp, rfl, h.core.start, rfl⟩
  | append_singleton p a ih =>
    intro t hp
    rw [path_snoc] at hp
    obtain ⟨zs, j, k, h1, h2, h3, h4⟩ := ih a.src hp.1
    obtain ⟨r, _, _, _, g4, _⟩ := raw_sound hop h zs j k h1 h2 h3
    obtain ⟨q', e1, e2, _⟩ := g4 a.src p hp.1 h4.symm
    have hj : j ∈ done := by
      have := h.core.ids
      rw [hq, List.map_nil, List.append_nil] at this
      refine this.mem_iff.2 ?_
      obtain ⟨hlt, _⟩ := List.getElem?_eq_some_iff.1 h3
      simpa using hlt
    obtain ⟨z, hz, e3, e4⟩ := h.complete j hj k h3 q' a.src e1 e2 a hp.2.1 rfl
    obtain ⟨⟨k0, k1, w, f1, f2, _⟩, _⟩ := h.core.arcs z hz
    refine ⟨zs ++ [z], z.1.dst, k1, ?_, ?_, f2, ?_⟩
    · intro y hy
      rcases List.mem_append.1 hy with hy | hy
      · exact h1 y hy
      · cases List.mem_singleton.1 hy
        exact hz
    · simp only [rawArcs, List.map_append, List.map_cons, List.map_nil]
      rw [chain_append]
      exact ⟨j, h2, e3, rfl⟩
    · simp only [rawArcs, List.map_append, List.map_cons, List.map_nil]
      rw [labels_append, labels_append]
      simp only [rawArcs] at h4
      rw [h4]
      simp [labels, e4]

omit [IsOrderedAddMonoid W] in
/-- Arcs with label -1 are those into the state of the final key. -/
theorem raw_final_iff {f : Fsa W} (hv : f.Valid) {op : Option (W → W → W)} {st : St W}
    {keys : List Key} {done : List Nat} (h : Inv f op st keys done) (F : Nat)
    (hF : keys[F]? = some ([], f.final)) : ∀ z ∈ st.arcs, z.1.label = -1 ↔ z.1.dst = F := by
  intro z hz
  obtain ⟨⟨k0, k1, w, h1, h2, ⟨⟨p, h3, h4, h5, h6⟩, h7, _⟩, h8, h9⟩, _⟩ := h.core.arcs z hz
  constructor
  · intro hl
    rw [h9 hl] at h2
    obtain ⟨hlt, _⟩ := List.getElem?_eq_some_iff.1 hF
    exact ((List.getElem?_inj hlt h.core.nodup).1 (hF.trans h2.symm)).symm
  · intro hd
    rw [hd, hF] at h2
    cases h2
    rcases List.eq_nil_or_concat p with rfl | ⟨q, a, rfl⟩
    · simp [labels] at h5
    · rw [List.concat_eq_append] at h4 h5
      rw [path_snoc] at h4
      rw [labels_append, List.append_nil] at h5
      have := (List.append_inj' h5 rfl).2
      have hla : a.label = z.1.label := by simpa [labels] using this
      rw [← hla]
      exact (hv.final_iff a h4.2.1).2 h4.2.2

omit [IsOrderedAddMonoid W] in
/-- No arc leaves the state of the final key. -/
theorem raw_final_src {f : Fsa W} (hv : f.Valid) {op : Option (W → W → W)} {st : St W}
    {keys : List Key} {done : List Nat} (h : Inv f op st keys done) (F : Nat)
    (hF : keys[F]? = some ([], f.final)) : ∀ z ∈ st.arcs, z.1.src ≠ F := by
  intro z hz hs
  obtain ⟨⟨k0, k1, w, h1, h2, ⟨_, _, t, q, h3, h4⟩, _⟩, _⟩ := h.core.arcs z hz
  rw [hs, hF] at h1
  cases h1
  match q, h3, h4 with
  | [], _, h4 => simp [labels] at h4
  | a :: q, h3, _ =>
    rw [path_cons] at h3
    have := hv.src_lt a h3.1
    rw [h3.2.1] at this
    exact lt_irrefl _ this

end Verif.Fsa.Det
