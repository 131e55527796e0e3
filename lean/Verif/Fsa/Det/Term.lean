import Mathlib.Data.List.Perm.Subperm
import Verif.Fsa.Det.Raw
import Verif.Fsa.Det.Spec

/-!
# Termination of the determinizer
-/

namespace Verif.Fsa.Det
variable {W : Type}

/-- Without cycles no state is left twice. -/
theorem acyclic_nodup {f : Fsa W} (h : Acyclic f) (p : List (Arc W)) :
    ∀ s t, Path f.arcs s p t → (p.map Arc.src).Nodup := by
  induction p with
  | nil => intro _ _ _; simp
  | cons a p ih =>
    intro s t hp
    rw [path_cons] at hp
    rw [List.map_cons, List.nodup_cons]
    refine ⟨?_, ih _ _ hp.2.2⟩
    intro hm
    obtain ⟨b, hb, hbs⟩ := List.mem_map.1 hm
    obtain ⟨p1, p2, rfl⟩ := List.append_of_mem hb
    obtain ⟨m, h1, h2⟩ := (path_append ..).1 hp.2.2
    rw [path_cons] at h2
    refine h a.src (a :: p1) (by simp) ?_
    rw [path_cons]
    refine ⟨hp.1, rfl, ?_⟩
    rw [← hbs, h2.2.1]
    exact h1

theorem acyclic_length {f : Fsa W} (hv : f.Valid) (h : Acyclic f) {p : List (Arc W)} {s t : Nat}
    (hp : Path f.arcs s p t) : p.length ≤ f.numStates := by
  have h1 := acyclic_nodup h p s t hp
  have h2 : p.map Arc.src ⊆ List.range f.numStates := by
    intro x hx
    obtain ⟨a, ha, rfl⟩ := List.mem_map.1 hx
    have := hv.src_lt a (hp.2 a ha)
    rw [Fsa.final] at this
    exact List.mem_range.2 (by omega)
  have := (List.subperm_of_subset h1 h2).length_le
  simpa using this

/-- The label sequences of the paths of at most `n` arcs from a state. -/
def labelsFrom (f : Fsa W) : Nat → Nat → List (List Int)
  | 0, _ => [[]]
  | n + 1, s => [] :: (f.arcs.filter fun a => a.src == s).flatMap fun a =>
      (labelsFrom f n a.dst).map (a.label :: ·)

theorem mem_labelsFrom (f : Fsa W) (p : List (Arc W)) : ∀ n s t, Path f.arcs s p t → p.length ≤ n →
    labels p ∈ labelsFrom f n s := by
  induction p with
  | nil =>
    intro n s t _ _
    cases n with
    | zero => simp [labelsFrom, labels]
    | succ n => simp [labelsFrom, labels]
  | cons a p ih =>
    intro n s t hp hl
    cases n with
    | zero => simp at hl
    | succ n =>
      rw [path_cons] at hp
      have := ih n a.dst t hp.2.2 (by simpa using hl)
      rw [labelsFrom, List.mem_cons]
      right
      rw [List.mem_flatMap]
      refine ⟨a, List.mem_filter.2 ⟨hp.1, by simpa using hp.2.1⟩, ?_⟩
      exact List.mem_map.2 ⟨_, this, rfl⟩

/-- Candidates for keys. -/
def keysUpTo (f : Fsa W) (n : Nat) : List Key :=
  (List.range f.numStates).flatMap fun s => (labelsFrom f n s).map fun l => (l, s)

theorem path_end_lt {f : Fsa W} (hv : f.Valid) {p : List (Arc W)} {t : Nat} (hp : Path f.arcs 0 p t) :
    t < f.numStates := by
  rcases List.eq_nil_or_concat p with rfl | ⟨q, a, rfl⟩
  · rw [path_nil] at hp
    have := hv.two
    omega
  · rw [List.concat_eq_append, path_snoc] at hp
    rw [← hp.2.2]
    exact hv.dst_lt a hp.2.1

theorem keyOk_mem {f : Fsa W} (hv : f.Valid) (ha : Acyclic f) {k : Key} (h : KeyOk f k) :
    k ∈ keysUpTo f f.numStates := by
  obtain ⟨⟨r, hr⟩, t, p, hp, hl⟩ := h
  unfold keysUpTo
  rw [List.mem_flatMap]
  refine ⟨k.2, List.mem_range.2 (path_end_lt hv hr), ?_⟩
  rw [List.mem_map]
  exact ⟨k.1, by rw [← hl]; exact mem_labelsFrom f p _ _ _ hp (acyclic_length hv ha hp), rfl⟩

/-- A check that rules out collisions. -/
theorem noCollision_of_check {f : Fsa W} (hv : f.Valid) (ha : Acyclic f)
    (h : ∀ k ∈ keysUpTo f f.numStates, ∀ k' ∈ keysUpTo f f.numStates, ckey k = ckey k' → k = k') :
    NoCollision f :=
  fun k k' h1 h2 => h k (keyOk_mem hv ha h1) k' (keyOk_mem hv ha h2)

variable [AddCommGroup W] [LinearOrder W] [IsOrderedAddMonoid W]

/-- On an input without dead ends the check for connectedness never fails. -/
theorem successors_some (o : Orders W) {f : Fsa W} (hd : NoDeadEnd f) {x : List Int}
    {els : List (Node W)} {len : Nat} {b : Node W} (hg : Good f x els len b) :
    ∃ l, successors o f els = some l := by
  rw [successors]
  rcases hl : labelToState o f els with _ | ⟨y, l⟩
  · simp only
    have hp := o.nodes_perm els
    rcases hn : o.nodes els with _ | ⟨e, es⟩
    · rw [hn] at hp
      exact absurd (List.nil_perm.1 hp) hg.layer.ne
    · have he : e ∈ els := by
        rw [hn] at hp
        exact hp.mem_iff.1 (by simp)
      obtain ⟨p, _, h2, _⟩ := hg.layer.seg_path _ (le_refl _) e he
      rw [hg.layer.back_all e he] at h2
      obtain ⟨q, hq⟩ := hd p e.state h2
      have hfin : e.state = f.final := by
        cases q with
        | nil => rwa [path_nil] at hq
        | cons a q =>
          rw [path_cons] at hq
          have := (labelToState_spec o f els).2.2 e he a hq.1 hq.2.1
          rw [hl] at this
          simp at this
      exact ⟨[], by simp [hfin]⟩
  · exact ⟨_, rfl⟩

theorem mainLoop_some (o : Orders W) {op : Option (W → W → W)}
    (hop : ∀ g, op = some g → PushOk g) {f : Fsa W} (hv : f.Valid) (hc : NoCollision f)
    (hd : NoDeadEnd f) (K : Nat)
    (hK : ∀ keys : List Key, keys.Nodup → (∀ k ∈ keys, KeyOk f k) → keys.length ≤ K) (fuel : Nat) :
    ∀ {st : St W} {keys : List Key} {done : List Nat}, Inv f op st keys done →
      K ≤ done.length + fuel → ∃ st', mainLoop o op f fuel st = some st' := by
  induction fuel with
  | zero =>
    intro st keys done h hf
    have h1 := h.core.ids.length_eq
    have h2 := hK keys h.core.nodup h.core.keyOk
    rw [List.length_append, List.length_map, List.length_range] at h1
    have h3 : st.queue = [] := List.length_eq_zero_iff.1 (by omega)
    exact ⟨st, by rw [mainLoop, h3]; rfl⟩
  | succ n ih =>
    intro st keys done h hf
    rw [mainLoop]
    rcases hq : o.queue st.queue with _ | ⟨d, q⟩
    · exact ⟨st, rfl⟩
    · have hdm : d ∈ st.queue := (o.queue_perm st.queue).mem_iff.1 (by rw [hq]; simp)
      obtain ⟨x, b, hg, _⟩ := h.core.queue d hdm
      obtain ⟨l, hl⟩ := successors_some o hd hg
      obtain ⟨st1, keys1, h1, h2⟩ := processArcs_inv o hop hv hc h hq l hl
      simp only [h1]
      exact ih h2 (by simp only [List.length_cons]; omega)

end Verif.Fsa.Det
