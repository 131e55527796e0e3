import Verif.Fsa.Connect.Model
import Verif.Ragged.RemoveEmptyProps
import Verif.Util.MapM

/-!
The passes of `Connect` mark exactly the states that can be reached, and they end.
-/

namespace Verif.Fsa
open Verif.Ragged Verif.Util

/-- `g` can be reached from `starts` by steps of `succ`. -/
inductive Reach (succ : Nat → Nat → Prop) (starts : List Nat) : Nat → Prop
  | start {g : Nat} : g ∈ starts → Reach succ starts g
  | step {s d : Nat} : Reach succ starts s → succ s d → Reach succ starts d

theorem markAll_length (m : List Bool) (cur : List Nat) : (markAll m cur).length = m.length := by
  unfold markAll
  induction cur generalizing m with
  | nil => rfl
  | cons s cur ih => rw [List.foldl_cons, ih]; simp

theorem markAll_get (m : List Bool) (cur : List Nat) (g : Nat) (h : g < m.length) :
    (markAll m cur)[g]? = some true ↔ m[g]? = some true ∨ g ∈ cur := by
  unfold markAll
  induction cur generalizing m with
  | nil => simp
  | cons s cur ih =>
    rw [List.foldl_cons, ih _ (by simpa using h), List.getElem?_set, List.mem_cons]
    by_cases hs : s = g
    · subst hs; simp [h]
    · simp only [hs, if_false]
      constructor
      · rintro (h1 | h1)
        · exact Or.inl h1
        · exact Or.inr (Or.inr h1)
      · rintro (h1 | h1 | h1)
        · exact Or.inl h1
        · exact absurd h1.symm hs
        · exact Or.inr h1

theorem bool_get (m : List Bool) (g : Nat) (h : g < m.length) :
    m[g]? = some false ↔ ¬ m[g]? = some true := by
  rw [List.getElem?_eq_getElem h]
  cases m[g] <;> simp

theorem applyWrites_spec (n : Nat) (writes : List (Nat × Bool))
    (h : ∀ g, (g, true) ∈ writes → (g, false) ∈ writes → False) :
    applyWrites n writes = some ((List.range n).map (fun g => decide ((g, true) ∈ writes))) := by
  unfold applyWrites
  apply mapM_some_of _ _ _ (by simp)
  intro i b hb
  obtain ⟨hlt, hb⟩ := List.getElem?_eq_some_iff.mp hb
  rw [List.getElem_range] at hb; subst hb; rw [List.length_range] at hlt
  rw [if_neg (fun hc => h _ hc.1 hc.2), List.getElem?_map, List.getElem?_range hlt]
  rfl

theorem sel_range_mem (keep : List Bool) (g : Nat) :
    g ∈ sel keep (List.range keep.length) ↔ keep[g]? = some true := by
  constructor
  · intro h
    obtain ⟨j, hj⟩ := List.getElem?_of_mem h
    have hlt := (List.getElem?_eq_some_iff.mp hj).1
    rw [sel_length _ _ (by simp)] at hlt
    obtain ⟨i, hi, rfl⟩ := rank_surj keep j hlt
    rw [sel_get keep _ i (by simp) hi] at hj
    have hi' := (List.getElem?_eq_some_iff.mp hi).1
    rw [List.getElem?_range hi'] at hj
    obtain rfl := Option.some.inj hj
    exact hi
  · intro h
    have hi' := (List.getElem?_eq_some_iff.mp h).1
    apply List.mem_of_getElem? (i := rank keep g)
    rw [sel_get keep _ g (by simp) h, List.getElem?_range hi']

/-- What the kernel of a pass has to do for one state. -/
def WritesOk (N : Nat) (succ : Nat → Nat → Prop)
    (writes : List Bool → Nat → Option (List (Nat × Bool))) : Prop :=
  ∀ (m : List Bool) (s : Nat), m.length = N → s < N → m[s]? = some true →
    ∃ ws, writes m s = some ws ∧ (∀ g, (g, true) ∈ ws ↔ succ s g ∧ m[g]? = some false) ∧
      (∀ g, (g, false) ∈ ws → m[g]? = some true)

theorem nextBatch_spec (N : Nat) (succ : Nat → Nat → Prop)
    (writes : List Bool → Nat → Option (List (Nat × Bool))) (hw : WritesOk N succ writes)
    (m : List Bool) (cur : List Nat) (hm : m.length = N) (hc : ∀ s ∈ cur, s < N) :
    ∃ new, nextBatch writes m cur = some (markAll m cur, new) ∧
      ∀ g, g ∈ new ↔ (∃ s ∈ cur, succ s g) ∧ (markAll m cur)[g]? = some false := by
  have hml : (markAll m cur).length = N := by rw [markAll_length, hm]
  have hmark : ∀ s ∈ cur, (markAll m cur)[s]? = some true := fun s hs =>
    (markAll_get m cur s (by rw [hm]; exact hc s hs)).mpr (Or.inr hs)
  obtain ⟨wss, hwss⟩ := mapM_exists (f := writes (markAll m cur)) (l := cur) (by
    intro s hs
    obtain ⟨ws, h, _⟩ := hw _ s hml (hc s hs) (hmark s hs)
    exact ⟨ws, h⟩)
  obtain ⟨hlen, hget⟩ := mapM_get hwss
  have hmem : ∀ g b, (g, b) ∈ wss.flatten ↔ ∃ s ∈ cur, ∃ ws, writes (markAll m cur) s = some ws ∧ (g, b) ∈ ws := by
    intro g b
    constructor
    · intro h
      obtain ⟨ws, h1, h2⟩ := List.mem_flatten.mp h
      obtain ⟨i, hi⟩ := List.getElem?_of_mem h1
      have hlt := (List.getElem?_eq_some_iff.mp hi).1
      rw [hlen] at hlt
      have := hget i _ (List.getElem?_eq_getElem hlt)
      rw [hi] at this
      exact ⟨cur[i], List.getElem_mem hlt, ws, this.symm, h2⟩
    · rintro ⟨s, hs, ws, h1, h2⟩
      obtain ⟨i, hi⟩ := List.getElem?_of_mem hs
      have := hget i s hi
      rw [h1] at this
      exact List.mem_flatten.mpr ⟨ws, List.mem_of_getElem? this, h2⟩
  have htrue : ∀ g, (g, true) ∈ wss.flatten ↔ (∃ s ∈ cur, succ s g) ∧ (markAll m cur)[g]? = some false := by
    intro g
    rw [hmem]
    constructor
    · rintro ⟨s, hs, ws, h1, h2⟩
      obtain ⟨ws', h1', h3, _⟩ := hw _ s hml (hc s hs) (hmark s hs)
      rw [h1] at h1'
      obtain rfl := Option.some.inj h1'
      obtain ⟨h4, h5⟩ := (h3 g).mp h2
      exact ⟨⟨s, hs, h4⟩, h5⟩
    · rintro ⟨⟨s, hs, h4⟩, h5⟩
      obtain ⟨ws', h1', h3, _⟩ := hw _ s hml (hc s hs) (hmark s hs)
      exact ⟨s, hs, ws', h1', (h3 g).mpr ⟨h4, h5⟩⟩
  have hfalse : ∀ g, (g, false) ∈ wss.flatten → (markAll m cur)[g]? = some true := by
    intro g hg
    obtain ⟨s, hs, ws, h1, h2⟩ := (hmem g false).mp hg
    obtain ⟨ws', h1', _, h3⟩ := hw _ s hml (hc s hs) (hmark s hs)
    rw [h1] at h1'
    obtain rfl := Option.some.inj h1'
    exact h3 g h2
  have happ := applyWrites_spec m.length wss.flatten (by
    intro g h1 h2
    have h3 := ((htrue g).mp h1).2
    rw [hfalse g h2] at h3
    simp at h3)
  refine ⟨sel ((List.range m.length).map (fun g => decide ((g, true) ∈ wss.flatten)))
    (List.range ((List.range m.length).map (fun g => decide ((g, true) ∈ wss.flatten))).length), ?_, ?_⟩
  · unfold nextBatch
    simp only [hwss, happ, new2old_spec, Option.bind_eq_bind, Option.bind_some]
  · intro g
    rw [sel_range_mem, ← htrue, List.getElem?_map]
    by_cases hg : g < m.length
    · rw [List.getElem?_range hg]; simp
    · constructor
      · intro h
        rw [List.getElem?_eq_none (by simpa using hg)] at h
        simp at h
      · intro h
        have := ((htrue g).mp h).2
        rw [List.getElem?_eq_none (by rw [hml, ← hm]; omega)] at this
        simp at this

theorem countFalse_mark (m : List Bool) (cur : List Nat) :
    (markAll m cur).count false ≤ m.count false ∧
      ∀ s ∈ cur, m[s]? = some false → (markAll m cur).count false < m.count false := by
  unfold markAll
  induction cur generalizing m with
  | nil => simp
  | cons t cur ih =>
    rw [List.foldl_cons]
    obtain ⟨h1, h2⟩ := ih (m.set t true)
    have hle : (m.set t true).count false ≤ m.count false ∧
        (m[t]? = some false → (m.set t true).count false < m.count false) := by
      by_cases ht : t < m.length
      · rw [List.count_set ht, List.getElem?_eq_getElem ht]
        constructor
        · simp
        · intro h
          have hb : m[t] = false := by simpa using h
          have : 0 < m.count false := List.count_pos_iff.mpr (by rw [← hb]; exact List.getElem_mem ht)
          rw [hb]
          simp only [BEq.rfl, if_true, Bool.beq_eq_decide_eq, Bool.true_eq_false, decide_false, Bool.false_eq_true, if_false]
          omega
      · rw [List.set_eq_of_length_le (by omega)]
        refine ⟨Nat.le_refl _, fun h => ?_⟩
        rw [List.getElem?_eq_none (by omega)] at h; simp at h
    refine ⟨h1.trans hle.1, fun s hs hm => ?_⟩
    by_cases hst : s = t
    · subst hst
      exact lt_of_le_of_lt h1 (hle.2 hm)
    · rcases List.mem_cons.mp hs with h | h
      · exact absurd h hst
      · refine lt_of_lt_of_le (h2 s h ?_) hle.1
        rw [List.getElem?_set, if_neg (fun h => hst h.symm)]; exact hm

theorem passLoop_spec (N : Nat) (succ : Nat → Nat → Prop) (starts : List Nat)
    (hsucc : ∀ s, s < N → ∀ d, succ s d → d < N)
    (writes : List Bool → Nat → Option (List (Nat × Bool))) (hw : WritesOk N succ writes)
    (fuel : Nat) (m : List Bool) (cur : List Nat) (hm : m.length = N) (hc : ∀ s ∈ cur, s < N)
    (hfuel : m.count false < fuel)
    (hdis : ∀ s ∈ cur, m[s]? = some false)
    (hreach : ∀ g, g < N → (m[g]? = some true ∨ g ∈ cur) → Reach succ starts g)
    (hstart : ∀ g ∈ starts, m[g]? = some true ∨ g ∈ cur)
    (hclosed : ∀ s, m[s]? = some true → ∀ d, succ s d → m[d]? = some true ∨ d ∈ cur) :
    ∃ out, passLoop writes fuel m cur = some out ∧ out.length = N ∧
      ∀ g, out[g]? = some true ↔ Reach succ starts g := by
  induction fuel generalizing m cur with
  | zero => omega
  | succ fuel ih =>
    obtain ⟨new, hnew, hmem⟩ := nextBatch_spec N succ writes hw m cur hm hc
    have hml : (markAll m cur).length = N := by rw [markAll_length, hm]
    have hget : ∀ g, g < N → ((markAll m cur)[g]? = some true ↔ m[g]? = some true ∨ g ∈ cur) :=
      fun g hg => markAll_get m cur g (by omega)
    have hlt : ∀ (l : List Bool) (g : Nat) (b : Bool), l.length = N → l[g]? = some b → g < N := by
      intro l g b hl h
      have := (List.getElem?_eq_some_iff.mp h).1; omega
    have hstart' : ∀ g ∈ starts, (markAll m cur)[g]? = some true := by
      intro g hg
      have h := hstart g hg
      have hgN : g < N := by
        rcases h with h | h
        · exact hlt m g true hm h
        · exact hc g h
      exact (hget g hgN).mpr h
    have hclosed' : ∀ s, (markAll m cur)[s]? = some true → ∀ d, succ s d →
        (markAll m cur)[d]? = some true ∨ d ∈ new := by
      intro s hs d hd
      have hsN := hlt _ s true hml hs
      have hdN := hsucc s hsN d hd
      by_cases h : (markAll m cur)[d]? = some true
      · exact Or.inl h
      · right
        rcases (hget s hsN).mp hs with h1 | h1
        · exact absurd ((hget d hdN).mpr (hclosed s h1 d hd)) h
        · exact (hmem d).mpr ⟨⟨s, h1, hd⟩, (bool_get _ _ (by omega)).mpr h⟩
    have hsound : ∀ g, (markAll m cur)[g]? = some true → Reach succ starts g := by
      intro g hg
      have hgN := hlt _ g true hml hg
      exact hreach g hgN ((hget g hgN).mp hg)
    have hunfold : passLoop writes (fuel + 1) m cur =
        if new = [] then some (markAll m cur) else passLoop writes fuel (markAll m cur) new := by
      show (nextBatch writes m cur).bind _ = _
      rw [hnew]; rfl
    rw [hunfold]
    by_cases hn : new = []
    · rw [if_pos hn]
      refine ⟨markAll m cur, rfl, hml, fun g => ⟨hsound g, fun h => ?_⟩⟩
      induction h with
      | start h => exact hstart' _ h
      | step _ hd ih =>
        rcases hclosed' _ ih _ hd with h | h
        · exact h
        · rw [hn] at h; simp at h
    · rw [if_neg hn]
      have hcurne : ∃ s, s ∈ cur := by
        obtain ⟨g, hg⟩ := List.exists_mem_of_ne_nil new hn
        obtain ⟨⟨s, hs, _⟩, _⟩ := (hmem g).mp hg
        exact ⟨s, hs⟩
      obtain ⟨s0, hs0⟩ := hcurne
      have hcnt := (countFalse_mark m cur).2 s0 hs0 (hdis s0 hs0)
      apply ih (markAll m cur) new hml
      · intro g hg; exact hlt _ g false hml ((hmem g).mp hg).2
      · omega
      · intro g hg; exact ((hmem g).mp hg).2
      · intro g hgN h
        rcases h with h | h
        · exact hsound g h
        · obtain ⟨⟨s, hs, hd⟩, _⟩ := (hmem g).mp h
          exact Reach.step (hreach s (hc s hs) (Or.inr hs)) hd
      · intro g hg; exact Or.inl (hstart' g hg)
      · exact hclosed'

/-- A pass that starts with no marks ends and marks exactly the states that can be reached. -/
theorem pass_spec (N : Nat) (succ : Nat → Nat → Prop) (starts : List Nat)
    (hst : ∀ s ∈ starts, s < N) (hsucc : ∀ s, s < N → ∀ d, succ s d → d < N)
    (writes : List Bool → Nat → Option (List (Nat × Bool))) (hw : WritesOk N succ writes) :
    ∃ out, passLoop writes (N + 1) (List.replicate N false) starts = some out ∧ out.length = N ∧
      ∀ g, out[g]? = some true ↔ Reach succ starts g := by
  have hrep : ∀ g : Nat, (List.replicate N false)[g]? ≠ some true := by
    intro g h
    rw [List.getElem?_replicate] at h
    split at h <;> simp at h
  apply passLoop_spec N succ starts hsucc writes hw _ _ _ (by simp) hst
  · simp
  · intro s hs; rw [List.getElem?_replicate, if_pos (hst s hs)]
  · intro g _ h
    rcases h with h | h
    · exact absurd h (hrep g)
    · exact Reach.start h
  · intro g hg; exact Or.inr hg
  · intro s hs; exact absurd hs (hrep s)

end Verif.Fsa
