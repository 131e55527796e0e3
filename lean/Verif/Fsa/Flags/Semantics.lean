import Verif.Fsa.Flags.Props
import Mathlib.Data.List.Pairwise

/-!
# C14, C15, C17: what a user may conclude from the property bits
-/

namespace Verif.Fsa
open Verif.Ragged Verif.Util
variable {W : Type}

/-! ## Specification: the FSA with natural state numbers -/

/-- An arc with natural state numbers. -/
def RArc.toArc (a : RArc W) : Arc W := ⟨a.src.toNat, a.dst.toNat, a.label, a.score⟩

/-- The FSA that the rows of arcs denote. -/
def rawFsa (f : List (List (RArc W))) : Fsa W := ⟨f.length, f.flatten.map RArc.toArc⟩

/-- Every state can be reached from the start. -/
def Accessible (f : Fsa W) : Prop := ∀ s, s < f.numStates → ∃ p, Path f.arcs 0 p s

/-- The final state can be reached from every state. -/
def Coaccessible (f : Fsa W) : Prop := ∀ s, s < f.numStates → ∃ p, Path f.arcs s p f.final

/-! ## Lemmas -/

theorem mem_rawFsa (f : List (List (RArc W))) (b : Arc W) :
    b ∈ (rawFsa f).arcs ↔ ∃ (s : Nat) (row : List (RArc W)), f[s]? = some row ∧ ∃ a ∈ row, a.toArc = b := by
  constructor
  · intro h
    obtain ⟨a, ha, rfl⟩ := List.mem_map.mp h
    obtain ⟨row, hr, ha⟩ := List.mem_flatten.mp ha
    obtain ⟨s, hs⟩ := List.getElem?_of_mem hr
    exact ⟨s, row, hs, a, ha, rfl⟩
  · rintro ⟨s, row, hs, a, ha, rfl⟩
    exact List.mem_map.mpr ⟨a, List.mem_flatten.mpr ⟨row, List.mem_of_getElem? hs, ha⟩, rfl⟩

theorem toArc_src (f : List (List (RArc W))) (h : SpecValid f) (s : Nat) (row : List (RArc W))
    (hs : f[s]? = some row) (a : RArc W) (ha : a ∈ row) : a.toArc.src = s := by
  have := (h s row hs a ha).1
  simp only [RArc.toArc]; omega

/-! ## Valid -/

/-- **C15** (part). The Valid bit, together with an empty last row and at least two states, gives all
that fsa.h documents. -/
theorem valid_documented_partial (f : List (List (RArc W))) (hv : (flagsOf f).valid = true)
    (h2 : 2 ≤ f.length) (hlast : f[f.length - 1]? = some []) : (rawFsa f).Valid := by
  rw [valid_iff] at hv
  constructor
  · exact h2
  · show (f.flatten.map RArc.toArc).Pairwise _
    rw [List.pairwise_map, List.pairwise_flatten]
    refine ⟨fun row hr => ?_, ?_⟩
    · obtain ⟨s, hs⟩ := List.getElem?_of_mem hr
      refine List.Pairwise.imp_of_mem ?_ (List.pairwise_of_forall (R := fun _ _ => True) (fun _ _ => trivial))
      intro a b ha hb _
      rw [toArc_src f hv s row hs a ha, toArc_src f hv s row hs b hb]
    · rw [List.pairwise_iff_getElem]
      intro i j hi hj hij a ha b hb
      rw [toArc_src f hv i _ (List.getElem?_eq_getElem hi) a ha,
        toArc_src f hv j _ (List.getElem?_eq_getElem hj) b hb]
      omega
  · intro b hb
    obtain ⟨s, row, hs, a, ha, rfl⟩ := (mem_rawFsa f b).mp hb
    rw [toArc_src f hv s row hs a ha]
    have hlt := (List.getElem?_eq_some_iff.mp hs).1
    show s < f.length - 1
    by_contra hc
    have : s = f.length - 1 := by omega
    subst this
    rw [hs] at hlast
    obtain rfl := Option.some.inj hlast
    simp at ha
  · intro b hb
    obtain ⟨s, row, hs, a, ha, rfl⟩ := (mem_rawFsa f b).mp hb
    have := hv s row hs a ha
    show a.dst.toNat < f.length
    omega
  · intro b hb
    obtain ⟨s, row, hs, a, ha, rfl⟩ := (mem_rawFsa f b).mp hb
    have := hv s row hs a ha
    show a.label = -1 ↔ a.dst.toNat = f.length - 1
    omega

/-- **C15** fails as documented: the Valid bit is set for an FSA with an arc that leaves the final
state, and this FSA accepts a string in which the final label is not last. -/
theorem valid_with_arc_leaving_final :
    ∃ f : List (List (RArc Nat)), (flagsOf f).valid = true ∧ 2 ≤ f.length ∧
      ¬ (rawFsa f).Valid ∧ ∃ p, Accepting (rawFsa f) p ∧ labels p = [-1, -1] := by
  refine ⟨[[⟨0, 1, -1, 0⟩], [⟨1, 1, -1, 0⟩]], by decide, by decide, ?_,
    [⟨0, 1, -1, 0⟩, ⟨1, 1, -1, 0⟩], ⟨by decide, ⟨by simp [Chain, rawFsa, Fsa.final], by
      simp [rawFsa, RArc.toArc]⟩⟩, rfl⟩
  intro h
  have := h.src_lt ⟨1, 1, -1, 0⟩ (by simp [rawFsa, RArc.toArc])
  simp [rawFsa, Fsa.final] at this

/-! ## TopSortedAndAcyclic -/

/-- **C14.** Along a path of an FSA that has the TopSortedAndAcyclic bit the states increase; in
particular a path has fewer arcs than the FSA has states. -/
theorem acyclic_path (f : List (List (RArc W))) (hv : (flagsOf f).valid = true)
    (ha : (flagsOf f).acyclic = true) (s t : Nat) (p : List (Arc W)) (hp : Path (rawFsa f).arcs s p t) :
    s + p.length ≤ t := by
  rw [valid_iff] at hv
  rw [acyclic_iff] at ha
  induction p generalizing s with
  | nil => rw [path_nil] at hp; simp [hp]
  | cons b p ih =>
    rw [path_cons] at hp
    obtain ⟨hb, h1, h2⟩ := hp
    have := ih _ h2
    obtain ⟨q, row, hs, a, har, rfl⟩ := (mem_rawFsa f b).mp hb
    have h3 := hv q row hs a har
    have h4 := ha a (List.mem_flatten.mpr ⟨row, List.mem_of_getElem? hs, har⟩)
    simp only [RArc.toArc, List.length_cons] at *
    omega

/-- **C14.** No path returns to its first state. -/
theorem acyclic_no_cycle (f : List (List (RArc W))) (hv : (flagsOf f).valid = true)
    (ha : (flagsOf f).acyclic = true) (s : Nat) (p : List (Arc W)) (hp : Path (rawFsa f).arcs s p s) :
    p = [] := by
  have := acyclic_path f hv ha s s p hp
  exact List.length_eq_zero_iff.mp (by omega)

/-- **C14.** With the TopSorted bit alone the only cycles are self-loops. -/
theorem topSorted_cycle (f : List (List (RArc W))) (hv : (flagsOf f).valid = true)
    (ht : (flagsOf f).topSorted = true) (s : Nat) (p : List (Arc W)) (hp : Path (rawFsa f).arcs s p s) :
    ∀ a ∈ p, a.src = s ∧ a.dst = s := by
  rw [valid_iff] at hv
  rw [topSorted_iff] at ht
  have key : ∀ (p : List (Arc W)) (s t : Nat), Path (rawFsa f).arcs s p t →
      s ≤ t ∧ ∀ a ∈ p, s ≤ a.src ∧ a.src ≤ a.dst ∧ a.dst ≤ t := by
    intro p
    induction p with
    | nil => intro s t hp; rw [path_nil] at hp; simp [hp]
    | cons b p ih =>
      intro s t hp
      rw [path_cons] at hp
      obtain ⟨hb, h1, h2⟩ := hp
      obtain ⟨h3, h4⟩ := ih _ _ h2
      have h5 : b.src ≤ b.dst := by
        obtain ⟨q, row, hs, a, har, rfl⟩ := (mem_rawFsa f b).mp hb
        have h3 := hv q row hs a har
        have h4 := ht a (List.mem_flatten.mpr ⟨row, List.mem_of_getElem? hs, har⟩)
        simp only [RArc.toArc]; omega
      refine ⟨by omega, fun a ha => ?_⟩
      rcases List.mem_cons.mp ha with rfl | ha
      · omega
      · have := h4 a ha; omega
  intro a ha
  have := (key p s s hp).2 a ha
  omega

/-! ## ArcSortedAndDeterministic -/

/-- **C14.** In an FSA that has the ArcSortedAndDeterministic bit two paths from one state with the same
labels are the same path. -/
theorem deterministic_path (f : List (List (RArc W))) (hv : (flagsOf f).valid = true)
    (hd : (flagsOf f).deterministic = true) (s t u : Nat) (p q : List (Arc W))
    (hp : Path (rawFsa f).arcs s p t) (hq : Path (rawFsa f).arcs s q u) (hl : labels p = labels q) :
    p = q := by
  rw [valid_iff] at hv
  rw [deterministic_iff] at hd
  induction p generalizing s q with
  | nil =>
    cases q with
    | nil => rfl
    | cons b q => simp [labels] at hl
  | cons a p ih =>
    cases q with
    | nil => simp [labels] at hl
    | cons b q =>
      simp only [labels, List.map_cons, List.cons.injEq] at hl
      rw [path_cons] at hp hq
      obtain ⟨ha, ha1, ha2⟩ := hp
      obtain ⟨hb, hb1, hb2⟩ := hq
      have hab : a = b := by
        obtain ⟨i, r1, hi, a', ha', rfl⟩ := (mem_rawFsa f a).mp ha
        obtain ⟨j, r2, hj, b', hb', rfl⟩ := (mem_rawFsa f b).mp hb
        rw [toArc_src f hv i r1 hi a' ha'] at ha1
        rw [toArc_src f hv j r2 hj b' hb'] at hb1
        subst ha1; subst hb1
        rw [hi] at hj
        obtain rfl := Option.some.inj hj
        have hw := List.pairwise_iff_getElem.mp (hd r1 (List.mem_of_getElem? hi))
        obtain ⟨k, hk, rfl⟩ := List.getElem_of_mem ha'
        obtain ⟨m, hm, rfl⟩ := List.getElem_of_mem hb'
        have hl1 : r1[k].label = r1[m].label := hl.1
        rcases Nat.lt_trichotomy k m with h | h | h
        · have := hw k m hk hm h; rw [hl1] at this; omega
        · subst h; rfl
        · have := hw m k hm hk h; rw [hl1] at this; omega
      subst hab
      rw [ih _ q ha2 hb2 hl.2]

/-! ## MaybeAccessible, MaybeCoaccessible -/

theorem path_last (A : List (Arc W)) (s t : Nat) (p : List (Arc W)) (hp : Path A s p t) (hst : s ≠ t) :
    ∃ a ∈ A, a.dst = t ∧ a.src ≠ t := by
  induction p generalizing s with
  | nil => rw [path_nil] at hp; exact absurd hp hst
  | cons b p ih =>
    rw [path_cons] at hp
    obtain ⟨hb, h1, h2⟩ := hp
    by_cases h : b.dst = t
    · exact ⟨b, hb, h, by rw [h1]; exact hst⟩
    · exact ih _ h2 h

theorem path_first (A : List (Arc W)) (s t : Nat) (p : List (Arc W)) (hp : Path A s p t) (hst : s ≠ t) :
    ∃ a ∈ A, a.src = s ∧ a.dst ≠ s := by
  induction p generalizing s with
  | nil => rw [path_nil] at hp; exact absurd hp hst
  | cons b p ih =>
    rw [path_cons] at hp
    obtain ⟨hb, h1, h2⟩ := hp
    by_cases h : b.dst = s
    · rw [h] at h2; exact ih _ h2 hst
    · exact ⟨b, hb, h1, h⟩

/-- **C14.** The MaybeAccessible bit is set for every accessible FSA with arcs: if it is not set some
state cannot be reached. -/
theorem accessible_sound (f : List (List (RArc W))) (hv : (flagsOf f).valid = true)
    (hne : f.flatten ≠ []) (h : Accessible (rawFsa f)) : (flagsOf f).accessible = true := by
  rw [valid_iff] at hv
  rw [accessible_iff]
  refine Or.inr ⟨hne, fun s hs => ?_⟩
  by_cases h0 : s = 0
  · exact Or.inl h0
  · obtain ⟨p, hp⟩ := h s hs
    obtain ⟨b, hb, h1, h2⟩ := path_last _ _ _ _ hp (fun h => h0 h.symm)
    obtain ⟨q, row, hq, a, ha, rfl⟩ := (mem_rawFsa f b).mp hb
    have h3 := hv q row hq a ha
    simp only [RArc.toArc] at h1 h2
    exact Or.inr ⟨a, List.mem_flatten.mpr ⟨row, List.mem_of_getElem? hq, ha⟩, by omega, by omega⟩

/-- **C14.** The MaybeCoaccessible bit is set for every co-accessible FSA with arcs. -/
theorem coaccessible_sound (f : List (List (RArc W))) (hv : (flagsOf f).valid = true)
    (hne : f.flatten ≠ []) (h : Coaccessible (rawFsa f)) : (flagsOf f).coaccessible = true := by
  rw [valid_iff] at hv
  rw [coaccessible_iff]
  refine Or.inr ⟨hne, fun s row hs => ?_⟩
  by_cases h0 : s = f.length - 1
  · exact Or.inl h0
  · obtain ⟨p, hp⟩ := h s (List.getElem?_eq_some_iff.mp hs).1
    obtain ⟨b, hb, h1, h2⟩ := path_first _ _ _ _ hp h0
    obtain ⟨q, row', hq, a, ha, rfl⟩ := (mem_rawFsa f b).mp hb
    have h3 := hv q row' hq a ha
    simp only [RArc.toArc] at h1 h2
    have : q = s := by omega
    subst this
    rw [hs] at hq
    obtain rfl := Option.some.inj hq
    exact Or.inr ⟨a, ha, by omega⟩

/-- **C14/C17.** For a top-sorted FSA the MaybeAccessible bit is exact: every state can be reached. -/
theorem accessible_of_topSorted (f : List (List (RArc W))) (hv : (flagsOf f).valid = true)
    (ht : (flagsOf f).topSorted = true) (ha : (flagsOf f).accessible = true) : Accessible (rawFsa f) := by
  rw [valid_iff] at hv
  rw [topSorted_iff] at ht
  rw [accessible_iff] at ha
  intro s
  induction s using Nat.strong_induction_on with
  | _ s ih =>
    intro hs
    rcases ha with rfl | ⟨_, ha⟩
    · simp [rawFsa] at hs
    · rcases ha s hs with rfl | ⟨a, ha, h1, h2⟩
      · exact ⟨[], (path_nil _ _ _).mpr rfl⟩
      · obtain ⟨row, hr, har⟩ := List.mem_flatten.mp ha
        obtain ⟨q, hq⟩ := List.getElem?_of_mem hr
        have h3 := hv q row hq a har
        have h4 := ht a ha
        have h5 := (List.getElem?_eq_some_iff.mp hq).1
        obtain ⟨p, hp⟩ := ih q (by omega) h5
        refine ⟨p ++ [a.toArc], (path_append _ _ _ _ _).mpr ⟨q, hp, ?_⟩⟩
        rw [path_cons, path_nil]
        exact ⟨(mem_rawFsa f _).mpr ⟨q, row, hq, a, har, rfl⟩, by simp only [RArc.toArc]; omega,
          by simp only [RArc.toArc]; omega⟩

/-- **C14/C17.** For a top-sorted FSA the MaybeCoaccessible bit is exact. -/
theorem coaccessible_of_topSorted (f : List (List (RArc W))) (hv : (flagsOf f).valid = true)
    (ht : (flagsOf f).topSorted = true) (ha : (flagsOf f).coaccessible = true) :
    Coaccessible (rawFsa f) := by
  rw [valid_iff] at hv
  rw [topSorted_iff] at ht
  rw [coaccessible_iff] at ha
  have key : ∀ (n s : Nat), s < f.length → f.length - s ≤ n →
      ∃ p, Path (rawFsa f).arcs s p (f.length - 1) := by
    intro n
    induction n with
    | zero => intro s h1 h2; omega
    | succ n ih =>
      intro s h1 h2
      rcases ha with rfl | ⟨_, ha⟩
      · simp at h1
      · rcases ha s _ (List.getElem?_eq_getElem h1) with rfl | ⟨a, har, h3⟩
        · exact ⟨[], (path_nil _ _ _).mpr rfl⟩
        · have h4 := hv s _ (List.getElem?_eq_getElem h1) a har
          have h5 := ht a (List.mem_flatten.mpr ⟨_, List.getElem_mem h1, har⟩)
          obtain ⟨p, hp⟩ := ih a.dst.toNat (by omega) (by omega)
          refine ⟨a.toArc :: p, ?_⟩
          rw [path_cons]
          exact ⟨(mem_rawFsa f _).mpr ⟨s, _, List.getElem?_eq_getElem h1, a, har, rfl⟩,
            by simp only [RArc.toArc]; omega, hp⟩
  exact fun s hs => key _ s hs (Nat.le_refl _)

/-- Without the TopSorted bit the two bits together say nothing about reachability: here states 1 and 2
enter each other, cannot be reached and cannot reach the final state. -/
def islandFsa : List (List (RArc Nat)) :=
  [[⟨0, 3, -1, 0⟩], [⟨1, 2, 1, 0⟩], [⟨2, 1, 1, 0⟩], []]

/-- **C17** fails: the bits that python `connect` tests are set for an FSA that is not connected. -/
theorem maybe_bits_not_connected :
    (flagsOf islandFsa).valid = true ∧ (flagsOf islandFsa).accessible = true ∧
      (flagsOf islandFsa).coaccessible = true ∧ ¬ Accessible (rawFsa islandFsa) ∧
      ¬ Coaccessible (rawFsa islandFsa) := by
  have hA : (rawFsa islandFsa).arcs = [⟨0, 3, -1, 0⟩, ⟨1, 2, 1, 0⟩, ⟨2, 1, 1, 0⟩] := rfl
  refine ⟨by decide, by decide, by decide, ?_, ?_⟩
  · intro h
    obtain ⟨p, hp⟩ := h 1 (by decide)
    have key : ∀ (p : List (Arc Nat)) (s : Nat), s = 0 ∨ s = 3 → Path (rawFsa islandFsa).arcs s p 1 → False := by
      intro p
      induction p with
      | nil => intro s hs hp; rw [path_nil] at hp; omega
      | cons b p ih =>
        intro s hs hp
        rw [path_cons, hA] at hp
        obtain ⟨hb, h1, h2⟩ := hp
        simp only [List.mem_cons, List.not_mem_nil, or_false] at hb
        rcases hb with rfl | rfl | rfl
        · exact ih 3 (Or.inr rfl) h2
        · simp only at h1; omega
        · simp only at h1; omega
    exact key p 0 (Or.inl rfl) hp
  · intro h
    obtain ⟨p, hp⟩ := h 1 (by decide)
    have key : ∀ (p : List (Arc Nat)) (s : Nat), s = 1 ∨ s = 2 → Path (rawFsa islandFsa).arcs s p 3 → False := by
      intro p
      induction p with
      | nil => intro s hs hp; rw [path_nil] at hp; omega
      | cons b p ih =>
        intro s hs hp
        rw [path_cons, hA] at hp
        obtain ⟨hb, h1, h2⟩ := hp
        simp only [List.mem_cons, List.not_mem_nil, or_false] at hb
        rcases hb with rfl | rfl | rfl
        · simp only at h1; omega
        · exact ih 2 (Or.inr rfl) h2
        · exact ih 1 (Or.inl rfl) h2
    exact key p 1 (Or.inl rfl) hp

/-- A case that meets the hypotheses of the theorems above. -/
example : let f : List (List (RArc Nat)) := [[⟨0, 1, 2, 1⟩, ⟨0, 1, 5, 0⟩], [⟨1, 2, -1, 0⟩], []]
    (flagsOf f).valid = true ∧ (flagsOf f).acyclic = true ∧ (flagsOf f).topSorted = true ∧
      (flagsOf f).deterministic = true ∧ (flagsOf f).accessible = true ∧
      (flagsOf f).coaccessible = true ∧ f[f.length - 1]? = some [] := by decide

end Verif.Fsa
