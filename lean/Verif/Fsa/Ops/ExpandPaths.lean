import Verif.Fsa.Ops.ExpandLemmas

/-! Paths of the result of `ExpandArcs`. -/

namespace Verif.Fsa
open Verif.Util
variable {W : Type}

/-- The arc at position `q` of the chain of the `k`-th arc `a` of state `s`. -/
def entry [Zero W] (f : Fsa W) (aux : List (List Int)) (s k : Nat) (a : Arc W) (q : Nat) :
    Arc (W × Int × Int) :=
  oarc f aux (if q = 0 then origNum f aux s else midNum f aux s k (q - 1)) s k q a

/-- The whole chain. -/
def chainOf [Zero W] (f : Fsa W) (aux : List (List Int)) (s k : Nat) (a : Arc W) :
    List (Arc (W × Int × Int)) :=
  (List.range (max 1 (labelsLen f aux s k))).map (entry f aux s k a)

/-- What remains of the chain after position `q`. -/
def chainFrom [Zero W] (f : Fsa W) (aux : List (List Int)) (s k : Nat) (a : Arc W) (q : Nat) :
    List (Arc (W × Int × Int)) :=
  (List.range' (q + 1) (labelsLen f aux s k - 1 - q)).map (entry f aux s k a)

theorem chainOf_eq [Zero W] (f : Fsa W) (aux : List (List Int)) (s k : Nat) (a : Arc W) :
    chainOf f aux s k a = entry f aux s k a 0 :: chainFrom f aux s k a 0 := by
  unfold chainOf chainFrom
  obtain ⟨m, hm⟩ : ∃ m, max 1 (labelsLen f aux s k) = m + 1 :=
    ⟨max 1 (labelsLen f aux s k) - 1, by omega⟩
  rw [hm, List.range_eq_range', List.range'_succ, List.map_cons]
  congr 3
  omega

/-- After position `q` of a chain a path can only follow the chain to its end. -/
theorem path_chain [Zero W] (f : Fsa W) (aux : List (List Int)) (s k : Nat) (a : Arc W)
    (hs : s < f.numStates) (ha : (row f s)[k]? = some a) (t' : Nat) (n : Nat)
    (hend : ∀ s' k' q', s' < f.numStates → k' < (row f s').length →
      q' < labelsLen f aux s' k' - 1 → midNum f aux s' k' q' ≠ t') :
    ∀ (q : Nat) (p : List (Arc (W × Int × Int))), labelsLen f aux s k - 1 - q = n →
      (Path (expandTagged f aux).arcs (entry f aux s k a q).dst p t' ↔
        ∃ p', p = chainFrom f aux s k a q ++ p' ∧
          Path (expandTagged f aux).arcs (origNum f aux a.dst) p' t') := by
  induction n with
  | zero =>
    intro q p hn
    have hd : (entry f aux s k a q).dst = origNum f aux a.dst := by
      unfold entry oarc
      simp only
      rw [if_pos (by omega)]
    have hc : chainFrom f aux s k a q = [] := by
      unfold chainFrom; rw [hn]; rfl
    rw [hd, hc]
    simp
  | succ n ih =>
    intro q p hn
    have hk : k < (row f s).length := (List.getElem?_eq_some_iff.mp ha).1
    have hd : (entry f aux s k a q).dst = midNum f aux s k q := by
      unfold entry oarc
      simp only
      rw [if_neg (by omega)]
    have hc : chainFrom f aux s k a q = entry f aux s k a (q + 1) :: chainFrom f aux s k a (q + 1) := by
      unfold chainFrom
      rw [show labelsLen f aux s k - 1 - q = (labelsLen f aux s k - 1 - (q + 1)) + 1 by omega,
        List.range'_succ, List.map_cons]
    have he : entry f aux s k a (q + 1) = oarc f aux (midNum f aux s k q) s k (q + 1) a := by
      unfold entry
      rw [if_neg (by omega), Nat.add_sub_cancel]
    rw [hd, hc]
    constructor
    · intro hp
      cases p with
      | nil =>
        rw [path_nil] at hp
        exact absurd hp (hend s k q hs hk (by omega))
      | cons x p =>
        rw [path_cons] at hp
        obtain ⟨hx, hsrc, hp⟩ := hp
        have hx' := (expand_from_mid f aux s k q a hs ha (by omega) x).mp ⟨hx, hsrc⟩
        rw [← he] at hx'
        subst hx'
        obtain ⟨p', rfl, hp'⟩ := (ih (q + 1) p (by omega)).mp hp
        exact ⟨p', rfl, hp'⟩
    · rintro ⟨p', rfl, hp'⟩
      rw [List.cons_append, path_cons]
      obtain ⟨h1, h2⟩ := (expand_from_mid f aux s k q a hs ha (by omega) _).mpr he
      exact ⟨h1, h2, (ih (q + 1) _ (by omega)).mpr ⟨p', rfl, hp'⟩⟩

/-- A path of the input given by (source state, position within the state, arc). -/
def RPath (f : Fsa W) (s : Nat) (ip : List ((Nat × Nat) × Arc W)) (t : Nat) : Prop :=
  Chain s (ip.map Prod.snd) t ∧ ∀ x ∈ ip, x.2.src = x.1.1 ∧ (row f x.1.1)[x.1.2]? = some x.2

theorem rpath_cons (f : Fsa W) (s t : Nat) (x : (Nat × Nat) × Arc W)
    (ip : List ((Nat × Nat) × Arc W)) :
    RPath f s (x :: ip) t ↔ (x.2.src = s ∧ x.1.1 = s ∧ (row f s)[x.1.2]? = some x.2) ∧
      RPath f x.2.dst ip t := by
  simp only [RPath, List.map_cons, chain_cons, List.forall_mem_cons]
  constructor
  · rintro ⟨⟨h1, h2⟩, ⟨h3, h4⟩, h5⟩
    rw [← h3, h1] at h4
    exact ⟨⟨h1, by omega, h4⟩, h2, h5⟩
  · rintro ⟨⟨h1, h2, h3⟩, h4, h5⟩
    exact ⟨⟨h1, h4⟩, ⟨by omega, by rw [h2]; exact h3⟩, h5⟩

theorem mid_ne_orig (f : Fsa W) (aux : List (List Int)) (s k q t : Nat) (hs : s < f.numStates)
    (hk : k < (row f s).length) (hq : q < labelsLen f aux s k - 1) (ht : t < f.numStates) :
    midNum f aux s k q ≠ origNum f aux t := by
  intro h
  have h1 := ostates_mid f aux s k q hs hk hq
  rw [h, ostates_orig f aux t ht] at h1
  simp at h1

theorem row_mem (f : Fsa W) (s k : Nat) (a : Arc W) (h : (row f s)[k]? = some a) :
    a ∈ f.arcs ∧ a.src = s := by
  have := List.mem_of_getElem? h
  simpa [row] using this

theorem expand_path [Zero W] {f : Fsa W} (hf : f.Valid) (aux : List (List Int)) (t : Nat)
    (ht : t < f.numStates) (n : Nat) :
    ∀ (s : Nat) (p : List (Arc (W × Int × Int))), s < f.numStates → p.length ≤ n →
      (Path (expandTagged f aux).arcs (origNum f aux s) p (origNum f aux t) ↔
        ∃ ip, RPath f s ip t ∧ p = ip.flatMap (fun x => chainOf f aux x.1.1 x.1.2 x.2)) := by
  induction n with
  | zero =>
    intro s p hs hp
    have : p = [] := List.eq_nil_of_length_eq_zero (by omega)
    subst this
    rw [path_nil]
    constructor
    · intro h
      exact ⟨[], ⟨origNum_inj f aux s t hs ht h, by simp⟩, rfl⟩
    · rintro ⟨ip, ⟨h1, h2⟩, h3⟩
      cases ip with
      | nil => rw [List.map_nil, chain_nil] at h1; rw [h1]
      | cons x ip => rw [List.flatMap_cons, chainOf_eq] at h3; simp at h3
  | succ n ih =>
    intro s p hs hp
    cases p with
    | nil =>
      rw [path_nil]
      constructor
      · intro h
        exact ⟨[], ⟨origNum_inj f aux s t hs ht h, by simp⟩, rfl⟩
      · rintro ⟨ip, ⟨h1, h2⟩, h3⟩
        cases ip with
        | nil => rw [List.map_nil, chain_nil] at h1; rw [h1]
        | cons x ip => rw [List.flatMap_cons, chainOf_eq] at h3; simp at h3
    | cons x p =>
      have hlen : p.length ≤ n := by simp at hp; omega
      rw [path_cons]
      constructor
      · rintro ⟨hx, hsrc, hp⟩
        obtain ⟨k, a, ha, hxe⟩ := (expand_from_orig f aux s hs x).mp ⟨hx, hsrc⟩
        have he : x = entry f aux s k a 0 := by rw [hxe]; rfl
        subst he
        obtain ⟨p', rfl, hp'⟩ := (path_chain f aux s k a hs ha _ _
          (fun s' k' q' h1 h2 h3 => mid_ne_orig f aux s' k' q' t h1 h2 h3 ht) 0 p rfl).mp hp
        have hd : a.dst < f.numStates := hf.dst_lt a (row_mem f s k a ha).1
        have hl' : p'.length ≤ n := by
          rw [List.length_append] at hlen; omega
        obtain ⟨ip, hip, rfl⟩ := (ih a.dst p' hd hl').mp hp'
        refine ⟨((s, k), a) :: ip, (rpath_cons _ _ _ _ _).mpr
          ⟨⟨(row_mem f s k a ha).2, rfl, ha⟩, hip⟩, ?_⟩
        rw [List.flatMap_cons, chainOf_eq, List.cons_append]
      · rintro ⟨ip, hip, e⟩
        cases ip with
        | nil => simp at e
        | cons y ip =>
          obtain ⟨⟨s', k⟩, a⟩ := y
          rw [rpath_cons] at hip
          obtain ⟨⟨h1, h2, ha⟩, hip⟩ := hip
          simp only at h1 h2 ha hip
          subst h2
          rw [List.flatMap_cons, chainOf_eq, List.cons_append, List.cons.injEq] at e
          obtain ⟨rfl, rfl⟩ := e
          obtain ⟨hm, hsr⟩ := (expand_from_orig f aux s' hs (entry f aux s' k a 0)).mpr
            ⟨k, a, ha, rfl⟩
          refine ⟨hm, hsr, ?_⟩
          have hd : a.dst < f.numStates := hf.dst_lt a (row_mem f s' k a ha).1
          rw [path_chain f aux s' k a hs ha _ _
            (fun s'' k' q' h1 h2 h3 => mid_ne_orig f aux s'' k' q' t h1 h2 h3 ht) 0 _ rfl]
          refine ⟨_, rfl, ?_⟩
          rw [List.length_append] at hlen
          exact (ih a.dst _ hd (by omega)).mpr ⟨ip, hip, rfl⟩

end Verif.Fsa
