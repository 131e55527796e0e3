import Verif.Fsa.Ops.ReverseModel
import Mathlib.Data.List.Nodup

/-! # C29: reverse accepts the reversed strings -/

namespace Verif.Fsa
variable {W : Type}

theorem revState_revState (n s : Nat) (hn : 2 ≤ n) (hs : s < n) :
    revState n (revState n s) = s := by
  unfold revState
  by_cases h0 : s = 0
  · subst h0
    rw [if_pos rfl, if_neg (by omega), if_pos rfl]
  · by_cases h1 : s = n - 1
    · rw [if_neg h0, if_pos h1, if_pos rfl]; omega
    · rw [if_neg h0, if_neg h1, if_neg h0, if_neg h1]

theorem revState_lt (n s : Nat) (hn : 2 ≤ n) (hs : s < n) : revState n s < n := by
  unfold revState
  split
  · omega
  · split <;> omega

theorem mem_incoming (f : Fsa W) (s i : Nat) :
    i ∈ incoming f s ↔ ∃ a, f.arcs[i]? = some a ∧ a.dst = s := by
  unfold incoming
  rw [List.mem_filter, List.mem_range]
  constructor
  · rintro ⟨h, h2⟩
    rw [List.getElem?_eq_getElem h] at h2
    exact ⟨_, List.getElem?_eq_getElem h, by simpa using h2⟩
  · rintro ⟨a, h, h2⟩
    refine ⟨(List.getElem?_eq_some_iff.mp h).1, ?_⟩
    rw [h]; simpa using h2

/-- Every input arc occurs exactly once in the order. -/
theorem revOrder_perm {f : Fsa W} (hf : f.Valid) :
    (revOrder f).Nodup ∧ ∀ i, i ∈ revOrder f ↔ i < f.arcs.length := by
  have h2 := hf.two
  constructor
  · unfold revOrder
    rw [List.nodup_flatMap]
    constructor
    · intro t _
      exact List.nodup_range.filter _
    · refine List.nodup_range.imp_of_mem ?_
      intro s t hs ht hne i hi hj
      rw [List.mem_range] at hs ht
      obtain ⟨a, ha, h1⟩ := (mem_incoming f _ i).mp hi
      obtain ⟨b, hb, h3⟩ := (mem_incoming f _ i).mp hj
      rw [ha] at hb
      obtain rfl := Option.some.inj hb
      have := revState_revState _ s h2 hs
      have := revState_revState _ t h2 ht
      apply hne
      rw [← revState_revState _ s h2 hs, ← revState_revState _ t h2 ht, ← h1, ← h3]
  · intro i
    unfold revOrder
    rw [List.mem_flatMap]
    constructor
    · rintro ⟨t, _, hi⟩
      obtain ⟨a, ha, _⟩ := (mem_incoming f _ i).mp hi
      exact (List.getElem?_eq_some_iff.mp ha).1
    · intro hi
      have hd := hf.dst_lt _ (List.getElem_mem hi)
      refine ⟨revState f.numStates f.arcs[i].dst,
        List.mem_range.mpr (revState_lt _ _ h2 hd), ?_⟩
      rw [mem_incoming]
      exact ⟨_, List.getElem?_eq_getElem hi, (revState_revState _ _ h2 hd).symm⟩

theorem reverse_mem [Zero W] {f : Fsa W} (hf : f.Valid) (b : Arc W) :
    b ∈ (reverse f).1.arcs ↔ (∃ a ∈ f.arcs, b = revArc f.numStates a) ∨
      b = ⟨f.numStates - 1, f.numStates, -1, 0⟩ := by
  unfold reverse
  simp only [List.mem_append, List.mem_singleton, List.mem_filterMap]
  apply or_congr_left
  constructor
  · rintro ⟨i, _, h⟩
    cases ha : f.arcs[i]? with
    | none => rw [ha] at h; simp at h
    | some a =>
      rw [ha] at h
      exact ⟨a, List.mem_of_getElem? ha, by simpa using h.symm⟩
  · rintro ⟨a, ha, rfl⟩
    obtain ⟨i, hi⟩ := List.mem_iff_getElem?.mp ha
    exact ⟨i, ((revOrder_perm hf).2 i).mpr (List.getElem?_eq_some_iff.mp hi).1, by rw [hi]; rfl⟩

/-- **C29 (arc map).** The arc map has one entry per arc, is a permutation of the input arcs
followed by `-1`, and every arc is the reversal of the input arc it is mapped to. -/
theorem reverse_arcMap [Zero W] {f : Fsa W} (hf : f.Valid) :
    (reverse f).2 = (revOrder f).map (fun (i : Nat) => (i : Int)) ++ [-1] ∧
    (reverse f).1.arcs.length = f.arcs.length + 1 ∧
    (revOrder f).Nodup ∧ (∀ i, i ∈ revOrder f ↔ i < f.arcs.length) ∧
    ∀ (k i : Nat), (revOrder f)[k]? = some i →
      ∃ a, f.arcs[i]? = some a ∧ (reverse f).1.arcs[k]? = some (revArc f.numStates a) := by
  obtain ⟨hnd, hmem⟩ := revOrder_perm hf
  have hfm : ∀ l : List Nat, (∀ i ∈ l, i < f.arcs.length) →
      (l.filterMap (fun i => (f.arcs[i]?).map (revArc f.numStates))).length = l.length ∧
      ∀ (k i : Nat), l[k]? = some i → ∃ a, f.arcs[i]? = some a ∧
        (l.filterMap (fun i => (f.arcs[i]?).map (revArc f.numStates)))[k]? =
          some (revArc f.numStates a) := by
    intro l
    induction l with
    | nil => intro _; exact ⟨rfl, fun k i h => by simp at h⟩
    | cons j l ih =>
      intro hl
      obtain ⟨h1, h2⟩ := ih (fun i hi => hl i (by simp [hi]))
      have hj := hl j (by simp)
      have hja : f.arcs[j]? = some f.arcs[j] := List.getElem?_eq_getElem hj
      rw [List.filterMap_cons_some (b := revArc f.numStates f.arcs[j]) (by rw [hja]; rfl)]
      refine ⟨by simp [h1], ?_⟩
      intro k i hk
      cases k with
      | zero =>
        simp only [List.getElem?_cons_zero, Option.some.injEq] at hk
        subst hk
        exact ⟨_, hja, rfl⟩
      | succ k =>
        rw [List.getElem?_cons_succ] at hk ⊢
        exact h2 k i hk
  obtain ⟨h1, h2⟩ := hfm (revOrder f) (fun i hi => (hmem i).mp hi)
  have hlen : (revOrder f).length = f.arcs.length := by
    have hp : (revOrder f).Perm (List.range f.arcs.length) := by
      rw [List.perm_ext_iff_of_nodup hnd List.nodup_range]
      intro i; rw [hmem, List.mem_range]
    simpa using hp.length_eq
  refine ⟨rfl, ?_, hnd, hmem, ?_⟩
  · unfold reverse
    simp only [List.length_append, h1, hlen, List.length_singleton]
  · intro k i hk
    obtain ⟨a, ha, hb⟩ := h2 k i hk
    refine ⟨a, ha, ?_⟩
    unfold reverse
    simp only
    rw [List.getElem?_append_left (by rw [h1]; exact (List.getElem?_eq_some_iff.mp hk).1), hb]

theorem reverse_path [Zero W] {f : Fsa W} (hf : f.Valid) (q : List (Arc W)) (s t : Nat)
    (hq : Path f.arcs s q t) :
    Path (reverse f).1.arcs (revState f.numStates t) (q.map (revArc f.numStates)).reverse
      (revState f.numStates s) := by
  induction q generalizing s with
  | nil => rw [path_nil] at hq; subst hq; exact (path_nil _ _ _).mpr rfl
  | cons a q ih =>
    rw [path_cons] at hq
    obtain ⟨ha, rfl, hq⟩ := hq
    rw [List.map_cons, List.reverse_cons]
    refine (path_append _ _ _ _ _).mpr ⟨_, ih _ hq, (path_cons _ _ _ _ _).mpr ⟨?_, rfl, ?_⟩⟩
    · exact (reverse_mem hf _).mpr (Or.inl ⟨a, ha, rfl⟩)
    · exact (path_nil _ _ _).mpr rfl

/-- Paths of the reversed FSA that do not end in the new final state. -/
theorem reverse_path_inv [Zero W] {f : Fsa W} (hf : f.Valid) (p : List (Arc W)) (s t : Nat)
    (hs : s < f.numStates) (ht : t < f.numStates) (hp : Path (reverse f).1.arcs s p t) :
    ∃ q, Path f.arcs (revState f.numStates t) q (revState f.numStates s) ∧
      p = (q.map (revArc f.numStates)).reverse := by
  have h2 := hf.two
  induction p generalizing s with
  | nil =>
    rw [path_nil] at hp; subst hp
    exact ⟨[], (path_nil _ _ _).mpr rfl, rfl⟩
  | cons b p ih =>
    rw [path_cons] at hp
    obtain ⟨hb, hsrc, hp⟩ := hp
    rcases (reverse_mem hf b).mp hb with ⟨a, ha, rfl⟩ | rfl
    · have hlt : a.src < f.numStates := by
        have := hf.src_lt a ha; simp only [Fsa.final] at this; omega
      obtain ⟨q, hq, rfl⟩ := ih _ (revState_lt _ _ h2 hlt) hp
      simp only [revArc] at hq hsrc
      rw [revState_revState _ _ h2 hlt] at hq
      refine ⟨q ++ [a], ?_, by simp⟩
      refine (path_append _ _ _ _ _).mpr ⟨_, hq, (path_cons _ _ _ _ _).mpr ⟨ha, rfl, ?_⟩⟩
      rw [path_nil, ← hsrc, revState_revState _ _ h2 (hf.dst_lt a ha)]
    · exfalso
      simp only at hp
      cases p with
      | nil => rw [path_nil] at hp; omega
      | cons c p =>
        rw [path_cons] at hp
        obtain ⟨hc, hcs, _⟩ := hp
        rcases (reverse_mem hf c).mp hc with ⟨a, ha, rfl⟩ | rfl
        · have := revState_lt _ _ h2 (hf.dst_lt a ha)
          simp only [revArc] at hcs; omega
        · simp only at hcs; omega

/-- **C29 (paths).** The accepting paths of the result are the reversed accepting paths of the
input, each followed by the new final arc. -/
theorem reverse_paths [Zero W] {f : Fsa W} (hf : f.Valid) (p : List (Arc W)) :
    Accepting (reverse f).1 p ↔ ∃ q, Accepting f q ∧
      p = (q.map (revArc f.numStates)).reverse ++ [⟨f.numStates - 1, f.numStates, -1, 0⟩] := by
  have h2 := hf.two
  have r0 : revState f.numStates 0 = f.numStates - 1 := by simp [revState]
  have rf : revState f.numStates f.final = 0 := by
    unfold revState Fsa.final
    rw [if_neg (by omega), if_pos rfl]
  have rn : revState f.numStates (f.numStates - 1) = 0 := rf
  have hgf : (reverse f).1.final = f.numStates := by
    unfold Fsa.final reverse; simp
  constructor
  · rintro ⟨_, hp⟩
    rw [hgf] at hp
    rcases List.eq_nil_or_concat p with rfl | ⟨p', b, rfl⟩
    · rw [path_nil] at hp; omega
    · rw [List.concat_eq_append] at hp ⊢
      obtain ⟨m, hp', hb⟩ := (path_append _ _ _ _ _).mp hp
      rw [path_cons, path_nil] at hb
      obtain ⟨hb, rfl, hbd⟩ := hb
      rcases (reverse_mem hf b).mp hb with ⟨a, ha, rfl⟩ | rfl
      · exfalso
        have hlt : a.src < f.numStates := by
          have := hf.src_lt a ha; simp only [Fsa.final] at this; omega
        have := revState_lt _ _ h2 hlt
        simp only [revArc] at hbd; omega
      · simp only at hp'
        obtain ⟨q, hq, rfl⟩ := reverse_path_inv hf p' 0 (f.numStates - 1) (by omega) (by omega) hp'
        rw [rn, r0] at hq
        exact ⟨q, ⟨h2, hq⟩, rfl⟩
  · rintro ⟨q, ⟨_, hq⟩, rfl⟩
    refine ⟨by unfold reverse; simp; omega, ?_⟩
    rw [hgf]
    have := reverse_path hf q 0 f.final hq
    rw [rf, r0] at this
    refine (path_append _ _ _ _ _).mpr ⟨_, this, (path_cons _ _ _ _ _).mpr ⟨?_, rfl, ?_⟩⟩
    · exact (reverse_mem hf _).mpr (Or.inr rfl)
    · exact (path_nil _ _ _).mpr rfl

theorem strip_revArc (n : Nat) (q : List (Arc W)) :
    strip (labels (q.map (revArc n))) = strip (labels q) := by
  induction q with
  | nil => rfl
  | cons a q ih =>
    rw [List.map_cons, labels_cons, labels_cons]
    simp only [strip, List.filter_cons] at ih ⊢
    rw [ih]
    by_cases hc : a.label = -1
    · simp [revArc, hc]
    · simp [revArc, hc]

/-- **C29 (language).** `reverse f` accepts a string with a score exactly if `f` accepts the
reversed string with that score. -/
theorem reverse_accepts [AddCommMonoid W] {f : Fsa W} (hf : f.Valid) (s : List Int) (w : W) :
    Accepts (reverse f).1 s w ↔ Accepts f s.reverse w := by
  have key : ∀ q : List (Arc W),
      strip (labels ((q.map (revArc f.numStates)).reverse ++
        [(⟨f.numStates - 1, f.numStates, -1, 0⟩ : Arc W)])) = (strip (labels q)).reverse ∧
      score ((q.map (revArc f.numStates)).reverse ++
        [(⟨f.numStates - 1, f.numStates, -1, 0⟩ : Arc W)]) = score q := by
    intro q
    constructor
    · rw [labels_append, strip_append, ← strip_revArc f.numStates q]
      simp only [labels, List.map_reverse]
      simp [strip, List.filter_reverse]
    · rw [score_append]
      have : score (q.map (revArc f.numStates)).reverse = score (q.map (revArc f.numStates)) := by
        simp only [score, List.map_reverse, List.sum_reverse]
      rw [this, score_map (revArc f.numStates) q (fun _ _ => rfl)]
      simp
  constructor
  · rintro ⟨p, hp, rfl, rfl⟩
    obtain ⟨q, hq, rfl⟩ := (reverse_paths hf p).mp hp
    exact ⟨q, hq, by rw [(key q).1, List.reverse_reverse], (key q).2.symm⟩
  · rintro ⟨q, hq, hl, rfl⟩
    exact ⟨_, (reverse_paths hf _).mpr ⟨q, hq, rfl⟩, by rw [(key q).1, hl, List.reverse_reverse],
      (key q).2⟩

theorem filterMap_src_sorted (f : Fsa W) (n : Nat) : ∀ m, m ≤ n → n = f.numStates → 2 ≤ n →
    (((List.range m).flatMap (fun t => incoming f (revState n t))).filterMap
      (fun i => (f.arcs[i]?).map (revArc n))).Pairwise (fun a b => a.src ≤ b.src) ∧
    ∀ b ∈ (((List.range m).flatMap (fun t => incoming f (revState n t))).filterMap
      (fun i => (f.arcs[i]?).map (revArc n))), b.src < m := by
  intro m hm hn h2
  have hrow : ∀ t, t < n → ∀ b ∈ (incoming f (revState n t)).filterMap
      (fun i => (f.arcs[i]?).map (revArc n)), b.src = t := by
    intro t ht b hb
    obtain ⟨i, hi, hb⟩ := List.mem_filterMap.mp hb
    obtain ⟨a, ha, hd⟩ := (mem_incoming f _ i).mp hi
    rw [ha] at hb
    simp only [Option.map_some, Option.some.injEq] at hb
    subst hb
    simp only [revArc, hd, revState_revState n t h2 ht]
  induction m with
  | zero => simp
  | succ m ih =>
    obtain ⟨h3, h4⟩ := ih (by omega)
    rw [List.range_succ, List.flatMap_append, List.filterMap_append]
    simp only [List.flatMap_cons, List.flatMap_nil, List.append_nil]
    constructor
    · rw [List.pairwise_append]
      refine ⟨h3, ?_, ?_⟩
      · rw [List.pairwise_iff_forall_sublist]
        intro a b hab
        rw [hrow m (by omega) a (hab.subset (by simp)), hrow m (by omega) b (hab.subset (by simp))]
        exact Nat.le_refl _
      · intro a ha b hb
        have := h4 a ha
        rw [hrow m (by omega) b hb]; omega
    · intro b hb
      rcases List.mem_append.mp hb with hb | hb
      · have := h4 b hb; omega
      · rw [hrow m (by omega) b hb]; omega

/-- The reversal of a valid FSA is valid. -/
theorem reverse_valid [Zero W] {f : Fsa W} (hf : f.Valid) : (reverse f).1.Valid := by
  have h2 := hf.two
  have hn : (reverse f).1.numStates = f.numStates + 1 := rfl
  have hgf : (reverse f).1.final = f.numStates := by unfold Fsa.final reverse; simp
  have hsrc : ∀ a ∈ f.arcs, a.src < f.numStates := fun a ha => by
    have := hf.src_lt a ha; simp only [Fsa.final] at this; omega
  refine ⟨by omega, ?_, ?_, ?_, ?_⟩
  · unfold Fsa.Sorted reverse
    simp only
    obtain ⟨h3, h4⟩ := filterMap_src_sorted f f.numStates f.numStates (Nat.le_refl _) rfl h2
    rw [List.pairwise_append]
    refine ⟨h3, by simp, ?_⟩
    intro a ha b hb
    have := h4 a ha
    simp only [List.mem_singleton] at hb
    subst hb
    simp only; omega
  · intro b hb
    rw [hgf]
    rcases (reverse_mem hf b).mp hb with ⟨a, ha, rfl⟩ | rfl
    · exact revState_lt _ _ h2 (hf.dst_lt a ha)
    · simp only; omega
  · intro b hb
    rw [hn]
    rcases (reverse_mem hf b).mp hb with ⟨a, ha, rfl⟩ | rfl
    · have := revState_lt _ _ h2 (hsrc a ha)
      simp only [revArc]; omega
    · simp
  · intro b hb
    rw [hgf]
    rcases (reverse_mem hf b).mp hb with ⟨a, ha, rfl⟩ | rfl
    · have := revState_lt _ _ h2 (hsrc a ha)
      simp only [revArc]
      by_cases hc : a.label = -1
      · rw [if_pos hc]; constructor <;> intro h <;> omega
      · rw [if_neg hc]; constructor <;> intro h <;> omega
    · simp

/-- A concrete reversal. -/
example : reverse (⟨3, [⟨0, 1, 7, (1 : Int)⟩, ⟨0, 2, -1, 2⟩, ⟨1, 1, 8, 4⟩, ⟨1, 2, -1, 3⟩]⟩ : Fsa Int) =
    (⟨4, [⟨0, 2, 0, 2⟩, ⟨0, 1, 0, 3⟩, ⟨1, 2, 7, 1⟩, ⟨1, 1, 8, 4⟩, ⟨2, 3, -1, 0⟩]⟩,
      [1, 3, 0, 2, -1]) := by decide +kernel

end Verif.Fsa
