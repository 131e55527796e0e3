import Verif.Nbest.IntervalModel
import Verif.Nbest.Names
import Mathlib.Data.List.Pairwise

/-!
# Intervals of a table of common prefixes
-/

namespace Verif.Nbest

/-- `[a, b]` is an interval of value `l` (k2/csrc/nbest.h lines 120-131; before the first and behind the
last position the table is less than every value). -/
structure IsIv (L : Nat → Nat) (n l a b : Nat) : Prop where
  lt : a < b
  bound : b < n
  left : a = 0 ∨ L a < l
  right : b + 1 = n ∨ L (b + 1) < l
  le : ∀ k, a < k → k ≤ b → l ≤ L k
  attained : ∃ k, a < k ∧ k ≤ b ∧ L k = l

variable {L : Nat → Nat} {n : Nat}

/-- Intervals that meet are nested. -/
theorem IsIv.nested {l a b l' a' b' p : Nat} (h : IsIv L n l a b) (h' : IsIv L n l' a' b') (hp : a ≤ p ∧ p ≤ b)
    (hp' : a' ≤ p ∧ p ≤ b') (hl : l ≤ l') : a ≤ a' ∧ b' ≤ b := by
  constructor
  · by_contra hlt
    have h1 := h'.le a (by omega) (by omega)
    rcases h.left with h2 | h2 <;> omega
  · by_contra hlt
    have h1 := h'.le (b + 1) (by omega) (by omega)
    have h3 := h'.bound
    rcases h.right with h2 | h2 <;> omega

theorem IsIv.value {l l' a b : Nat} (h : IsIv L n l a b) (h' : IsIv L n l' a b) : l = l' := by
  obtain ⟨k, k1, k2, k3⟩ := h.attained
  obtain ⟨k', k1', k2', k3'⟩ := h'.attained
  have := h.le k' k1' k2'
  have := h'.le k k1 k2
  omega

/-- The position is in the interval. -/
def In (a : Nat) (f : Iv) : Prop := f.lb ≤ a ∧ a ≤ f.rb

/-- Both are the same interval. -/
def Same (f g : Iv) : Prop := f.lcp = g.lcp ∧ f.lb = g.lb ∧ f.rb = g.rb

theorem Same.in_iff {f g : Iv} (h : Same f g) (a : Nat) : In a f ↔ In a g := by
  unfold In; rw [h.2.1, h.2.2]

/-- The leaves below `m`. -/
structure LeafInv (n m : Nat) (leaves : List Nat) (T : List Iv) (lp : List Nat) : Prop where
  len : lp.length = n
  le : m ≤ n
  sorted : leaves.Pairwise (fun a b => b < a)
  mem : ∀ a, a ∈ leaves ↔ a < m ∧ ∀ t ∈ T, ¬ In a t
  par : ∀ a, a < m → a ∉ leaves → ∃ (d : Nat) (t : Iv), lp[a]? = some d ∧ T[d]? = some t ∧ In a t ∧
    ∀ (d' : Nat) t', d' < d → T[d']? = some t' → ¬ In a t'

theorem popLeaves_eq (lb d : Nat) (leaves lp : List Nat) (hs : leaves.Pairwise (fun a b => b < a))
    (hl : ∀ a ∈ leaves, a < lp.length) :
    ∃ leaves' lp', popLeaves lb d leaves lp = some (leaves', lp') ∧ lp'.length = lp.length ∧
      leaves'.Pairwise (fun a b => b < a) ∧ (∀ a, a ∈ leaves' ↔ a ∈ leaves ∧ a < lb) ∧
      (∀ a ∈ leaves, lb ≤ a → lp'[a]? = some d) ∧ ∀ a, a ∉ leaves → lp'[a]? = lp[a]? := by
  induction leaves generalizing lp with
  | nil => exact ⟨[], lp, rfl, rfl, .nil, by simp, by simp, by simp⟩
  | cons b as ih =>
    obtain ⟨hb, hs'⟩ := List.pairwise_cons.mp hs
    rw [popLeaves]
    by_cases hlb : lb ≤ b
    · rw [if_pos hlb, write_some _ _ _ (hl b List.mem_cons_self), Option.bind_some]
      obtain ⟨lv, lp', h1, h2, h3, h4, h5, h6⟩ := ih (lp.set b d) hs' (fun a ha => by
        rw [List.length_set]; exact hl a (List.mem_cons_of_mem _ ha))
      have hnb : b ∉ as := fun h => by have := hb b h; omega
      refine ⟨lv, lp', h1, by simpa using h2, h3, ?_, ?_, ?_⟩
      · intro a
        rw [h4, List.mem_cons]
        constructor
        · exact fun h => ⟨.inr h.1, h.2⟩
        · rintro ⟨rfl | h, h'⟩
          · omega
          · exact ⟨h, h'⟩
      · intro a ha hla
        rcases List.mem_cons.mp ha with rfl | ha
        · rw [h6 a hnb, List.getElem?_set_self (hl a List.mem_cons_self)]
        · exact h5 a ha hla
      · intro a ha
        rw [List.mem_cons, not_or] at ha
        rw [h6 a ha.2, List.getElem?_set_ne (Ne.symm ha.1)]
    · rw [if_neg hlb]
      refine ⟨b :: as, lp, rfl, rfl, hs, ?_, ?_, fun _ _ => rfl⟩
      · intro a
        refine ⟨fun h => ⟨h, ?_⟩, fun h => h.1⟩
        rcases List.mem_cons.mp h with rfl | h
        · omega
        · have := hb a h; omega
      · intro a ha hla
        rcases List.mem_cons.mp ha with rfl | h
        · omega
        · have := hb a h; omega

/-- Closing an interval. -/
theorem LeafInv.pop {m : Nat} {leaves lp : List Nat} {T : List Iv} (h : LeafInv n m leaves T lp) (f : Iv)
    (hf : f.rb + 1 = m) :
    ∃ leaves' lp', popLeaves f.lb T.length leaves lp = some (leaves', lp') ∧ LeafInv n m leaves' (T ++ [f]) lp' := by
  obtain ⟨lv, lp', h1, h2, h3, h4, h5, h6⟩ := popLeaves_eq f.lb T.length leaves lp h.sorted
    (fun a ha => by have := ((h.mem a).mp ha).1; have := h.le; have := h.len; omega)
  refine ⟨lv, lp', h1, by rw [h2, h.len], h.le, h3, ?_, ?_⟩
  · intro a
    rw [h4, h.mem]
    constructor
    · rintro ⟨⟨g1, g2⟩, g3⟩
      refine ⟨g1, ?_⟩
      intro t ht
      rcases List.mem_append.mp ht with ht | ht
      · exact g2 t ht
      · rw [List.mem_singleton] at ht; subst ht
        rintro ⟨g4, -⟩; omega
    · rintro ⟨g1, g2⟩
      refine ⟨⟨g1, fun t ht => g2 t (List.mem_append_left _ ht)⟩, ?_⟩
      by_contra hge
      exact g2 f (by simp) ⟨by omega, by omega⟩
  · intro a ha hna
    by_cases hin : a ∈ leaves
    · have hge : f.lb ≤ a := by
        by_contra hlt
        exact hna ((h4 a).mpr ⟨hin, by omega⟩)
      refine ⟨T.length, f, h5 a hin hge, by simp, ⟨hge, by omega⟩, ?_⟩
      intro d' t' hd' ht'
      rw [List.getElem?_append_left hd'] at ht'
      exact ((h.mem a).mp hin).2 t' (List.mem_of_getElem? ht')
    · obtain ⟨d, t, e1, e2, e3, e4⟩ := h.par a ha hin
      have hd := (List.getElem?_eq_some_iff.mp e2).1
      refine ⟨d, t, by rw [h6 a hin]; exact e1, by rw [List.getElem?_append_left hd]; exact e2, e3, ?_⟩
      intro d' t' hd' ht'
      rw [List.getElem?_append_left (by omega)] at ht'
      exact e4 d' t' hd' ht'

/-- The next leaf. -/
theorem LeafInv.push {m : Nat} {leaves lp : List Nat} {T : List Iv} (h : LeafInv n m leaves T lp) (hm : m < n)
    (hT : ∀ t ∈ T, t.rb < m) : LeafInv n (m + 1) (m :: leaves) T lp := by
  refine ⟨h.len, hm, ?_, ?_, ?_⟩
  · rw [List.pairwise_cons]
    exact ⟨fun a ha => ((h.mem a).mp ha).1, h.sorted⟩
  · intro a
    rw [List.mem_cons, h.mem]
    constructor
    · rintro (rfl | ⟨h1, h2⟩)
      · exact ⟨by omega, fun t ht hin => by have := hT t ht; have := hin.2; omega⟩
      · exact ⟨by omega, h2⟩
    · rintro ⟨h1, h2⟩
      by_cases ha : a = m
      · exact .inl ha
      · exact .inr ⟨by omega, h2⟩
  · intro a ha hna
    rw [List.mem_cons, not_or] at hna
    exact h.par a (by omega) hna.2

/-- Only the bounds of the intervals matter. -/
theorem LeafInv.same {m : Nat} {leaves lp : List Nat} {T T' : List Iv} (h : LeafInv n m leaves T lp)
    (hs : List.Forall₂ Same T' T) : LeafInv n m leaves T' lp := by
  have hlen := hs.length_eq
  have hget : ∀ (d : Nat) t, T[d]? = some t → ∃ t', T'[d]? = some t' ∧ Same t' t := by
    intro d t ht
    obtain ⟨hd, rfl⟩ := List.getElem?_eq_some_iff.mp ht
    exact ⟨T'[d], List.getElem?_eq_getElem (by omega), List.Forall₂.get hs (by omega) hd⟩
  have hget' : ∀ (d : Nat) t, T'[d]? = some t → ∃ t', T[d]? = some t' ∧ Same t t' := by
    intro d t ht
    obtain ⟨hd, rfl⟩ := List.getElem?_eq_some_iff.mp ht
    exact ⟨T[d], List.getElem?_eq_getElem (by omega), List.Forall₂.get hs hd (by omega)⟩
  refine ⟨h.len, h.le, h.sorted, ?_, ?_⟩
  · intro a
    rw [h.mem]
    refine and_congr_right (fun _ => ⟨fun g t ht hin => ?_, fun g t ht hin => ?_⟩)
    · obtain ⟨d, hd⟩ := List.mem_iff_getElem?.mp ht
      obtain ⟨t', ht', hst⟩ := hget' d t hd
      exact g t' (List.mem_of_getElem? ht') ((hst.in_iff a).mp hin)
    · obtain ⟨d, hd⟩ := List.mem_iff_getElem?.mp ht
      obtain ⟨t', ht', hst⟩ := hget d t hd
      exact g t' (List.mem_of_getElem? ht') ((hst.in_iff a).mpr hin)
  · intro a ha hna
    obtain ⟨d, t, e1, e2, e3, e4⟩ := h.par a ha hna
    obtain ⟨t', ht', hst⟩ := hget d t e2
    refine ⟨d, t', e1, ht', (hst.in_iff a).mpr e3, ?_⟩
    intro d' u hd' hu
    obtain ⟨u', hu', hst'⟩ := hget' d' u hu
    exact fun hin => e4 d' u' hd' hu' ((hst'.in_iff a).mp hin)

end Verif.Nbest
