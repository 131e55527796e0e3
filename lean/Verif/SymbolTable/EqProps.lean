import Verif.SymbolTable.Props
import Mathlib.Data.List.Nodup
import Mathlib.Data.List.Perm.Subperm

/-!
# Equality of symbol tables, and the order of the printed lines
-/

namespace Verif.SymbolTable
open Verif.Text
section
variable {σ : Type} [DecidableEq σ]

/-- In a well-formed table both dictionaries have the same number of entries. -/
theorem lengths_eq (t : SymTab σ) (h : WF t) : t.sym2id.length = t.id2sym.length := by
  have hp : (t.sym2id.map (fun e => (e.2, e.1))).Perm t.id2sym := by
    apply (List.perm_ext_iff_of_nodup ?_ ?_).mpr
    · rintro ⟨i, s⟩
      have h1 := Dict.get?_iff_mem h.nodup_ids (k := i) (v := s)
      have h2 := Dict.get?_iff_mem h.nodup_syms (k := s) (v := i)
      have h3 : Dict.get? t.id2sym i = some s ↔ Dict.get? t.sym2id s = some i := h.bij i s
      rw [← h1, h3, h2, List.mem_map]
      constructor
      · rintro ⟨⟨x, y⟩, hm, he⟩
        simp only [Prod.mk.injEq] at he
        obtain ⟨rfl, rfl⟩ := he
        exact hm
      · intro hm; exact ⟨(s, i), hm, rfl⟩
    · have : t.sym2id.Nodup := List.Nodup.of_map Prod.fst h.nodup_syms
      refine List.Nodup.map ?_ this
      rintro ⟨a, b⟩ ⟨c, d⟩ he
      simp only [Prod.mk.injEq] at he ⊢
      exact ⟨he.2, he.1⟩
    · exact List.Nodup.of_map Prod.fst h.nodup_ids
  have := hp.length_eq
  simpa using this

theorem eqLoop_true (a b : SymTab σ) (l : List σ) (h : eqLoop a b l = .ok true) :
    ∀ s ∈ l, ∃ i, getSym a s = some i ∧ getSym b s = some i := by
  induction l with
  | nil => simp
  | cons s l ih =>
    intro s' hs'
    rw [eqLoop] at h
    cases h1 : getSym a s with
    | none => simp [h1] at h
    | some i =>
      cases h2 : getSym b s with
      | none => simp [h1, h2] at h
      | some j =>
        simp only [h1, h2] at h
        split at h
        · simp at h
        · next hij =>
          obtain rfl : i = j := by simpa using hij
          rcases List.mem_cons.mp hs' with rfl | hs'
          · exact ⟨i, h1, h2⟩
          · exact ih h s' hs'

/-- `a == b` returns True exactly if the two tables map the same symbols to the same ids. -/
theorem pyEq_true_iff (a b : SymTab σ) (ha : WF a) (hb : WF b) :
    pyEq a b = .ok true ↔ ∀ s, getSym a s = getSym b s := by
  constructor
  · intro h
    unfold pyEq at h
    split at h
    · simp at h
    · next hl =>
      have hl : a.id2sym.length = b.id2sym.length := by simpa using hl
      have hk := eqLoop_true a b _ h
      have hsub : Dict.keys a.sym2id ⊆ Dict.keys b.sym2id := by
        intro s hs
        obtain ⟨i, _, h2⟩ := hk s hs
        exact Dict.mem_keys_iff.mpr (by rw [show Dict.get? b.sym2id s = some i from h2]; rfl)
      have hp : (Dict.keys a.sym2id).Perm (Dict.keys b.sym2id) := by
        apply List.Subperm.perm_of_length_le (List.subperm_of_subset ha.nodup_syms hsub)
        simp only [Dict.keys, List.length_map, lengths_eq a ha, lengths_eq b hb, hl, Nat.le_refl]
      intro s
      by_cases hs : s ∈ Dict.keys a.sym2id
      · obtain ⟨i, h1, h2⟩ := hk s hs
        rw [h1, h2]
      · have hs' : s ∉ Dict.keys b.sym2id := fun h => hs (hp.mem_iff.mpr h)
        rw [Dict.mem_keys_iff] at hs hs'
        have e1 : Dict.get? a.sym2id s = none := by simpa using hs
        have e2 : Dict.get? b.sym2id s = none := by simpa using hs'
        exact e1.trans e2.symm
  · intro h
    refine pyEq_of_same a b ?_ h
    rw [← lengths_eq a ha, ← lengths_eq b hb]
    have hp : (Dict.keys a.sym2id).Perm (Dict.keys b.sym2id) := by
      apply (List.perm_ext_iff_of_nodup ha.nodup_syms hb.nodup_syms).mpr
      intro s
      rw [Dict.mem_keys_iff, Dict.mem_keys_iff,
        show Dict.get? a.sym2id s = Dict.get? b.sym2id s from h s]
    have := hp.length_eq
    simpa [Dict.keys] using this

/-- For tables of the same size, `a == b` raises KeyError or returns False if they differ. -/
theorem pyEq_differs (a b : SymTab σ) (ha : WF a) (hb : WF b) (s : σ) (h : getSym a s ≠ getSym b s) :
    pyEq a b = .ok false ∨ pyEq a b = .error .key := by
  have h1 : pyEq a b ≠ .ok true := fun e => h ((pyEq_true_iff a b ha hb).mp e s)
  unfold pyEq at h1 ⊢
  split
  · exact Or.inl rfl
  · next hl =>
    rw [if_neg hl] at h1
    generalize Dict.keys a.sym2id = l at h1
    induction l with
    | nil => exact absurd rfl h1
    | cons x l ih =>
      rw [eqLoop] at h1 ⊢
      cases ga : getSym a x with
      | none => simp
      | some i =>
        cases gb : getSym b x with
        | none => simp
        | some j =>
          simp only [ga, gb] at h1 ⊢
          split
          · exact Or.inl rfl
          · next hij =>
            rw [if_neg hij] at h1
            exact ih h1

end

theorem insertSorted_sorted (e : Int × Str) (l : List (Int × Str)) (h : l.Pairwise (fun x y => x.1 ≤ y.1)) :
    (insertSorted e l).Pairwise (fun x y => x.1 ≤ y.1) := by
  induction l with
  | nil => simp [insertSorted]
  | cons f l ih =>
    rw [List.pairwise_cons] at h
    rw [insertSorted]
    split
    · next he =>
      rw [List.pairwise_cons, List.pairwise_cons]
      refine ⟨fun x hx => ?_, h⟩
      rcases List.mem_cons.mp hx with rfl | hx
      · exact he
      · have := h.1 x hx; omega
    · next he =>
      rw [List.pairwise_cons]
      refine ⟨fun x hx => ?_, ih h.2⟩
      rcases List.mem_cons.mp ((insertSorted_perm e l).mem_iff.mp hx) with rfl | hx
      · omega
      · exact h.1 x hx

/-- The printed form has one line per entry, in increasing order of the ids. -/
theorem toStr_sorted (t : SymTab Str) (h : WF t) :
    ∃ l : List (Int × Str), toStr t = l.flatMap line ∧ l.Pairwise (fun x y => x.1 < y.1) ∧
      ∀ i s, (i, s) ∈ l ↔ getId t i = some s := by
  have hperm := sortItems_perm t.id2sym
  refine ⟨sortItems t.id2sym, rfl, ?_, ?_⟩
  · have hs : (sortItems t.id2sym).Pairwise (fun x y => x.1 ≤ y.1) := by
      have key : ∀ d : Dict Int Str, (sortItems d).Pairwise (fun x y => x.1 ≤ y.1) := by
        intro d
        induction d with
        | nil => exact List.Pairwise.nil
        | cons e d ih => exact insertSorted_sorted e _ ih
      exact key _
    have hn : (sortItems t.id2sym).Pairwise (fun x y => x.1 ≠ y.1) := by
      have h1 : ((sortItems t.id2sym).map Prod.fst).Nodup :=
        ((hperm.map Prod.fst).nodup_iff).mpr h.nodup_ids
      exact List.pairwise_map.mp h1
    refine (hs.and hn).imp ?_
    intro x y hxy; have := hxy.1; have := hxy.2; omega
  · intro i s
    rw [hperm.mem_iff, ← Dict.get?_iff_mem h.nodup_ids]
    rfl

/-- Two well-formed tables of the same size for which `==` raises KeyError. -/
theorem pyEq_keyError : ∃ a b : SymTab Str, WF a ∧ WF b ∧ pyEq a b = .error .key := by
  obtain ⟨e, he, hw, _⟩ := empty_wf epsStr
  refine ⟨(add e ['a'] none).1, (add e ['b'] none).1, add_wf e hw _ _, add_wf e hw _ _, ?_⟩
  have : e = ⟨[(0, epsStr)], [(epsStr, 0)], 1, epsStr⟩ := by
    have h2 : (empty epsStr : Except Err (SymTab Str)) = .ok ⟨[(0, epsStr)], [(epsStr, 0)], 1, epsStr⟩ := by
      decide +kernel
    rw [h2] at he
    exact (Except.ok.inj he).symm
  subst this
  decide +kernel

end Verif.SymbolTable
