import Verif.Fsa.Ops.ExpandModel

/-! The numbering of the states made by `ExpandArcs`. -/

namespace Verif.Fsa
open Verif.Util
variable {W : Type}

theorem fooRows_get (f : Fsa W) (aux : List (List Int)) (s : Nat) (hs : s < f.numStates) :
    (fooRows f aux)[s]? = some (fooRow f aux s) := by simp [fooRows, hs]

theorem foo_orig (f : Fsa W) (aux : List (List Int)) (s : Nat) (hs : s < f.numStates) :
    (fooRows f aux).flatten[splits (fooRows f aux) s]? = some [OState.orig s] := by
  have := flatten_get (fooRows f aux) s _ (fooRows_get f aux s hs) 0 (by simp [fooRow])
  rw [Nat.add_zero] at this
  rw [this]; rfl

theorem foo_mid (f : Fsa W) (aux : List (List Int)) (s k : Nat) (hs : s < f.numStates)
    (hk : k < (row f s).length) :
    (fooRows f aux).flatten[splits (fooRows f aux) s + (k + 1)]? =
      some ((List.range (labelsLen f aux s k - 1)).map (OState.mid s k)) := by
  have := flatten_get (fooRows f aux) s _ (fooRows_get f aux s hs) (k + 1) (by simp [fooRow]; omega)
  rw [this, fooRow, List.getElem?_cons_succ, List.getElem?_map, List.getElem?_range hk]
  rfl

theorem ostates_orig (f : Fsa W) (aux : List (List Int)) (s : Nat) (hs : s < f.numStates) :
    (ostates f aux)[origNum f aux s]? = some (OState.orig s) := by
  have := flatten_get (fooRows f aux).flatten _ _ (foo_orig f aux s hs) 0 (by simp)
  rw [Nat.add_zero] at this
  unfold ostates origNum
  rw [this]; rfl

theorem ostates_mid (f : Fsa W) (aux : List (List Int)) (s k q : Nat) (hs : s < f.numStates)
    (hk : k < (row f s).length) (hq : q < labelsLen f aux s k - 1) :
    (ostates f aux)[midNum f aux s k q]? = some (OState.mid s k q) := by
  have := flatten_get (fooRows f aux).flatten _ _ (foo_mid f aux s k hs hk) q (by simpa using hq)
  unfold ostates midNum
  rw [this, List.getElem?_map, List.getElem?_range hq]; rfl

/-- Every position holds an old state at `origNum` or a chain state at `midNum`. -/
theorem ostates_cases (f : Fsa W) (aux : List (List Int)) (pos : Nat) (o : OState)
    (h : (ostates f aux)[pos]? = some o) :
    (∃ s, s < f.numStates ∧ o = .orig s ∧ pos = origNum f aux s) ∨
    (∃ s k q, s < f.numStates ∧ k < (row f s).length ∧ q < labelsLen f aux s k - 1 ∧
      o = .mid s k q ∧ pos = midNum f aux s k q) := by
  obtain ⟨φ, r, j, hr, hj, hp⟩ := flatten_pos _ pos (List.getElem?_eq_some_iff.mp h).1
  obtain ⟨s, r', k, hr', hk, hφ⟩ := flatten_pos _ φ (List.getElem?_eq_some_iff.mp hr).1
  have hs : s < f.numStates := by
    have := (List.getElem?_eq_some_iff.mp hr').1; simpa [fooRows] using this
  rw [fooRows_get f aux s hs] at hr'
  obtain rfl := Option.some.inj hr'
  cases k with
  | zero =>
    rw [Nat.add_zero] at hφ
    subst hφ
    rw [foo_orig f aux s hs] at hr
    obtain rfl := Option.some.inj hr
    have hj0 : j = 0 := by simpa using hj
    subst hj0
    have hpos : pos = origNum f aux s := by rw [hp]; rfl
    rw [hpos, ostates_orig f aux s hs] at h
    exact Or.inl ⟨s, hs, (Option.some.inj h).symm, hpos⟩
  | succ k =>
    have hk' : k < (row f s).length := by simp [fooRow] at hk; omega
    subst hφ
    rw [foo_mid f aux s k hs hk'] at hr
    obtain rfl := Option.some.inj hr
    have hj' : j < labelsLen f aux s k - 1 := by simpa using hj
    have hpos : pos = midNum f aux s k j := by rw [hp]; rfl
    rw [hpos, ostates_mid f aux s k j hs hk' hj'] at h
    exact Or.inr ⟨s, k, j, hs, hk', hj', (Option.some.inj h).symm, hpos⟩

theorem origNum_inj (f : Fsa W) (aux : List (List Int)) (s t : Nat) (hs : s < f.numStates)
    (ht : t < f.numStates) (h : origNum f aux s = origNum f aux t) : s = t := by
  have h1 := ostates_orig f aux s hs
  have h2 := ostates_orig f aux t ht
  rw [h, h2] at h1
  simpa using h1.symm

theorem expand_mem [Zero W] (f : Fsa W) (aux : List (List Int)) (x : Arc (W × Int × Int)) :
    x ∈ (expandTagged f aux).arcs ↔
      ∃ pos o, (ostates f aux)[pos]? = some o ∧ x ∈ oarcsOf f aux pos o := by
  unfold expandTagged
  simp only [List.mem_flatten]
  constructor
  · rintro ⟨l, hl, hx⟩
    obtain ⟨pos, hpos, rfl⟩ := List.mem_mapIdx.mp hl
    exact ⟨pos, _, List.getElem?_eq_getElem hpos, hx⟩
  · rintro ⟨pos, o, ho, hx⟩
    obtain ⟨hpos, rfl⟩ := List.getElem?_eq_some_iff.mp ho
    exact ⟨_, List.mem_mapIdx.mpr ⟨pos, hpos, rfl⟩, hx⟩

theorem oarcsOf_src [Zero W] (f : Fsa W) (aux : List (List Int)) (pos : Nat) (o : OState)
    (x : Arc (W × Int × Int)) (hx : x ∈ oarcsOf f aux pos o) : x.src = pos := by
  cases o with
  | orig s =>
    obtain ⟨k, hk, rfl⟩ := List.mem_mapIdx.mp hx
    rfl
  | mid s k j =>
    obtain ⟨a, _, rfl⟩ := List.mem_map.mp hx
    rfl

/-- The arcs leaving an old state. -/
theorem expand_from_orig [Zero W] (f : Fsa W) (aux : List (List Int)) (s : Nat)
    (hs : s < f.numStates) (x : Arc (W × Int × Int)) :
    (x ∈ (expandTagged f aux).arcs ∧ x.src = origNum f aux s) ↔
      ∃ k a, (row f s)[k]? = some a ∧ x = oarc f aux (origNum f aux s) s k 0 a := by
  rw [expand_mem]
  constructor
  · rintro ⟨⟨pos, o, ho, hx⟩, hsrc⟩
    have hp := oarcsOf_src f aux pos o x hx
    rw [hsrc] at hp
    subst hp
    rw [ostates_orig f aux s hs] at ho
    obtain rfl := Option.some.inj ho
    obtain ⟨k, hk, rfl⟩ := List.mem_mapIdx.mp hx
    exact ⟨k, _, List.getElem?_eq_getElem hk, rfl⟩
  · rintro ⟨k, a, hk, rfl⟩
    refine ⟨⟨_, _, ostates_orig f aux s hs, ?_⟩, rfl⟩
    obtain ⟨hk2, rfl⟩ := List.getElem?_eq_some_iff.mp hk
    exact List.mem_mapIdx.mpr ⟨k, hk2, rfl⟩

/-- The arc leaving a chain state. -/
theorem expand_from_mid [Zero W] (f : Fsa W) (aux : List (List Int)) (s k q : Nat) (a : Arc W)
    (hs : s < f.numStates) (ha : (row f s)[k]? = some a) (hq : q < labelsLen f aux s k - 1)
    (x : Arc (W × Int × Int)) :
    (x ∈ (expandTagged f aux).arcs ∧ x.src = midNum f aux s k q) ↔
      x = oarc f aux (midNum f aux s k q) s k (q + 1) a := by
  have hk : k < (row f s).length := (List.getElem?_eq_some_iff.mp ha).1
  rw [expand_mem]
  constructor
  · rintro ⟨⟨pos, o, ho, hx⟩, hsrc⟩
    have hp := oarcsOf_src f aux pos o x hx
    rw [hsrc] at hp
    subst hp
    rw [ostates_mid f aux s k q hs hk hq] at ho
    obtain rfl := Option.some.inj ho
    simp only [oarcsOf, ha, Option.toList_some, List.map_cons, List.map_nil,
      List.mem_singleton] at hx
    exact hx
  · rintro rfl
    refine ⟨⟨_, _, ostates_mid f aux s k q hs hk hq, ?_⟩, rfl⟩
    simp only [oarcsOf, ha, Option.toList_some, List.map_cons, List.map_nil, List.mem_singleton]

/-- The final state of the result is the old final state. -/
theorem expand_final [Zero W] {f : Fsa W} (hf : f.Valid) (aux : List (List Int)) :
    (expandTagged f aux).final = origNum f aux f.final ∧
      f.numStates ≤ (expandTagged f aux).numStates := by
  have h2 := hf.two
  have hrow : row f f.final = [] := by
    unfold row
    rw [List.filter_eq_nil_iff]
    intro a ha
    have := hf.src_lt a ha
    simp; omega
  obtain ⟨n, hn⟩ : ∃ n, f.numStates = n + 1 := ⟨f.numStates - 1, by omega⟩
  have hfin : f.final = n := by simp only [Fsa.final]; omega
  rw [hfin] at hrow ⊢
  have hfl : (fooRows f aux).length = n + 1 := by simp [fooRows, hn]
  have e1 : (fooRows f aux).flatten.length = splits (fooRows f aux) n + 1 := by
    rw [← splits_length, hfl, splits_succ _ n _ (fooRows_get f aux n (by omega))]
    simp [fooRow, hrow]
  have e2 : (ostates f aux).length = origNum f aux n + 1 := by
    unfold ostates origNum
    rw [← splits_length, e1, splits_succ _ _ _ (foo_orig f aux n (by omega))]
    rfl
  constructor
  · unfold Fsa.final expandTagged
    simp only
    omega
  · -- distinct old states have distinct numbers below the length
    have hmono : ∀ s, s ≤ n → s ≤ origNum f aux s := by
      intro s hs
      induction s with
      | zero => exact Nat.zero_le _
      | succ s ih =>
        have ih := ih (by omega)
        have h1 : origNum f aux s + 1 ≤ origNum f aux (s + 1) := by
          unfold origNum
          have := splits_succ _ _ _ (foo_orig f aux s (by omega))
          simp only [List.length_cons, List.length_nil] at this
          rw [show splits (fooRows f aux).flatten (splits (fooRows f aux) s) + 1 =
            splits (fooRows f aux).flatten (splits (fooRows f aux) s + 1) by omega]
          apply splits_mono
          rw [splits_succ (fooRows f aux) s _ (fooRows_get f aux s (by omega))]
          simp [fooRow]
        omega
    have := hmono n (Nat.le_refl _)
    show f.numStates ≤ (ostates f aux).length
    omega

end Verif.Fsa
