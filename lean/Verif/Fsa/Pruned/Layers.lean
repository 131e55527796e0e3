import Verif.Fsa.Pruned.Rounds
import Verif.Fsa.Dense.LatticeProps

/-!
# FSAs whose states are arranged in layers

Layer `t` has the states `M t`; they are numbered layer by layer.
-/

set_option linter.unusedSectionVars false

namespace Verif.Fsa.Dp
open Verif.Ragged Verif.Util Verif.Fsa.Dn

/-- The number of states before layer `t`. -/
def off (M : Nat → List Nat) (t : Nat) : Nat := ((List.range t).map (fun s => (M s).length)).sum

/-- The number of state `q` of layer `t`. -/
def num (M : Nat → List Nat) (t q : Nat) : Nat := off M t + (M t).idxOf q

theorem off_succ (M : Nat → List Nat) (t : Nat) : off M (t + 1) = off M t + (M t).length := by
  simp [off, List.range_succ]

theorem off_congr (M M' : Nat → List Nat) (t : Nat) (h : ∀ s < t, M s = M' s) : off M t = off M' t := by
  unfold off
  congr 1
  apply List.map_congr_left
  intro s hs
  rw [h s (List.mem_range.mp hs)]

section
variable {X : Type} (M : Nat → List Nat) (n : Nat) (E : Nat → Nat → List X)

/-- The rows of the layers 0 to `n`. -/
def layRows : List (List X) := ((List.range (n + 1)).map (fun t => (M t).map (E t))).flatten

theorem splits_lay (N t : Nat) (h : t ≤ N) : splits ((List.range N).map (fun t => (M t).map (E t))) t = off M t := by
  unfold splits off
  rw [← List.map_take, List.take_range, Nat.min_eq_left h, List.map_map]
  congr 1
  apply List.map_congr_left
  intro s _
  simp

theorem layRows_get (t q : Nat) (ht : t ≤ n) (hq : q ∈ M t) : (layRows M n E)[num M t q]? = some (E t q) := by
  have h0 := List.idxOf_lt_length_of_mem hq
  have h1 := flatten_get ((List.range (n + 1)).map (fun t => (M t).map (E t))) t ((M t).map (E t))
    (map_range_get _ _ _ (by omega)) ((M t).idxOf q) (by simpa using h0)
  rw [splits_lay M E (n + 1) t (by omega)] at h1
  rw [layRows, num, h1, List.getElem?_map, List.getElem?_eq_getElem h0, List.getElem_idxOf h0]
  rfl

theorem layRows_length : (layRows M n E).length = off M (n + 1) := by
  rw [layRows, List.length_flatten, off, List.map_map]
  congr 1
  apply List.map_congr_left
  intro t _
  simp

theorem num_lt (t q : Nat) (ht : t ≤ n) (hq : q ∈ M t) : num M t q < (layRows M n E).length :=
  (List.getElem?_eq_some_iff.mp (layRows_get M n E t q ht hq)).1

variable (hM : ∀ t, (M t).Nodup)
include hM

theorem num_surj (x : Nat) (hx : x < (layRows M n E).length) :
    ∃ t q, t ≤ n ∧ q ∈ M t ∧ x = num M t q := by
  unfold layRows at hx
  obtain ⟨t, r, k, hr, hk, rfl⟩ := flatten_pos _ x hx
  have ht : t < n + 1 := by
    have := (List.getElem?_eq_some_iff.mp hr).1
    simpa using this
  rw [map_range_get _ _ _ ht] at hr
  obtain rfl := Option.some.inj hr
  rw [List.length_map] at hk
  refine ⟨t, (M t)[k], by omega, List.getElem_mem _, ?_⟩
  rw [num, List.Nodup.idxOf_getElem (hM t), splits_lay M E (n + 1) t (by omega)]

omit hM in
theorem num_inj (t q t' q' : Nat) (hq : q ∈ M t) (hq' : q' ∈ M t') (h : num M t q = num M t' q') :
    t = t' ∧ q = q' := by
  have e := fun N s (h : s ≤ N) => splits_lay M (fun _ q => [q]) N s h
  obtain ⟨rfl, h2⟩ := flatten_pos_unique ((List.range (max t t' + 1)).map (fun t => (M t).map (fun q => [q])))
    (map_range_get _ _ t (by omega)) (map_range_get _ _ t' (by omega))
    (k := (M t).idxOf q) (k' := (M t').idxOf q')
    (by simpa using List.idxOf_lt_length_of_mem hq) (by simpa using List.idxOf_lt_length_of_mem hq')
    (by rw [e _ _ (by omega), e _ _ (by omega)]; exact h)
  refine ⟨rfl, ?_⟩
  have h3 := List.getElem_idxOf (List.idxOf_lt_length_of_mem hq)
  have h4 := List.getElem_idxOf (List.idxOf_lt_length_of_mem hq')
  rw [← h3, ← h4]; congr 1

omit hM in
theorem num_mono (t q q' : Nat) (hq : q ∈ M t) : num M t q < num M (t + 1) q' := by
  have h2 := List.idxOf_lt_length_of_mem hq
  have := off_succ M t
  unfold num; omega

/-- Where an entry is. -/
theorem lay_arc (i : Nat) (y : X) (hy : (layRows M n E).flatten[i]? = some y) :
    ∃ t q k, t ≤ n ∧ q ∈ M t ∧ (E t q)[k]? = some y ∧ i = splits (layRows M n E) (num M t q) + k := by
  have hi := (List.getElem?_eq_some_iff.mp hy).1
  obtain ⟨g, row, k, hr, hk, rfl⟩ := flatten_pos _ i hi
  rw [flatten_get _ g row hr k hk] at hy
  obtain ⟨t, q, ht, hq, rfl⟩ := num_surj M n E hM g (List.getElem?_eq_some_iff.mp hr).1
  rw [layRows_get M n E t q ht hq] at hr
  obtain rfl := Option.some.inj hr
  exact ⟨t, q, k, ht, hq, hy, rfl⟩

omit hM in
theorem lay_arc_mem (t q k : Nat) (y : X) (ht : t ≤ n) (hq : q ∈ M t) (hy : (E t q)[k]? = some y) :
    (layRows M n E).flatten[splits (layRows M n E) (num M t q) + k]? = some y := by
  rw [flatten_get _ _ _ (layRows_get M n E t q ht hq) k (List.getElem?_eq_some_iff.mp hy).1, hy]

end

theorem zipIdx_nodup (L : List Nat) (h : L.Nodup) : L.zipIdx = L.map (fun q => (q, L.idxOf q)) := by
  apply List.ext_getElem?
  intro i
  rw [List.getElem?_zipIdx, List.getElem?_map]
  by_cases hi : i < L.length
  · rw [List.getElem?_eq_getElem hi]
    simp [h.idxOf_getElem]
  · rw [List.getElem?_eq_none (by omega)]; rfl

end Verif.Fsa.Dp
