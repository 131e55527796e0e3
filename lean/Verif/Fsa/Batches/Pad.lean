import Verif.Fsa.Batches.Lemmas

/-!
# What `MakeTransposable` computes
-/

namespace Verif.Fsa.Bat
open Verif.Ragged Verif.Util
variable {X α : Type}

/-- The rows made equally long with empty lists. -/
def padRows (m : Nat) (T : List (List (List X))) : List (List (List X)) :=
  T.map (fun row => row ++ List.replicate (m - row.length) [])

/-- The length of the longest row. -/
def longest (T : List (List X)) : Nat := (T.map List.length).foldr max 0

theorem le_foldr_max (l : List Nat) (x : Nat) (h : x ∈ l) : x ≤ l.foldr max 0 := by
  induction l with
  | nil => simp at h
  | cons y l ih =>
    simp only [List.foldr_cons]
    rcases List.mem_cons.mp h with rfl | h
    · exact Nat.le_max_left _ _
    · exact le_trans (ih h) (Nat.le_max_right _ _)

theorem le_longest (T : List (List X)) (row : List X) (h : row ∈ T) : row.length ≤ longest T :=
  le_foldr_max _ _ (List.mem_map.mpr ⟨row, h, rfl⟩)

theorem padRows_regular (m : Nat) (T : List (List (List X))) (h : ∀ row ∈ T, row.length ≤ m) :
    Regular (padRows m T) m := by
  intro row hrow
  obtain ⟨r, hr, rfl⟩ := List.mem_map.mp hrow
  have := h r hr
  simp; omega

theorem sum_take (L : List (List X)) (i : Nat) : ((L.map List.length).take i).sum = (L.take i).flatten.length := by
  rw [List.length_flatten, List.map_take]

theorem take_flatten_at (T : List (List X)) (r k : Nat) (row : List X) (hr : T[r]? = some row)
    (hk : k ≤ row.length) : T.flatten.take (((T.map List.length).take r).sum + k) =
      (T.take r).flatten ++ row.take k := by
  induction T generalizing r with
  | nil => simp at hr
  | cons x T ih =>
    cases r with
    | zero =>
      simp only [List.getElem?_cons_zero, Option.some.injEq] at hr
      subst hr
      simp only [List.take_zero, List.sum_nil, Nat.zero_add, List.flatten_nil, List.nil_append,
        List.flatten_cons]
      rw [List.take_append_of_le_length hk]
    | succ r =>
      have := ih r (by simpa using hr)
      simp only [List.map_cons, List.take_succ_cons, List.sum_cons, List.flatten_cons, List.append_assoc]
      rw [Nat.add_assoc, List.take_length_add_append, this]

theorem padRows_flatten (m : Nat) (T : List (List (List X))) :
    (padRows m T).flatten.flatten = T.flatten.flatten := by
  induction T with
  | nil => rfl
  | cons x T ih =>
    have : padRows m (x :: T) = (x ++ List.replicate (m - x.length) []) :: padRows m T := rfl
    rw [this]
    simp only [List.flatten_cons, List.flatten_append, ih]
    congr 1
    simp

theorem Regular.take_sum {m : Nat} {T : List (List X)} (h : Regular T m) (r : Nat) (hr : r ≤ T.length) :
    ((T.map List.length).take r).sum = r * m := by
  rw [h.sizes, List.take_replicate, List.sum_replicate, Nat.min_eq_left hr]; rfl

/-- The number of elements before row `k` of `r` does not change. -/
theorem padRows_before (m : Nat) (T : List (List (List X))) (h : ∀ row ∈ T, row.length ≤ m) (r k : Nat)
    (row : List (List X)) (hr : T[r]? = some row) (hk : k ≤ m) :
    (((padRows m T).flatten.map List.length).take (r * m + k)).sum =
      ((T.flatten.map List.length).take (((T.map List.length).take r).sum + min k row.length)).sum := by
  have hrl := (List.getElem?_eq_some_iff.mp hr).1
  have hreg := padRows_regular m T h
  have hp : (padRows m T)[r]? = some (row ++ List.replicate (m - row.length) []) := by
    rw [padRows, List.getElem?_map, hr]; rfl
  have hlen := hreg _ (List.mem_of_getElem? hp)
  have h1 := take_flatten_at (padRows m T) r k _ hp (by omega)
  rw [Regular.take_sum hreg r (by simp [padRows]; omega)] at h1
  rw [sum_take, sum_take, h1, take_flatten_at T r _ row hr (Nat.min_le_right _ _)]
  have h2 : (padRows m T).take r = padRows m (T.take r) := by rw [padRows, padRows, List.map_take]
  rw [h2]
  simp only [List.flatten_append, List.length_append, padRows_flatten]
  congr 2
  rw [List.take_append, List.flatten_append]
  simp only [List.take_replicate, List.flatten_replicate_nil, List.append_nil]
  congr 1
  by_cases hc : k ≤ row.length
  · rw [Nat.min_eq_left hc]
  · rw [Nat.min_eq_right (by omega), List.take_of_length_le (by omega), List.take_length]

section
variable (m : Nat) (T : List (List (List X))) (h : ∀ row ∈ T, row.length ≤ m) (hm : 0 < m)
include h hm

theorem padSplits_eq : padSplits (psum (T.map List.length)) (psum (T.flatten.map List.length)) m
    (m * T.length) = some (psum ((padRows m T).flatten.map List.length)) := by
  have hreg := padRows_regular m T h
  have hlen : ((padRows m T).flatten.map List.length).length = m * T.length := by
    rw [List.length_map, hreg.flatten_length, Nat.mul_comm]; simp [padRows]
  unfold padSplits
  apply mapM_some_of
  · rw [psum_length, hlen, List.length_range]
  · intro i b hb
    obtain ⟨hlt, hb⟩ := List.getElem?_eq_some_iff.mp hb
    rw [List.getElem_range] at hb; subst hb
    rw [List.length_range] at hlt
    rw [psum_get _ i (by omega)]
    split
    · next he =>
      subst he
      rw [psum_length, Nat.add_sub_cancel, psum_get _ _ (le_refl _), List.take_length, ← hlen, List.take_length, ← List.length_flatten, ← List.length_flatten, padRows_flatten]
    · next he =>
      have hq : i / m < T.length := by
        rw [Nat.div_lt_iff_lt_mul hm, Nat.mul_comm]; omega
      have hmod := Nat.mod_lt i hm
      have hrow := List.getElem?_eq_getElem hq
      have hle := h _ (List.getElem_mem hq)
      generalize T[i / m] = row at hrow hle
      have e1 := psum_get (T.map List.length) (i / m) (by simp; omega)
      have e2 := psum_get (T.map List.length) (i / m + 1) (by simp; omega)
      have e3 : ((T.map List.length).take (i / m + 1)).sum = ((T.map List.length).take (i / m)).sum + row.length :=
        take_succ_sum _ _ _ (by rw [List.getElem?_map, hrow]; rfl)
      rw [e3] at e2
      have e4 := padRows_before m T h (i / m) (i % m) row hrow (by omega)
      have e5 : i / m * m + i % m = i := by rw [Nat.mul_comm]; exact Nat.div_add_mod i m
      rw [e5] at e4
      have e6 : ((T.map List.length).take (i / m)).sum + row.length ≤ T.flatten.length := by
        rw [← e3, List.length_flatten]
        have := take_sum_mono (T.map List.length) (show i / m + 1 ≤ T.length by omega)
        rwa [← List.length_map (f := List.length) (as := T), List.take_length] at this
      simp only [e1, e2, Option.bind_eq_bind, Option.bind_some, Nat.add_sub_cancel_left]
      split
      · next hc =>
        rw [psum_get _ _ (by rw [List.length_map]; omega), e4, Nat.min_eq_left (by omega)]
      · next hc =>
        rw [psum_get _ _ (by rw [List.length_map]; omega), e4, Nat.min_eq_right (by omega)]

theorem padIds_eq : padIds (psum (T.map List.length)) (idsFrom 0 (T.map List.length))
    (idsFrom 0 (T.flatten.map List.length)) m = some (idsFrom 0 ((padRows m T).flatten.map List.length)) := by
  have hreg := padRows_regular m T h
  have hsum : ((padRows m T).flatten.map List.length).sum = (T.flatten.map List.length).sum := by
    rw [← List.length_flatten, ← List.length_flatten, padRows_flatten]
  unfold padIds
  apply mapM_some_of
  · rw [idsFrom_length, List.length_range, idsFrom_length, hsum]
  · intro i b hb
    obtain ⟨hlt, hb⟩ := List.getElem?_eq_some_iff.mp hb
    rw [List.getElem_range] at hb; subst hb
    rw [List.length_range, idsFrom_length] at hlt
    obtain ⟨s, l, j, h1, h2, h3⟩ := ids_pos _ i hlt
    have hs : s < T.flatten.length := by
      have := (List.getElem?_eq_some_iff.mp h1).1; rwa [List.length_map] at this
    have hs' := hs
    rw [List.length_flatten] at hs'
    obtain ⟨r, l', k, h4, h5, h6⟩ := ids_pos _ s hs'
    have hr : r < T.length := by
      have := (List.getElem?_eq_some_iff.mp h4).1; rwa [List.length_map] at this
    have hrow := List.getElem?_eq_getElem hr
    have hle := h _ (List.getElem_mem hr)
    generalize T[r] = row at hrow hle
    rw [List.getElem?_map, hrow, Option.map_some] at h4
    have h4' := Option.some.inj h4
    subst h4'
    have e1 := ids_at _ s l j h1 h2
    rw [← h3] at e1
    have e2 := ids_at (T.map List.length) r row.length k (by rw [List.getElem?_map, hrow]; rfl) h5
    rw [← h6] at e2
    have e3 := psum_get (T.map List.length) r (by simp; omega)
    simp only [e1, e2, e3, Option.bind_eq_bind, Option.bind_some]
    have e4 : s - ((T.map List.length).take r).sum = k := by omega
    rw [e4]
    have hp : (padRows m T)[r]? = some (row ++ List.replicate (m - row.length) []) := by
      rw [padRows, List.getElem?_map, hrow]; rfl
    have e5 := hreg.flatten_get r k _ hp (by omega)
    rw [List.getElem?_append_left h5, ← row_at T r k row hrow h5, ← h6] at e5
    have e6 : ((padRows m T).flatten.map List.length)[r * m + k]? = some l := by
      rw [List.getElem?_map, e5, ← List.getElem?_map, h1]
    have e7 := ids_at _ (r * m + k) l j e6 h2
    rw [padRows_before m T h r k row hrow (by omega), Nat.min_eq_left (by omega), ← h6, ← h3] at e7
    exact e7.symm
end

theorem padRows_id (m : Nat) (T : List (List (List X))) (h : Regular T m) : padRows m T = T := by
  conv_rhs => rw [← List.map_id T]
  refine List.map_congr_left (fun row hrow => ?_)
  rw [h row hrow]; simp

theorem regular_layer (m : Nat) (T : List (List X)) (h : Regular T m) (hm : 0 < m) :
    ((List.range (T.length + 1)).map (fun i => i * m) = psum (T.map List.length)) ∧
      (List.range (m * T.length)).map (fun i => i / m) = idsFrom 0 (T.map List.length) := by
  have hs := h.sizes
  constructor
  · apply List.ext_getElem?
    intro k
    by_cases hk : k < T.length + 1
    · rw [List.getElem?_map, List.getElem?_range hk, psum_get _ _ (by simp; omega), Regular.take_sum h k (by omega)]
      rfl
    · rw [List.getElem?_eq_none (by simp; omega), List.getElem?_eq_none (by simp; omega)]
  · apply List.ext_getElem?
    intro k
    by_cases hk : k < m * T.length
    · have hq : k / m < T.length := by
        rw [Nat.div_lt_iff_lt_mul hm, Nat.mul_comm]; omega
      have hmod := Nat.mod_lt k hm
      have e1 := ids_at (T.map List.length) (k / m) m (k % m) (by
        rw [hs, List.getElem?_replicate, if_pos hq]) hmod
      rw [Regular.take_sum h _ (by omega), Nat.mul_comm, Nat.div_add_mod] at e1
      rw [List.getElem?_map, List.getElem?_range hk, e1]
      rfl
    · rw [List.getElem?_eq_none (by simp; omega), List.getElem?_eq_none]
      have := Regular.take_sum h T.length (le_refl _)
      rw [List.take_of_length_le (by simp), Nat.mul_comm] at this
      rw [idsFrom_length, this]
      omega

/-- `MakeTransposable` adds empty lists at the end of the rows, until they are as long as the longest. -/
theorem makeTransposable_spec (n : Nat) (T : List (List (List (Nest α n)))) :
    makeTransposable (fullLayers (n + 2) (T : List (Nest α (n + 2)))) =
      some (fullLayers (n + 2) (padRows (longest T) T : List (Nest α (n + 2)))) := by
  have hle := fun row hr => le_longest T row hr
  have hreg := padRows_regular _ T hle
  have e0 : fullLayers (n + 2) (T : List (Nest α (n + 2))) =
      (psum (T.map List.length), idsFrom 0 (T.map List.length)) ::
      (psum (T.flatten.map List.length), idsFrom 0 (T.flatten.map List.length)) ::
      fullLayers n T.flatten.flatten := by
    have a1 := fullLayers_succ (n + 1) (T : List (List (Nest α (n + 1))))
    have a2 := fullLayers_succ n (T.flatten : List (List (Nest α n)))
    refine a1.trans ?_
    congr 1
  have e1 : fullLayers (n + 2) (padRows (longest T) T : List (Nest α (n + 2))) =
      (psum ((padRows (longest T) T).map List.length), idsFrom 0 ((padRows (longest T) T).map List.length)) ::
      (psum ((padRows (longest T) T).flatten.map List.length), idsFrom 0 ((padRows (longest T) T).flatten.map List.length)) ::
      fullLayers n T.flatten.flatten := by
    have a1 := fullLayers_succ (n + 1) (padRows (longest T) T : List (List (Nest α (n + 1))))
    have a2 := fullLayers_succ n ((padRows (longest T) T).flatten : List (List (Nest α n)))
    rw [padRows_flatten] at a2
    refine a1.trans ?_
    congr 1
  have hplen : (padRows (longest T) T).length = T.length := by simp [padRows]
  have hdim : (psum (T.map List.length)).length - 1 = T.length := by simp
  rw [e0, makeTransposable, hdim, maxSize_psum]
  split
  · next h1 =>
    rw [padRows_id, e0]
    intro row hrow
    obtain ⟨x, hx⟩ : ∃ x, T = [x] := List.length_eq_one_iff.mp (by
      have := List.length_pos_of_mem hrow; omega)
    subst hx
    simp only [List.mem_singleton] at hrow
    subst hrow
    simp [longest]
  · next h1 =>
    simp only [Option.bind_eq_bind, Option.bind_some]
    split
    · next hm =>
      rw [padRows_id, e0]
      intro row hrow
      have h2 := hle row hrow
      have h3 : longest T = 0 := hm
      omega
    · next hm =>
      have hm' : 0 < longest T := Nat.pos_of_ne_zero hm
      have g1 := padSplits_eq (longest T) T hle hm'
      have g2 := padIds_eq (longest T) T hle hm'
      obtain ⟨g3, g4⟩ := regular_layer (longest T) (padRows (longest T) T) hreg hm'
      rw [hplen] at g3 g4
      have hdef : (T.map List.length).foldr max 0 = longest T := rfl
      rw [hdef, g1]
      simp only [Option.bind_some]
      rw [g2]
      simp only [Option.bind_some]
      rw [e1, ← g3, ← g4]

end Verif.Fsa.Bat
