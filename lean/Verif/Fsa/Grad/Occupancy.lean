import Verif.Fsa.Grad.Fixed
import Verif.Fsa.Scores.Props
import Mathlib.Algebra.Order.Field.Basic
import Mathlib.Tactic.Ring
import Mathlib.Tactic.FieldSimp
import Mathlib.Tactic.Linarith
import Mathlib.Algebra.Order.BigOperators.Group.List
import Mathlib.Algebra.Order.BigOperators.GroupWithZero.List

/-!
# The recursion of the back-propagation, solved

With forward scores `F`, the derivative of a state `s` is `F s` times the sum over the states `t` of the given
derivative of `t`, times the weight of the paths from `s` to `t`, divided by `F t`.
-/

namespace Verif.Fsa.Grd
open Verif.Ragged Verif.Util Verif.Fsa.Top Verif.Fsa.Bat Verif.Fsa.Sco
variable {W K X : Type}

theorem sum_swap [CommSemiring K] (ts : List Nat) (xs : List X) (u : X → Nat → K) :
    (ts.map (fun t => (xs.map (fun x => u x t)).sum)).sum = (xs.map (fun x => (ts.map (fun t => u x t)).sum)).sum := by
  induction xs with
  | nil => simp
  | cons x xs ih =>
    simp only [List.map_cons, List.sum_cons]
    rw [List.sum_map_add, ih]

theorem sum_one [CommSemiring K] (n s : Nat) (hs : s < n) (c : Nat → K) :
    ((List.range n).map (fun t => if s = t then c t else 0)).sum = c s := by
  induction n with
  | zero => omega
  | succ n ih =>
    rw [List.range_succ, List.map_append, List.sum_append]
    by_cases h : s = n
    · subst h
      have : ((List.range s).map (fun t => if s = t then c t else 0)).sum = 0 := by
        apply List.sum_eq_zero
        intro x hx
        obtain ⟨t, ht, rfl⟩ := List.mem_map.mp hx
        have := List.mem_range.mp ht
        rw [if_neg (by omega)]
      rw [this]; simp
    · rw [ih (by omega)]; simp [h]

/-- The recursion, for a graph with arcs `xs` from `own x` to `oth x`. -/
theorem occ [Field K] [DecidableEq K] (n : Nat) (own oth : X → Nat) (w : X → K) (xs : List X) (μ : Nat → Nat)
    (hμ : ∀ x ∈ xs, oth x < n ∧ μ (oth x) < μ (own x)) (F D g : Nat → K) (Q : Nat → Nat → K)
    (hQ : ∀ s < n, ∀ t < n, Q s t = (if s = t then 1 else 0) +
      ((xs.filter (fun x => decide (own x = s))).map (fun x => w x * Q (oth x) t)).sum)
    (hF : ∀ x ∈ xs, F (own x) ≠ 0 → w x ≠ 0 → F (oth x) ≠ 0)
    (hD : ∀ s < n, D s = g s + ((xs.filter (fun x => decide (own x = s))).map (fun x =>
      (if F (oth x) = 0 then 0 else F s * w x / F (oth x)) * D (oth x))).sum) :
    ∀ s < n, F s ≠ 0 → D s = F s * ((List.range n).map (fun t => g t * Q s t / F t)).sum := by
  intro s
  generalize hm : μ s = m
  induction m using Nat.strongRecOn generalizing s with
  | _ m ih =>
    intro hs h0
    have e1 : ((List.range n).map (fun t => g t * Q s t / F t)).sum =
        g s / F s + ((xs.filter (fun x => decide (own x = s))).map (fun x =>
          w x * ((List.range n).map (fun t => g t * Q (oth x) t / F t)).sum)).sum := by
      have : ∀ t ∈ List.range n, g t * Q s t / F t = (if s = t then g t / F t else 0) +
          ((xs.filter (fun x => decide (own x = s))).map (fun x => w x * (g t * Q (oth x) t / F t))).sum := by
        intro t ht
        rw [hQ s hs t (List.mem_range.mp ht)]
        have e : ((xs.filter (fun x => decide (own x = s))).map (fun x => w x * (g t * Q (oth x) t / F t))) =
            ((xs.filter (fun x => decide (own x = s))).map (fun x => (g t / F t) * (w x * Q (oth x) t))) := by
          apply List.map_congr_left; intro x _; ring
        rw [e, List.sum_map_mul_left]
        split <;> ring
      rw [List.map_congr_left this, List.sum_map_add, sum_one n s hs (fun t => g t / F t),
        sum_swap _ _ (fun x t => w x * (g t * Q (oth x) t / F t))]
      congr 2
      apply List.map_congr_left
      intro x _
      rw [List.sum_map_mul_left]
    rw [e1, hD s hs, mul_add, mul_div_cancel₀ _ h0, ← List.sum_map_mul_left]
    congr 2
    apply List.map_congr_left
    intro x hx
    obtain ⟨hx1, hx2⟩ := List.mem_filter.mp hx
    have hx2 := of_decide_eq_true hx2
    obtain ⟨h1, h2⟩ := hμ x hx1
    by_cases hw : w x = 0
    · simp [hw]
    · have hF' := hF x hx1 (by rw [hx2]; exact h0) hw
      rw [if_neg hF', ih (μ (oth x)) (by rw [← hm, ← hx2]; exact h2) (oth x) rfl h1 hF']
      field_simp

/-- The weight of the paths from `s` to `t`. -/
def between [CommSemiring K] (wt : W → K) (A : List (Arc W)) (s t : Nat) : K :=
  ((pathsFrom A t (t + 1) s).map (pathWeight wt A)).sum

section
variable [CommSemiring K] (wt : W → K) (A : List (Arc W)) (hA : ∀ a ∈ A, a.src < a.dst)
include hA

theorem between_eq (s t : Nat) (L : List (List Nat)) (hL : AllPaths A s t L) :
    between wt A s t = (L.map (pathWeight wt A)).sum :=
  ((allPaths_perm (allPaths_from A hA s t (t + 1) (by omega)) hL).map _).sum_eq

theorem between_first (s t : Nat) : between wt A s t = (if s = t then 1 else 0) +
    ((A.zipIdx.filter (fun x => decide (x.1.src = s))).map (fun x =>
      wt x.1.score * between wt A x.1.dst t)).sum := by
  rw [between_eq wt A hA s t _ (allPaths_from A hA s t (t + 2) (by omega)), pathsFrom, List.map_append,
    List.sum_append]
  congr 1
  · split <;> simp [pathWeight]
  · rw [List.map_flatMap, sum_flatMap]
    congr 1
    apply List.map_congr_left
    intro x hx
    have hx := (mem_zip A x).mp (List.mem_filter.mp hx).1
    rw [List.map_map, between, ← List.sum_map_mul_left]
    congr 1
    apply List.map_congr_left
    intro is _
    show pathWeight wt A (x.2 :: is) = _
    rw [pathWeight_cons wt A is x.2 x.1 hx, mul_comm]

theorem between_last (s t : Nat) : between wt A s t = (if s = t then 1 else 0) +
    ((A.zipIdx.filter (fun x => decide (x.1.dst = t))).map (fun x =>
      wt x.1.score * between wt A s x.1.src)).sum := by
  rw [between_eq wt A hA s t _ (allPaths_to A hA s t (t + 1) (by omega)), pathsTo, List.map_append,
    List.sum_append]
  congr 1
  · split <;> simp [pathWeight]
  · rw [List.map_flatMap, sum_flatMap]
    congr 1
    apply List.map_congr_left
    intro x hx
    obtain ⟨hx1, hx2⟩ := List.mem_filter.mp hx
    have hx1 := (mem_zip A x).mp hx1
    have hx2 := of_decide_eq_true hx2
    have hlt := hA x.1 (List.mem_of_getElem? hx1)
    rw [List.map_map, between_eq wt A hA s x.1.src _ (allPaths_to A hA s x.1.src t (by omega)),
      ← List.sum_map_mul_left]
    congr 1
    apply List.map_congr_left
    intro is _
    show pathWeight wt A (is ++ [x.2]) = _
    rw [pathWeight_snoc wt A is x.2 x.1 hx1, mul_comm]

theorem between_through (s t j : Nat) (a : Arc W) (hj : A[j]? = some a) (L : List (List Nat)) (hnd : L.Nodup)
    (hL : ∀ is, is ∈ L ↔ IPath A s is t ∧ j ∈ is) :
    (L.map (pathWeight wt A)).sum = between wt A s a.src * wt a.score * between wt A a.dst t :=
  through_sum wt A hA s t j a hj _ _ L (allPaths_from A hA s a.src _ (by omega))
    (allPaths_from A hA a.dst t _ (by omega)) hnd hL
end

section
variable [Field K] [LinearOrder K] [IsStrictOrderedRing K] (wt : W → K) (A : List (Arc W))
  (hA : ∀ a ∈ A, a.src < a.dst) (hwt : ∀ w, 0 ≤ wt w)
include hA hwt

omit hA in
theorem pathWeight_nonneg (is : List Nat) : 0 ≤ pathWeight wt A is := by
  unfold pathWeight
  apply List.prod_nonneg
  intro x hx
  obtain ⟨j, _, rfl⟩ := List.mem_map.mp hx
  cases A[j]? with
  | none => exact zero_le_one
  | some a => exact hwt _

omit hA in
theorem between_nonneg (s t : Nat) : 0 ≤ between wt A s t := by
  apply List.sum_nonneg
  intro x hx
  obtain ⟨is, _, rfl⟩ := List.mem_map.mp hx
  exact pathWeight_nonneg wt A hwt is

/-- The paths with `j` as last arc are among the paths to its end. -/
theorem between_step (s j : Nat) (a : Arc W) (hj : A[j]? = some a) :
    between wt A s a.src * wt a.score ≤ between wt A s a.dst := by
  rw [between_last wt A hA s a.dst]
  have h1 : wt a.score * between wt A s a.src ∈ ((A.zipIdx.filter (fun x => decide (x.1.dst = a.dst))).map (fun x =>
      wt x.1.score * between wt A s x.1.src)) :=
    List.mem_map.mpr ⟨(a, j), List.mem_filter.mpr ⟨(mem_zip A _).mpr hj, by simp⟩, rfl⟩
  have h2 := List.single_le_sum (by
    intro x hx
    obtain ⟨y, _, rfl⟩ := List.mem_map.mp hx
    exact mul_nonneg (hwt _) (between_nonneg wt A hwt _ _)) _ h1
  rw [mul_comm]
  refine h2.trans ?_
  have : (0 : K) ≤ if s = a.dst then 1 else 0 := by split; exact zero_le_one; exact le_refl _
  linarith [this]

/-- The paths with `j` as first arc are among the paths from its start. -/
theorem between_step' (t j : Nat) (a : Arc W) (hj : A[j]? = some a) :
    between wt A a.dst t * wt a.score ≤ between wt A a.src t := by
  rw [between_first wt A hA a.src t]
  have h1 : wt a.score * between wt A a.dst t ∈ ((A.zipIdx.filter (fun x => decide (x.1.src = a.src))).map (fun x =>
      wt x.1.score * between wt A x.1.dst t)) :=
    List.mem_map.mpr ⟨(a, j), List.mem_filter.mpr ⟨(mem_zip A _).mpr hj, by simp⟩, rfl⟩
  have h2 := List.single_le_sum (by
    intro x hx
    obtain ⟨y, _, rfl⟩ := List.mem_map.mp hx
    exact mul_nonneg (hwt _) (between_nonneg wt A hwt _ _)) _ h1
  rw [mul_comm]
  refine h2.trans ?_
  have : (0 : K) ≤ if a.src = t then 1 else 0 := by split; exact zero_le_one; exact le_refl _
  linarith [this]

theorem between_pos_step (s j : Nat) (a : Arc W) (hj : A[j]? = some a) (h : between wt A s a.src ≠ 0)
    (hw : wt a.score ≠ 0) : between wt A s a.dst ≠ 0 := by
  have h1 := between_step wt A hA hwt s j a hj
  have h2 : 0 < between wt A s a.src * wt a.score :=
    mul_pos (lt_of_le_of_ne (between_nonneg wt A hwt _ _) (Ne.symm h)) (lt_of_le_of_ne (hwt _) (Ne.symm hw))
  exact ne_of_gt (lt_of_lt_of_le h2 h1)

theorem between_pos_step' (t j : Nat) (a : Arc W) (hj : A[j]? = some a) (h : between wt A a.dst t ≠ 0)
    (hw : wt a.score ≠ 0) : between wt A a.src t ≠ 0 := by
  have h1 := between_step' wt A hA hwt t j a hj
  have h2 : 0 < between wt A a.dst t * wt a.score :=
    mul_pos (lt_of_le_of_ne (between_nonneg wt A hwt _ _) (Ne.symm h)) (lt_of_le_of_ne (hwt _) (Ne.symm hw))
  exact ne_of_gt (lt_of_lt_of_le h2 h1)

end

/-- The check on `alpha` never fails. -/
theorem alpha_eq [Field K] [LinearOrder K] [IsStrictOrderedRing K] (num den : K) (h : num ≤ den) (hd : 0 ≤ den) :
    alpha num den = some (if den = 0 then 0 else num / den) := by
  unfold alpha
  apply if_pos
  split
  · norm_num
  · next h0 =>
    have h1 : 0 < den := lt_of_le_of_ne hd (Ne.symm h0)
    have : num / den ≤ 1 := (div_le_one h1).mpr h
    refine lt_of_le_of_lt this ?_
    norm_num

end Verif.Fsa.Grd
