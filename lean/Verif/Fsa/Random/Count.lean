import Mathlib.Algebra.Order.Field.Basic
import Mathlib.Tactic.Linarith
import Mathlib.Tactic.Ring
import Mathlib.Tactic.FieldSimp

/-!
# The number of equidistant points in an interval
-/

namespace Verif.Fsa.Rp
variable {K : Type} [Field K] [LinearOrder K] [IsStrictOrderedRing K]

/-- A downward closed predicate on the numbers below `n` is `· < c`. -/
theorem downward (n : Nat) (P : Nat → Prop) (h : ∀ i j, i ≤ j → j < n → P j → P i) :
    ∃ c ≤ n, ∀ i < n, P i ↔ i < c := by
  classical
  induction n with
  | zero => exact ⟨0, le_rfl, fun i hi => absurd hi (by omega)⟩
  | succ n ih =>
    by_cases hn : P n
    · exact ⟨n + 1, le_rfl, fun i hi => ⟨fun _ => hi, fun _ => h i n (by omega) (by omega) hn⟩⟩
    · obtain ⟨c, hc, hi⟩ := ih (fun i j h1 h2 => h i j h1 (by omega))
      refine ⟨c, by omega, fun i hin => ?_⟩
      rcases Nat.lt_or_ge i n with h1 | h1
      · exact hi i h1
      · obtain rfl : i = n := by omega
        exact ⟨fun hp => absurd hp hn, fun hlt => by omega⟩

/-- The number of points `(1/2 + i) / n` below `x`, up to one half. -/
theorem points_below (n : Nat) (hn : 0 < n) (x : K) (h0 : 0 ≤ x) (h1 : x ≤ 1) :
    ∃ c ≤ n, (∀ i < n, (1 / 2 + (i : K)) / (n : K) < x ↔ i < c) ∧ (c : K) - n * x < 1 / 2 ∧ n * x - (c : K) ≤ 1 / 2 := by
  have hnK : (0 : K) < n := by exact_mod_cast hn
  obtain ⟨c, hc, hi⟩ := downward n (fun i => (1 / 2 + (i : K)) / (n : K) < x) (by
    intro i j hij hj hP
    refine lt_of_le_of_lt ?_ hP
    apply div_le_div_of_nonneg_right _ hnK.le
    have : (i : K) ≤ j := by exact_mod_cast hij
    linarith)
  refine ⟨c, hc, hi, ?_, ?_⟩
  · rcases Nat.eq_zero_or_pos c with h | h
    · subst h
      have := mul_nonneg hnK.le h0
      push_cast
      linarith
    · have := (hi (c - 1) (by omega)).mpr (by omega)
      rw [div_lt_iff₀ hnK] at this
      have hcast : ((c - 1 : Nat) : K) = c - 1 := by
        rw [Nat.cast_sub (by omega)]; simp
      rw [hcast] at this
      linarith
  · rcases Nat.lt_or_ge c n with h | h
    · have := mt (hi c h).mp (by omega)
      rw [not_lt, le_div_iff₀ hnK] at this
      linarith
    · obtain rfl : c = n := by omega
      have := mul_le_mul_of_nonneg_left h1 hnK.le
      linarith

/-- A half-open interval of length `q` contains `n * q` of the points `(1/2 + i) / n`, up to less than one. -/
theorem points_in (n : Nat) (hn : 0 < n) (lo q : K) (h0 : 0 ≤ lo) (hq : 0 ≤ q) (h1 : lo + q ≤ 1) :
    |(((List.range n).countP (fun i : Nat => decide (lo ≤ (1 / 2 + (i : K)) / n ∧ (1 / 2 + (i : K)) / n < lo + q)) : Nat) : K)
      - n * q| < 1 := by
  obtain ⟨a, ha, ha1, ha2, ha3⟩ := points_below n hn lo h0 (by linarith)
  obtain ⟨b, hb, hb1, hb2, hb3⟩ := points_below n hn (lo + q) (by linarith) h1
  have hab : a ≤ b := by
    by_contra hc
    have h2 := (ha1 b (by omega)).mpr (by omega)
    have h3 := (hb1 b (by omega)).mp (by linarith)
    omega
  have hcount : (List.range n).countP (fun i : Nat => decide (lo ≤ (1 / 2 + (i : K)) / n ∧ (1 / 2 + (i : K)) / n < lo + q)) =
      b - a := by
    have : (List.range n).countP (fun i : Nat => decide (lo ≤ (1 / 2 + (i : K)) / n ∧ (1 / 2 + (i : K)) / n < lo + q)) =
        (List.range n).countP (fun i : Nat => decide (a ≤ i ∧ i < b)) := by
      apply List.countP_congr
      intro i hi
      rw [List.mem_range] at hi
      simp only [decide_eq_true_eq]
      rw [hb1 i hi, ← not_lt, ha1 i hi, not_lt]
    rw [this]
    have : ∀ m, (List.range m).countP (fun i : Nat => decide (a ≤ i ∧ i < b)) = min m b - a := by
      intro m
      induction m with
      | zero => simp
      | succ m ih =>
        rw [List.range_succ, List.countP_append, ih]
        by_cases hc : a ≤ m ∧ m < b
        · simp [hc]; omega
        · simp [hc]; omega
    rw [this]
    omega
  rw [hcount, Nat.cast_sub hab, abs_lt]
  constructor <;> linarith

end Verif.Fsa.Rp
