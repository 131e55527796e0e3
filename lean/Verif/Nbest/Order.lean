import Verif.Nbest.SuffixModel
import Mathlib.Order.Basic
import Mathlib.Algebra.Order.Group.Nat
import Mathlib.Data.Nat.Find

/-!
# The order of suffixes

A text of length `n` is a function that is positive below `n` and zero from `n` on; a suffix that is a
prefix of another one comes first.
-/

namespace Verif.Nbest

/-- The suffix at `i` is less than the suffix at `j`. -/
def Lt (x : Nat → Nat) (i j : Nat) : Prop := ∃ k, (∀ m, m < k → x (i + m) = x (j + m)) ∧ x (i + k) < x (j + k)

/-- A text of length `n`. -/
def Ends (x : Nat → Nat) (n : Nat) : Prop := ∀ i, (x i = 0 ↔ n ≤ i)

theorem Lt.step (x : Nat → Nat) (i j : Nat) : Lt x i j ↔ x i < x j ∨ x i = x j ∧ Lt x (i + 1) (j + 1) := by
  constructor
  · rintro ⟨k, h1, h2⟩
    cases k with
    | zero => exact .inl h2
    | succ k =>
      refine .inr ⟨h1 0 (by omega), k, ?_, ?_⟩
      · intro m hm
        have := h1 (m + 1) (by omega)
        rw [show i + 1 + m = i + (m + 1) by omega, show j + 1 + m = j + (m + 1) by omega]; exact this
      · rw [show i + 1 + k = i + (k + 1) by omega, show j + 1 + k = j + (k + 1) by omega]; exact h2
  · rintro (h | ⟨h0, k, h1, h2⟩)
    · exact ⟨0, by simp, h⟩
    · refine ⟨k + 1, ?_, ?_⟩
      · intro m hm
        cases m with
        | zero => exact h0
        | succ m =>
          have := h1 m (by omega)
          rw [show i + (m + 1) = i + 1 + m by omega, show j + (m + 1) = j + 1 + m by omega]; exact this
      · rw [show i + (k + 1) = i + 1 + k by omega, show j + (k + 1) = j + 1 + k by omega]; exact h2

theorem Lt.irrefl (x : Nat → Nat) (i : Nat) : ¬ Lt x i i := by
  rintro ⟨k, -, h⟩; omega

theorem Lt.trans {x : Nat → Nat} {i j l : Nat} (h : Lt x i j) (h' : Lt x j l) : Lt x i l := by
  obtain ⟨k, h1, h2⟩ := h
  obtain ⟨k', h1', h2'⟩ := h'
  rcases Nat.lt_trichotomy k k' with hk | rfl | hk
  · refine ⟨k, fun m hm => (h1 m hm).trans (h1' m (by omega)), ?_⟩
    rw [← h1' k hk]; exact h2
  · exact ⟨k, fun m hm => (h1 m hm).trans (h1' m hm), by omega⟩
  · refine ⟨k', fun m hm => (h1 m (by omega)).trans (h1' m hm), ?_⟩
    rw [h1 k' hk]; exact h2'

theorem Lt.asymm {x : Nat → Nat} {i j : Nat} (h : Lt x i j) (h' : Lt x j i) : False := Lt.irrefl x i (h.trans h')

/-- Different suffixes are comparable. -/
theorem Lt.total {x : Nat → Nat} {n : Nat} (hx : Ends x n) {i j : Nat} (hi : i ≤ n) (hj : j ≤ n) (hne : i ≠ j) :
    Lt x i j ∨ Lt x j i := by
  have hex : ∃ k, x (i + k) ≠ x (j + k) := by
    by_contra hc
    have hc : ∀ k, x (i + k) = x (j + k) := fun k => by by_contra h; exact hc ⟨k, h⟩
    have h1 := hc (n - j)
    rw [show j + (n - j) = n by omega, (hx n).mpr le_rfl] at h1
    have h1 := (hx _).mp h1
    have h2 := hc (n - i)
    rw [show i + (n - i) = n by omega, (hx n).mpr le_rfl] at h2
    have h2 := (hx _).mp h2.symm
    omega
  have h1 := Nat.find_spec hex
  have h2 : ∀ m, m < Nat.find hex → x (i + m) = x (j + m) := fun m hm => by
    have := Nat.find_min hex hm
    simpa using this
  rcases Nat.lt_or_gt_of_ne h1 with h | h
  · exact .inl ⟨_, h2, h⟩
  · exact .inr ⟨_, fun m hm => (h2 m hm).symm, h⟩

end Verif.Nbest
