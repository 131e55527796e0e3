import Mathlib.Algebra.BigOperators.Ring.Finset
import Mathlib.Algebra.BigOperators.Group.Finset.Sigma
import Mathlib.Tactic.Ring
import Mathlib.Tactic.Linarith
import Mathlib.Tactic.FieldSimp

/-!
# Alignments: the specification of the mutual-information recursion

An alignment is a list of steps.  `X` consumes a symbol, `Y` a frame; in the modified version
`X` consumes a frame as well.  See the comment at mutual_information_cpu.cu 29-48.
-/

namespace Verif.Rnnt

inductive Step | X | Y
  deriving DecidableEq, Repr

variable {W : Type}

/-- Frames consumed by a step. -/
def Step.frames (modified : Bool) : Step → Nat
  | .X => if modified then 1 else 0
  | .Y => 1

/-- Symbols consumed by a list of steps. -/
def numX : List Step → Nat
  | [] => 0
  | .X :: l => numX l + 1
  | .Y :: l => numX l

/-- Frames consumed by a list of steps. -/
def numT (modified : Bool) : List Step → Nat
  | [] => 0
  | a :: l => a.frames modified + numT modified l

/-- The weight of an alignment that starts at `(s, t)`: the product of the px / py entries at
the positions where the steps are taken. -/
def weight [CommSemiring W] (modified : Bool) (px py : Nat → Nat → W) :
    Nat → Nat → List Step → W
  | _, _, [] => 1
  | s, t, .X :: l => px s t * weight modified px py (s + 1) (t + Step.X.frames modified) l
  | s, t, .Y :: l => py s t * weight modified px py s (t + 1) l

/-- Enumeration of the alignments that consume `n` symbols and `m` frames. -/
def alEnum (modified : Bool) : Nat → Nat → List (List Step)
  | 0, 0 => [[]]
  | 0, m + 1 => (alEnum modified 0 m).map (· ++ [.Y])
  | n + 1, 0 => if modified then [] else (alEnum modified n 0).map (· ++ [.X])
  | n + 1, m + 1 =>
    (if modified then alEnum modified n m else alEnum modified n (m + 1)).map (· ++ [.X]) ++
      (alEnum modified (n + 1) m).map (· ++ [.Y])
  termination_by n m => n + m

/-- The alignments as a finite set. -/
def alignments (modified : Bool) (n m : Nat) : Finset (List Step) := (alEnum modified n m).toFinset

@[simp] theorem numX_append (l k : List Step) : numX (l ++ k) = numX l + numX k := by
  induction l with
  | nil => simp [numX]
  | cons a l ih => cases a <;> simp [numX, ih]; omega

@[simp] theorem numT_append (m : Bool) (l k : List Step) :
    numT m (l ++ k) = numT m l + numT m k := by
  induction l with
  | nil => simp [numT]
  | cons a l ih => simp [numT, ih]; omega

theorem length_eq (l : List Step) :
    l.length = numX l + numT false l ∧ l.length = numT true l := by
  induction l with
  | nil => simp [numX, numT]
  | cons a l ih => cases a <;> simp [numX, numT, Step.frames] <;> omega

theorem mem_alEnum (md : Bool) (n m : Nat) (l : List Step) :
    l ∈ alEnum md n m ↔ numX l = n ∧ numT md l = m := by
  fun_induction alEnum md n m generalizing l with
  | case1 =>
    simp only [List.mem_singleton]
    constructor
    · rintro rfl; simp [numX, numT]
    · rintro ⟨h1, h2⟩
      have := length_eq l
      cases md <;> exact List.length_eq_zero_iff.mp (by omega)
  | case2 m ih =>
    simp only [List.mem_map, ih]
    constructor
    · rintro ⟨k, ⟨h1, h2⟩, rfl⟩; simp [numX, numT, Step.frames, h1, h2]
    · rintro ⟨h1, h2⟩
      rcases List.eq_nil_or_concat l with rfl | ⟨k, a, rfl⟩
      · simp [numT] at h2
      · cases a with
        | X => simp [numX] at h1
        | Y =>
          simp [numX, numT, Step.frames] at h1 h2
          exact ⟨k, ⟨h1, h2⟩, by simp⟩
  | case3 n hm =>
    simp only [List.not_mem_nil, false_iff]
    rintro ⟨h1, h2⟩
    have := length_eq l
    have hm : md = true := by simpa using hm
    subst hm
    have : l = [] := List.length_eq_zero_iff.mp (by omega)
    subst this; simp [numX] at h1
  | case4 n hm ih =>
    have hm : md = false := by simpa using hm
    subst hm
    simp only [List.mem_map, ih]
    constructor
    · rintro ⟨k, ⟨h1, h2⟩, rfl⟩; simp [numX, numT, Step.frames, h1, h2]
    · rintro ⟨h1, h2⟩
      rcases List.eq_nil_or_concat l with rfl | ⟨k, a, rfl⟩
      · simp [numX] at h1
      · cases a with
        | X =>
          simp [numX, numT, Step.frames] at h1 h2
          exact ⟨k, ⟨h1, h2⟩, by simp⟩
        | Y => simp [numT, Step.frames] at h2
  | case5 n m ih1 ih2 ih3 =>
    simp only [List.mem_append, List.mem_map]
    have hX : ∀ k, (k ∈ (if md = true then alEnum md n m else alEnum md n (m + 1)) ↔
        numX k = n ∧ numT md k + Step.X.frames md = m + 1) := by
      intro k
      cases md with
      | true => simp [ih1, Step.frames]
      | false => simp [ih2, Step.frames]
    simp only [hX, ih3]
    constructor
    · rintro (⟨k, ⟨h1, h2⟩, rfl⟩ | ⟨k, ⟨h1, h2⟩, rfl⟩)
      · simp [numX, numT, h1]; omega
      · simp [numX, numT, h1, h2, Step.frames]
    · rintro ⟨h1, h2⟩
      rcases List.eq_nil_or_concat l with rfl | ⟨k, a, rfl⟩
      · simp [numX] at h1
      · cases a with
        | X =>
          simp [numX, numT] at h1 h2
          exact Or.inl ⟨k, ⟨h1, by omega⟩, by simp⟩
        | Y =>
          simp [numX, numT, Step.frames] at h1 h2
          exact Or.inr ⟨k, ⟨h1, h2⟩, by simp⟩

/-- `alignments` is the set of all step lists with the right totals. -/
theorem mem_alignments (md : Bool) (n m : Nat) (l : List Step) :
    l ∈ alignments md n m ↔ numX l = n ∧ numT md l = m := by
  simp [alignments, mem_alEnum]

theorem weight_append [CommSemiring W] (md : Bool) (px py : Nat → Nat → W) (s t : Nat)
    (l k : List Step) :
    weight md px py s t (l ++ k) =
      weight md px py s t l * weight md px py (s + numX l) (t + numT md l) k := by
  induction l generalizing s t with
  | nil => simp [weight, numX, numT]
  | cons a l ih =>
    cases a with
    | X =>
      simp only [List.cons_append, weight, ih, numX, numT, mul_assoc]
      rw [show s + 1 + numX l = s + (numX l + 1) by omega,
        show t + Step.X.frames md + numT md l = t + (Step.X.frames md + numT md l) by omega]
    | Y =>
      simp only [List.cons_append, weight, ih, numX, numT, mul_assoc]
      rw [show t + 1 + numT md l = t + (Step.Y.frames md + numT md l) by simp [Step.frames]; omega]

section sums
variable [CommSemiring W] (md : Bool) (px py : Nat → Nat → W)

/-- Sum of the weights of all alignments from `(s, t)` that consume `n` symbols, `m` frames. -/
def total (s t n m : Nat) : W := ∑ l ∈ alignments md n m, weight md px py s t l

theorem total_zero_zero (s t : Nat) : total md px py s t 0 0 = 1 := by
  have : alignments md 0 0 = {[]} := by simp [alignments, alEnum]
  simp [total, this, weight]

/-- All alignments by last step. -/
theorem alignments_last (n m : Nat) (h : (n, m) ≠ (0, 0)) :
    alignments md n m =
      (if 1 ≤ n ∧ Step.X.frames md ≤ m then
        (alignments md (n - 1) (m - Step.X.frames md)).image (· ++ [.X]) else ∅) ∪
      (if 1 ≤ m then (alignments md n (m - 1)).image (· ++ [.Y]) else ∅) := by
  ext l
  simp only [mem_alignments, Finset.mem_union]
  constructor
  · rintro ⟨rfl, rfl⟩
    rcases List.eq_nil_or_concat l with rfl | ⟨k, a, rfl⟩
    · simp [numX, numT] at h
    · cases a with
      | X =>
        left
        rw [if_pos (by simp [numX, numT])]
        simp only [Finset.mem_image, mem_alignments]
        exact ⟨k, by simp [numX, numT], by simp⟩
      | Y =>
        right
        rw [if_pos (by simp [numT, Step.frames])]
        simp only [Finset.mem_image, mem_alignments]
        exact ⟨k, by simp [numX, numT, Step.frames], by simp⟩
  · rintro (h | h)
    · split at h
      · simp only [Finset.mem_image, mem_alignments] at h
        obtain ⟨k, ⟨h1, h2⟩, rfl⟩ := h
        simp [numX, numT, h1, h2]; omega
      · simp at h
    · split at h
      · simp only [Finset.mem_image, mem_alignments] at h
        obtain ⟨k, ⟨h1, h2⟩, rfl⟩ := h
        simp [numX, numT, h1, h2, Step.frames]; omega
      · simp at h

/-- All alignments by first step. -/
theorem alignments_first (n m : Nat) (h : (n, m) ≠ (0, 0)) :
    alignments md n m =
      (if 1 ≤ n ∧ Step.X.frames md ≤ m then
        (alignments md (n - 1) (m - Step.X.frames md)).image (Step.X :: ·) else ∅) ∪
      (if 1 ≤ m then (alignments md n (m - 1)).image (Step.Y :: ·) else ∅) := by
  ext l
  simp only [mem_alignments, Finset.mem_union]
  constructor
  · rintro ⟨rfl, rfl⟩
    cases l with
    | nil => simp [numX, numT] at h
    | cons a k =>
      cases a with
      | X =>
        left
        rw [if_pos (by simp [numX, numT])]
        simp only [Finset.mem_image, mem_alignments]
        exact ⟨k, by simp [numX, numT], by simp⟩
      | Y =>
        right
        rw [if_pos (by simp [numT, Step.frames])]
        simp only [Finset.mem_image, mem_alignments]
        exact ⟨k, by simp [numX, numT, Step.frames], by simp⟩
  · rintro (h | h)
    · split at h
      · simp only [Finset.mem_image, mem_alignments] at h
        obtain ⟨k, ⟨h1, h2⟩, rfl⟩ := h
        simp [numX, numT, h1, h2]; omega
      · simp at h
    · split at h
      · simp only [Finset.mem_image, mem_alignments] at h
        obtain ⟨k, ⟨h1, h2⟩, rfl⟩ := h
        simp [numX, numT, h1, h2, Step.frames]; omega
      · simp at h

theorem sum_image_snoc (n m s t : Nat) (a : Step) :
    ∑ l ∈ (alignments md n m).image (· ++ [a]), weight md px py s t l =
      total md px py s t n m * weight md px py (s + n) (t + m) [a] := by
  rw [Finset.sum_image (by intro x _ y _ h; exact List.append_cancel_right h), total,
    Finset.sum_mul]
  refine Finset.sum_congr rfl (fun l hl => ?_)
  obtain ⟨h1, h2⟩ := (mem_alignments md n m l).mp hl
  rw [weight_append, h1, h2]

theorem sum_image_cons (n m s t : Nat) (a : Step) :
    ∑ l ∈ (alignments md n m).image (a :: ·), weight md px py s t l =
      weight md px py s t [a] * total md px py (s + numX [a]) (t + numT md [a]) n m := by
  rw [Finset.sum_image (by intro x _ y _ h; exact (List.cons.inj h).2), total, Finset.mul_sum]
  refine Finset.sum_congr rfl (fun l hl => ?_)
  rw [show a :: l = [a] ++ l from rfl, weight_append]

/-- The totals satisfy the recursion on the last step. -/
theorem total_last (s t n m : Nat) (h : (n, m) ≠ (0, 0)) :
    total md px py s t n m =
      (if 1 ≤ n ∧ Step.X.frames md ≤ m then
        total md px py s t (n - 1) (m - Step.X.frames md) *
          px (s + (n - 1)) (t + (m - Step.X.frames md)) else 0) +
      (if 1 ≤ m then total md px py s t n (m - 1) * py (s + n) (t + (m - 1)) else 0) := by
  conv_lhs => rw [total, alignments_last md n m h]
  rw [Finset.sum_union]
  · congr 1
    · split
      · rw [sum_image_snoc]; simp [weight]
      · simp
    · split
      · rw [sum_image_snoc]; simp [weight]
      · simp
  · rw [Finset.disjoint_left]
    intro l hl hl'
    split at hl <;> split at hl' <;> simp at hl hl'
    obtain ⟨k, _, rfl⟩ := hl
    obtain ⟨k', _, h⟩ := hl'
    have := List.append_inj_right' h rfl
    simp at this

/-- The totals satisfy the recursion on the first step. -/
theorem total_first (s t n m : Nat) (h : (n, m) ≠ (0, 0)) :
    total md px py s t n m =
      (if 1 ≤ n ∧ Step.X.frames md ≤ m then
        px s t * total md px py (s + 1) (t + Step.X.frames md) (n - 1) (m - Step.X.frames md)
          else 0) +
      (if 1 ≤ m then py s t * total md px py s (t + 1) n (m - 1) else 0) := by
  conv_lhs => rw [total, alignments_first md n m h]
  rw [Finset.sum_union]
  · congr 1
    · split
      · rw [sum_image_cons]; simp [weight, numX, numT]
      · simp
    · split
      · rw [sum_image_cons]; simp [weight, numX, numT, Step.frames]
      · simp
  · rw [Finset.disjoint_left]
    intro l hl hl'
    split at hl <;> split at hl' <;> simp at hl hl'
    obtain ⟨k, _, rfl⟩ := hl
    obtain ⟨k', _, h⟩ := hl'
    simp at h

/-- `l`, started at `(s0, t0)`, takes step `a` at position `(s, t)`. -/
def TakesAt (s0 t0 : Nat) (a : Step) (s t : Nat) (l : List Step) : Prop :=
  ∃ l1 l2, l = l1 ++ a :: l2 ∧ s0 + numX l1 = s ∧ t0 + numT md l1 = t

/-- The alignments that take step `a` at `(s, t)` have total weight forward times entry times
backward. -/
theorem sum_takesAt {s0 t0 s t n m : Nat} {a : Step}
    [DecidablePred fun l => TakesAt md s0 t0 a s t l]
    (hs : s0 ≤ s) (ht : t0 ≤ t) (hn : s - s0 + numX [a] ≤ n) (hm : t - t0 + numT md [a] ≤ m) :
    ∑ l ∈ (alignments md n m).filter (fun l => TakesAt md s0 t0 a s t l),
        weight md px py s0 t0 l =
      total md px py s0 t0 (s - s0) (t - t0) * weight md px py s t [a] *
        total md px py (s + numX [a]) (t + numT md [a]) (n - (s - s0) - numX [a])
          (m - (t - t0) - numT md [a]) := by
  rw [total, total, Finset.sum_mul, Finset.sum_mul_sum, ← Finset.sum_product']
  symm
  refine Finset.sum_bij (fun x _ => x.1 ++ a :: x.2) ?_ ?_ ?_ ?_
  · rintro ⟨l1, l2⟩ h
    simp only [Finset.mem_product, mem_alignments] at h
    obtain ⟨⟨h1, h2⟩, h3, h4⟩ := h
    simp only [Finset.mem_filter, mem_alignments]
    refine ⟨?_, l1, l2, rfl, by omega, by omega⟩
    rw [show l1 ++ a :: l2 = l1 ++ ([a] ++ l2) from rfl]
    simp only [numX_append, numT_append]
    omega
  · rintro ⟨l1, l2⟩ h ⟨k1, k2⟩ h' e
    simp only [Finset.mem_product, mem_alignments] at h h'
    simp only at e
    have hl : l1.length = k1.length := by
      have e1 := length_eq l1
      have e2 := length_eq k1
      cases md <;> omega
    obtain ⟨h1, h2⟩ := List.append_inj e hl
    simp at h2
    rw [h1, h2]
  · intro l hl
    simp only [Finset.mem_filter, mem_alignments] at hl
    obtain ⟨⟨h1, h2⟩, l1, l2, rfl, h3, h4⟩ := hl
    refine ⟨(l1, l2), ?_, rfl⟩
    rw [show l1 ++ a :: l2 = l1 ++ ([a] ++ l2) from rfl] at h1 h2
    simp only [numX_append, numT_append] at h1 h2
    simp only [Finset.mem_product, mem_alignments]
    omega
  · rintro ⟨l1, l2⟩ h
    simp only [Finset.mem_product, mem_alignments] at h
    obtain ⟨⟨h1, h2⟩, h3, h4⟩ := h
    simp only
    rw [show l1 ++ a :: l2 = l1 ++ ([a] ++ l2) from rfl, weight_append, weight_append, h1, h2,
      show s0 + (s - s0) = s by omega, show t0 + (t - t0) = t by omega, mul_assoc]

end sums
end Verif.Rnnt
