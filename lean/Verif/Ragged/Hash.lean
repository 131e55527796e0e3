import Mathlib.Algebra.Ring.Defs
import Mathlib.Data.BitVec
import Mathlib.Tactic.Ring

/-!
# Hashes of sub-lists: `ComputeHash` (k2/csrc/ragged_ops.cu 2455-2570)

The CPU code computes the hash of a sub-list with a loop; the GPU code computes it with a
segmented reduction.  The arithmetic is that of a fixed-width integer type with wrap-around,
modelled by an arbitrary commutative ring (`BitVec 32` and `BitVec 64` are the instances used);
an `int32_t` element `x` enters the ring as the integer `x`.
-/

namespace Verif.Ragged
variable {R : Type} [CommRing R]

/-! ## Model -/

/-- The pair `(hash1, hash2)` after the loop over the elements of a row, ragged_ops.cu 2561-2567
(CPU branch of `ComputeHash`). -/
def hashLoop (h1 h2 : R) : List Int → R × R
  | [] => (h1, h2)
  | x :: xs => hashLoop (31 * h1 + (x : R)) (167 * h2 + (x : R)) xs

/-- The hash of a row on the CPU, ragged_ops.cu 2558-2568. -/
def hashCpu (l : List Int) : R :=
  (hashLoop (13 : R) 787 l).1 + 104729 * (hashLoop (13 : R) 787 l).2

/-- `struct Hash`, ragged_ops.cu 2455-2467. -/
structure Hash (R : Type) where
  hash1 : R
  hash2 : R
  product1 : R
  product2 : R

/-- What `HashInputIterator` gives for an element, ragged_ops.cu 2469-2490. -/
def hashElem (x : Int) : Hash R := ⟨x, x, 31, 167⟩

/-- The initial value of the reduction, ragged_ops.cu 2543-2544. -/
def hashInit : Hash R := ⟨0, 0, 1, 1⟩

/-- `HashCombineOp`, ragged_ops.cu 2514-2524. -/
def hashCombine (a b : Hash R) : Hash R :=
  ⟨a.hash1 * b.product1 + b.hash1, a.hash2 * b.product2 + b.hash2, a.product1 * b.product1,
    a.product2 * b.product2⟩

/-- `HashOutputIteratorDeref::operator=`, ragged_ops.cu 2492-2505. -/
def hashOut (h : Hash R) : R :=
  h.hash1 + 13 * h.product1 + 104729 * h.hash2 + (104729 * 787) * h.product2

/-- An order in which a reduction may combine its elements: any bracketing, with the initial value
inserted anywhere. -/
inductive Reduction where
  | init
  | elem (x : Int)
  | combine (l r : Reduction)

/-- The value of a reduction. -/
def Reduction.eval : Reduction → Hash R
  | .init => hashInit
  | .elem x => hashElem x
  | .combine l r => hashCombine l.eval r.eval

/-- The elements that a reduction combines, from left to right. -/
def Reduction.elems : Reduction → List Int
  | .init => []
  | .elem x => [x]
  | .combine l r => l.elems ++ r.elems

/-! ## Theorems -/

theorem hashCombine_assoc (a b c : Hash R) :
    hashCombine (hashCombine a b) c = hashCombine a (hashCombine b c) := by
  simp only [hashCombine, Hash.mk.injEq]
  refine ⟨?_, ?_, ?_, ?_⟩ <;> ring

theorem hashCombine_init_left (a : Hash R) : hashCombine hashInit a = a := by
  cases a; simp [hashCombine, hashInit]

theorem hashCombine_init_right (a : Hash R) : hashCombine a hashInit = a := by
  cases a; simp [hashCombine, hashInit]

theorem hashLoop_append (h1 h2 : R) (a b : List Int) :
    hashLoop h1 h2 (a ++ b) = hashLoop (hashLoop h1 h2 a).1 (hashLoop h1 h2 a).2 b := by
  induction a generalizing h1 h2 with
  | nil => rfl
  | cons x a ih => exact ih _ _

/-- The loop started anywhere is an affine function of where it started, with the coefficients that
a reduction computes. -/
theorem hashLoop_eval (t : Reduction) (h1 h2 : R) :
    hashLoop h1 h2 t.elems =
      (h1 * (t.eval (R := R)).product1 + (t.eval (R := R)).hash1,
        h2 * (t.eval (R := R)).product2 + (t.eval (R := R)).hash2) := by
  induction t generalizing h1 h2 with
  | init => simp [Reduction.elems, Reduction.eval, hashInit, hashLoop]
  | elem x =>
    simp only [Reduction.elems, Reduction.eval, hashElem, hashLoop, Prod.mk.injEq]
    constructor <;> ring
  | combine l r ihl ihr =>
    rw [Reduction.elems, hashLoop_append, ihl, ihr]
    simp only [Reduction.eval, hashCombine, Prod.mk.injEq]
    constructor <;> ring

/-- **C11.** For every row and every way in which a reduction may bracket the elements of the row
(keeping their order), the hash that the reduction writes is the hash of the CPU loop. -/
theorem hash_gpu_eq_cpu (t : Reduction) : hashOut (t.eval (R := R)) = hashCpu t.elems := by
  unfold hashCpu
  rw [hashLoop_eval]
  simp only [hashOut]
  ring

/-- **C11**, for the two instances of `ComputeHash` (`int32_t` and `int64_t`). -/
theorem hash_gpu_eq_cpu_32_64 (t : Reduction) :
    hashOut (t.eval (R := BitVec 32)) = hashCpu t.elems ∧
      hashOut (t.eval (R := BitVec 64)) = hashCpu t.elems :=
  ⟨hash_gpu_eq_cpu t, hash_gpu_eq_cpu t⟩

/-- Two reductions of the same row give the same hash, whatever their bracketing. -/
theorem hash_reduction_independent (t u : Reduction) (h : t.elems = u.elems) :
    hashOut (t.eval (R := R)) = hashOut (u.eval (R := R)) := by
  rw [hash_gpu_eq_cpu, hash_gpu_eq_cpu, h]

/-- Every row has a reduction (so the theorem above speaks about every row). -/
theorem reduction_exists (l : List Int) : ∃ t : Reduction, t.elems = l := by
  induction l with
  | nil => exact ⟨.init, rfl⟩
  | cons x l ih => obtain ⟨t, rfl⟩ := ih; exact ⟨.combine (.elem x) t, rfl⟩

/-- A concrete case: two bracketings of a row of four elements. -/
example : hashOut ((Reduction.combine (.combine (.elem 3) (.elem (-1)))
      (.combine (.elem 7) (.combine (.elem 5) .init))).eval (R := Int)) =
    hashCpu [3, -1, 7, 5] := by decide

/-- The operation is not commutative: the order of the elements matters, so a reduction that
reorders its elements does not compute this hash. -/
theorem hashCombine_not_comm :
    hashOut (hashCombine (hashElem 1) (hashElem 2) : Hash Int) ≠
      hashOut (hashCombine (hashElem 2) (hashElem 1) : Hash Int) := by decide

/-- Two different rows with the same hash, in every commutative ring, hence for `int32_t` and
`int64_t` alike. -/
theorem hash_collision : hashCpu (R := R) [52366, 1] = hashCpu [1, 8744888] := by
  simp only [hashCpu, hashLoop]
  push_cast
  ring

end Verif.Ragged
