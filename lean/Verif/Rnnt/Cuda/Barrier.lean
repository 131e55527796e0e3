/-!
# `boundary_buf` in the kernels of `mutual_information_recursion`

k2/python/csrc/torch/mutual_information_cuda.cu: the shared array `boundary_buf` of four numbers
is written by thread 0 before the loop over items, and for each item by threads 0 to 3; all
threads read it.  This file models one thread block with any number of threads that run in any
order, except that no thread leaves a `__syncthreads()` before all have arrived there.
-/

namespace Verif.Rnnt.Cuda

/-- A thread block: its number of threads, whether there is a barrier before `boundary_buf` is
written (line 172; there is none in the backward kernel, lines 483-491), the rows of `boundary`
that belong to its items, which items are empty (lines 192, 506: `continue`), and the numbers
`0, 0, S, T`. -/
structure Block (V : Type) where
  n : Nat
  guarded : Bool
  row : Nat → Nat → V
  empty : Nat → Bool
  init : Nat → V

/-- What a thread does next. -/
inductive Ins where
  | init (j : Nat)
  | nop
  | sync
  | put (k : Nat)
  | get (k j : Nat)
deriving DecidableEq

/-- The program of a thread: lines 150-155 (472-477), then eight instructions for each item:
line 172, line 174 (490), line 176 (491), the four reads in lines 178-179 (493-494), and the rest
of the loop, which contains a barrier (lines 246, 524) unless the item is empty. -/
def Block.ins {V : Type} (c : Block V) (pc : Nat) : Ins :=
  if pc < 4 then .init pc
  else
    let k := (pc - 4) / 8
    match (pc - 4) % 8 with
    | 0 => if c.guarded then .sync else .nop
    | 1 => .put k
    | 2 => .sync
    | 3 => .get k 0
    | 4 => .get k 1
    | 5 => .get k 2
    | 6 => .get k 3
    | _ => if c.empty k then .nop else .sync

/-- Where each thread is, what is in `boundary_buf`, and all reads so far: thread, number of the
item in this thread block, index, value. -/
structure Shared (V : Type) where
  pc : Nat → Nat
  buf : Nat → V
  reads : List (Nat × Nat × Nat × V)

/-- Thread `i` can run: a barrier is left when all threads have come to it. -/
def Block.Enabled {V : Type} (c : Block V) (st : Shared V) (i : Nat) : Prop :=
  i < c.n ∧ (c.ins (st.pc i) = .sync → ∀ j < c.n, st.pc i ≤ st.pc j)

/-- Thread `i` runs one instruction. -/
def Block.exec {V : Type} (c : Block V) (st : Shared V) (i : Nat) : Shared V :=
  let pc := fun j => if j = i then st.pc i + 1 else st.pc j
  match c.ins (st.pc i) with
  | .init j => { st with pc, buf := if i = 0 then (fun a => if a = j then c.init j else st.buf a)
      else st.buf }
  | .nop => { st with pc }
  | .sync => { st with pc }
  | .put k => { st with pc, buf := if i < 4 then (fun a => if a = i then c.row k i else st.buf a)
      else st.buf }
  | .get k j => { st with pc, reads := (i, k, j, st.buf j) :: st.reads }

/-- The states that can be reached from `st0`. -/
inductive Block.Reach {V : Type} (c : Block V) (st0 : Shared V) : Shared V → Prop where
  | start : Block.Reach c st0 st0
  | step (st : Shared V) (i : Nat) : Block.Reach c st0 st → c.Enabled st i →
      Block.Reach c st0 (c.exec st i)

/-- Between the reads of an item and the next write there is a barrier. -/
def Block.Separated {V : Type} (c : Block V) : Prop := c.guarded = true ∨ ∀ k, c.empty k = false

structure Block.Inv {V : Type} (c : Block V) (st : Shared V) : Prop where
  sync : ∀ i < c.n, ∀ i' < c.n, ∀ q, c.ins q = .sync → q < st.pc i → q ≤ st.pc i'
  started : c.guarded = true ∨ ∀ i < c.n, 4 ≤ st.pc i
  buf : ∀ j < 4, ∀ k, 4 + 8 * k + 2 ≤ st.pc j → st.pc j < 4 + 8 * (k + 1) + 2 →
    st.buf j = c.row k j
  reads : ∀ r ∈ st.reads, r.2.2.2 = c.row r.2.1 r.2.2.1

theorem Block.exec_pc {V : Type} (c : Block V) (st : Shared V) (i j : Nat) :
    (c.exec st i).pc j = if j = i then st.pc i + 1 else st.pc j := by
  simp only [Block.exec]
  split <;> rfl

section
variable {V : Type} (c : Block V)

theorem Block.ins_init {pc : Nat} (h : pc < 4) : c.ins pc = .init pc := if_pos h

theorem Block.ins_at {k r : Nat} (hr : r < 8) : c.ins (4 + 8 * k + r) =
    match (generalizing := false) r with
    | 0 => if c.guarded then .sync else .nop
    | 1 => .put k
    | 2 => .sync
    | 3 => .get k 0
    | 4 => .get k 1
    | 5 => .get k 2
    | 6 => .get k 3
    | _ => if c.empty k then .nop else .sync := by
  simp only [Block.ins]
  rw [if_neg (by omega), show (4 + 8 * k + r - 4) / 8 = k by omega,
    show (4 + 8 * k + r - 4) % 8 = r by omega]

theorem Block.pc_cases (pc : Nat) : pc < 4 ∨ ∃ k r, r < 8 ∧ pc = 4 + 8 * k + r := by
  by_cases h : pc < 4
  · exact Or.inl h
  · exact Or.inr ⟨(pc - 4) / 8, (pc - 4) % 8, Nat.mod_lt _ (by omega), by omega⟩

/-- While a thread reads the row of item `k`, the row is there. -/
theorem Block.Inv.row {st : Shared V} (h : c.Inv st) (hn : 4 ≤ c.n) (hs : c.Separated) {i k j : Nat}
    (hi : i < c.n) (hj : j < 4) (h1 : 4 + 8 * k + 2 < st.pc i) (h2 : st.pc i < 4 + 8 * k + 7) :
    st.buf j = c.row k j := by
  apply h.buf j hj k
  · exact h.sync i hi j (by omega) _ (by rw [c.ins_at (by omega)]; rfl) h1
  · apply Nat.lt_of_not_le
    intro hlt
    rcases hs with hs | hs
    · have := h.sync j (by omega) i hi (4 + 8 * (k + 1) + 0)
        (by rw [c.ins_at (by omega)]; simp [hs]) (by omega)
      omega
    · have := h.sync j (by omega) i hi (4 + 8 * k + 7)
        (by rw [c.ins_at (by omega)]; simp [hs]) (by omega)
      omega

theorem Block.Inv.step {st : Shared V} (h : c.Inv st) (hn : 4 ≤ c.n) (hs : c.Separated)
    {i : Nat} (he : c.Enabled st i) : c.Inv (c.exec st i) := by
  obtain ⟨hi, hb⟩ := he
  refine ⟨?_, ?_, ?_, ?_⟩
  · intro a ha a' ha' q hq hk
    rw [Block.exec_pc] at hk ⊢
    have hge : q ≤ st.pc a' := by
      by_cases e : a = i
      · rw [if_pos e] at hk
        by_cases e2 : st.pc i = q
        · subst e2
          exact hb hq a' ha'
        · exact h.sync i hi a' ha' q hq (by omega)
      · rw [if_neg e] at hk
        exact h.sync a ha a' ha' q hq hk
    split
    · next e' => subst e'; omega
    · exact hge
  · rcases h.started with hg | hg
    · exact Or.inl hg
    · right
      intro a ha
      rw [Block.exec_pc]
      have := hg a ha
      split
      · next e' => subst e'; omega
      · exact this
  · intro j hj k h1 h2
    rw [Block.exec_pc] at h1 h2
    rcases Block.pc_cases (st.pc i) with hp | ⟨k', r, hr, hp⟩
    · -- initialisation
      have hne : j ≠ i := by
        intro e
        rw [if_pos e] at h1
        omega
      rw [if_neg hne] at h1 h2
      have := h.started
      rcases this with hg | hg
      · have := h.sync j (by omega) i hi (4 + 8 * 0 + 0)
          (by rw [c.ins_at (by omega)]; simp [hg]) (by omega)
        omega
      · have := hg i hi
        omega
    · have hins := c.ins_at (k := k') hr
      rw [← hp] at hins
      by_cases hput : r = 1
      · subst hput
        simp only at hins
        simp only [Block.exec, hins]
        by_cases e : j = i
        · subst e
          rw [if_pos rfl] at h1 h2
          have : k' = k := by omega
          subst this
          simp [hj]
        · rw [if_neg e] at h1 h2
          have hold := h.buf j hj k h1 h2
          split
          · simp [e, hold]
          · exact hold
      · have hbuf : (c.exec st i).buf = st.buf := by
          have : r = 0 ∨ r = 2 ∨ r = 3 ∨ r = 4 ∨ r = 5 ∨ r = 6 ∨ r = 7 := by omega
          rcases this with rfl | rfl | rfl | rfl | rfl | rfl | rfl <;>
            simp only at hins <;> (try split at hins) <;> simp only [Block.exec, hins]
        rw [hbuf]
        apply h.buf j hj k
        · split at h1
          · next e => subst e; omega
          · exact h1
        · split at h2
          · next e => subst e; omega
          · exact h2
  · rcases Block.pc_cases (st.pc i) with hp | ⟨k', r, hr, hp⟩
    · simp only [Block.exec, c.ins_init hp]
      exact h.reads
    · have hins := c.ins_at (k := k') hr
      rw [← hp] at hins
      have hget : ∀ j < 4, r = 3 + j → ∀ x ∈ (i, k', j, st.buf j) :: st.reads,
          x.2.2.2 = c.row x.2.1 x.2.2.1 := by
        intro j hj e x hx
        rcases List.mem_cons.1 hx with rfl | hx
        · have := h.row c hn hs hi hj (k := k') (by omega) (by omega)
          exact this
        · exact h.reads x hx
      have : r = 0 ∨ r = 1 ∨ r = 2 ∨ r = 3 ∨ r = 4 ∨ r = 5 ∨ r = 6 ∨ r = 7 := by omega
      rcases this with rfl | rfl | rfl | rfl | rfl | rfl | rfl | rfl <;>
        simp only at hins <;> (try split at hins) <;> simp only [Block.exec, hins]
      all_goals first
        | exact h.reads
        | exact hget 0 (by omega) (by omega)
        | exact hget 1 (by omega) (by omega)
        | exact hget 2 (by omega) (by omega)
        | exact hget 3 (by omega) (by omega)

theorem Block.Reach.inv {st0 st : Shared V} (hr : c.Reach st0 st) (h0 : c.Inv st0) (hn : 4 ≤ c.n)
    (hs : c.Separated) : c.Inv st := by
  induction hr with
  | start => exact h0
  | step st i _ he ih => exact ih.step c hn hs he
end
end Verif.Rnnt.Cuda
