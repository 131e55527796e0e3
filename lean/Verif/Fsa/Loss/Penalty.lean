import Verif.Fsa.Loss.Build
import Verif.Fsa.Scores.Props

/-! # The lattice with the delay penalty -/

namespace Verif.Fsa.Loss
open Verif.Ragged Verif.Util Verif.Fsa.Dn Verif.Fsa.Sco Verif.Fsa.Top

/-- The arcs with changed scores. -/
def bump (w : ℝ) (a : Arc (WithBot ℝ)) : Arc (WithBot ℝ) := { a with score := a.score + (w : WithBot ℝ) }

def addW (w : Nat → ℝ) : List (List (Arc (WithBot ℝ))) → List (List (Arc (WithBot ℝ)))
  | [] => []
  | row :: rs => row.mapIdx (fun k a => bump (w k) a) :: addW (fun i => w (row.length + i)) rs

theorem addW_lengths (w : Nat → ℝ) (g : List (List (Arc (WithBot ℝ)))) :
    (addW w g).map List.length = g.map List.length := by
  induction g generalizing w with
  | nil => rfl
  | cons row rs ih => simp [addW, ih]

theorem addW_length (w : Nat → ℝ) (g : List (List (Arc (WithBot ℝ)))) : (addW w g).length = g.length := by
  have := congrArg List.length (addW_lengths w g)
  simpa using this

theorem addW_flatten (w : Nat → ℝ) (g : List (List (Arc (WithBot ℝ)))) :
    (addW w g).flatten = g.flatten.mapIdx (fun k a => bump (w k) a) := by
  induction g generalizing w with
  | nil => rfl
  | cons row rs ih =>
    rw [addW, List.flatten_cons, List.flatten_cons, List.mapIdx_append, ih]
    congr 1
    apply List.ext_getElem?
    intro k
    simp [Nat.add_comm]

theorem addW_get (w : Nat → ℝ) (g : List (List (Arc (WithBot ℝ)))) (j : Nat) :
    (addW w g).flatten[j]? = g.flatten[j]?.map (bump (w j)) := by
  rw [addW_flatten, List.getElem?_mapIdx]

theorem addW_row (w : Nat → ℝ) (g : List (List (Arc (WithBot ℝ)))) (s : Nat) (row : List (Arc (WithBot ℝ)))
    (h : (addW w g)[s]? = some row) : ∃ row', g[s]? = some row' ∧ ∀ a ∈ row, ∃ a' ∈ row', ∃ x, a = bump x a' := by
  induction g generalizing w s with
  | nil => simp [addW] at h
  | cons r0 rs ih =>
    cases s with
    | zero =>
      simp only [addW, List.getElem?_cons_zero, Option.some.injEq] at h
      refine ⟨r0, rfl, ?_⟩
      intro a ha
      rw [← h, List.mem_mapIdx] at ha
      obtain ⟨i, hi, rfl⟩ := ha
      exact ⟨_, List.getElem_mem hi, _, rfl⟩
    | succ s =>
      simp only [addW, List.getElem?_cons_succ] at h ⊢
      exact ih _ s h

theorem addW_rows (w : Nat → ℝ) (g : List (List (Arc (WithBot ℝ)))) (h : RowsOk g) : RowsOk (addW w g) := by
  intro s row hr a ha
  obtain ⟨row', h1, h2⟩ := addW_row w g s row hr
  obtain ⟨a', ha', x, rfl⟩ := h2 a ha
  rw [addW_length]
  exact h s row' h1 a' ha'

theorem addW_top (w : Nat → ℝ) (g : List (List (Arc (WithBot ℝ)))) (h : ∀ a ∈ g.flatten, a.src < a.dst) :
    ∀ a ∈ (addW w g).flatten, a.src < a.dst := by
  intro a ha
  rw [addW_flatten, List.mem_mapIdx] at ha
  obtain ⟨i, hi, rfl⟩ := ha
  exact h g.flatten[i] (List.getElem_mem hi)

/-- The paths do not depend on the scores. -/
theorem ipath_bump (A A' : List (Arc (WithBot ℝ))) (h : ∀ j : Nat, ∃ x, A'[j]? = A[j]?.map (bump x)) (is : List Nat)
    (s e : Nat) : IPath A' s is e ↔ IPath A s is e := by
  induction is generalizing s with
  | nil => rw [ipath_nil, ipath_nil]
  | cons i is ih =>
    rw [ipath_cons, ipath_cons]
    obtain ⟨x, hx⟩ := h i
    constructor
    · rintro ⟨a, h1, h2, h3⟩
      rw [hx] at h1
      obtain ⟨a', h4, rfl⟩ := Option.map_eq_some_iff.mp h1
      exact ⟨a', h4, h2, (ih _).mp h3⟩
    · rintro ⟨a, h1, h2, h3⟩
      exact ⟨bump x a, by rw [hx, h1]; rfl, h2, (ih _).mpr h3⟩

theorem addW_accepting (w : Nat → ℝ) (g : List (List (Arc (WithBot ℝ)))) (is : List Nat) :
    IAccepting (rowsFsa (addW w g)) is ↔ IAccepting (rowsFsa g) is := by
  unfold IAccepting rowsFsa Fsa.final
  simp only [addW_length]
  rw [ipath_bump g.flatten _ (fun j => ⟨w j, addW_get w g j⟩)]

theorem expB_add (x y : WithBot ℝ) : expB (x + y) = expB x * expB y := by
  induction x with
  | bot => simp
  | coe x =>
    induction y with
    | bot => simp
    | coe y => rw [← WithBot.coe_add, expB_coe, expB_coe, expB_coe, Real.exp_add]

@[simp] theorem expB_zero : expB 0 = 1 := by
  rw [← WithBot.coe_zero, expB_coe, Real.exp_zero]

/-- The weight of a path. -/
theorem weight_addW (w : Nat → ℝ) (g : List (List (Arc (WithBot ℝ)))) (is : List Nat) (q : List (Arc (WithBot ℝ)))
    (h : is.map (fun i => g.flatten[i]?) = q.map some) :
    pathWeight expB (addW w g).flatten is = expB (score q) * Real.exp (is.map w).sum := by
  induction is generalizing q with
  | nil =>
    have : q = [] := by simpa using h.symm
    subst this
    simp [pathWeight, score]
  | cons i is ih =>
    cases q with
    | nil => simp at h
    | cons a q =>
      simp only [List.map_cons, List.cons.injEq] at h
      have := ih q h.2
      unfold pathWeight at this ⊢
      rw [List.map_cons, List.prod_cons, this, addW_get, h.1]
      simp only [Option.map_some, Option.elim_some, bump, score, List.map_cons, List.sum_cons, expB_add,
        expB_coe, Real.exp_add]
      ring

/-! ## All FSAs -/

/-- The number of the FSA of an arc. -/
theorem fsa_of_arc (T : List (List (List (Arc (WithBot ℝ))))) (r j : Nat) (f : List (List (Arc (WithBot ℝ))))
    (hf : T[r]? = some f) (hj : j < f.flatten.length) :
    ∃ g, (flat T).id2[splits (T.map List.flatten) r + j]? = some g ∧ (flat T).id1[g]? = some r ∧
      (flat T).arcs[splits (T.map List.flatten) r + j]? = f.flatten[j]? := by
  obtain ⟨s, row, k, h1, h2, h3⟩ := flatten_pos f j hj
  have hs := (List.getElem?_eq_some_iff.mp h1).1
  have e := apos_add T r s f hf hs.le
  have hg : T.flatten[off T r + s]? = some row := by rw [state_at T r s f hf hs, h1]
  refine ⟨off T r + s, ?_, flat_id1 T r s f hf hs, ?_⟩
  · rw [show splits (T.map List.flatten) r + j = apos T (off T r + s) + k by omega]
    exact flat_id2 T _ k row hg h2
  · rw [show splits (T.map List.flatten) r + j = apos T (off T r + s) + k by omega]
    have h4 := flat_arc T _ k row hg h2
    rw [h3, flatten_get f s row h1 k h2]
    exact h4

theorem arc_pos (T : List (List (List (Arc (WithBot ℝ))))) (i : Nat) (h : i < T.flatten.flatten.length) :
    ∃ (r j : Nat) (f : List (List (Arc (WithBot ℝ)))), T[r]? = some f ∧ j < f.flatten.length ∧
      i = splits (T.map List.flatten) r + j := by
  rw [List.flatten_flatten] at h
  obtain ⟨r, x, j, h1, h2, h3⟩ := flatten_pos _ i h
  rw [List.getElem?_map] at h1
  obtain ⟨f, hf, rfl⟩ := Option.map_eq_some_iff.mp h1
  exact ⟨r, j, f, hf, h2, h3⟩

/-- All FSAs with changed scores. -/
def addAll (w : Nat → Nat → ℝ) (T : List (List (List (Arc (WithBot ℝ))))) : List (List (List (Arc (WithBot ℝ)))) :=
  T.mapIdx (fun r g => addW (w r) g)

theorem addAll_get (w : Nat → Nat → ℝ) (T : List (List (List (Arc (WithBot ℝ))))) (r : Nat) :
    (addAll w T)[r]? = T[r]?.map (addW (w r)) := by
  rw [addAll, List.getElem?_mapIdx]

theorem addAll_lengths (w : Nat → Nat → ℝ) (T : List (List (List (Arc (WithBot ℝ))))) :
    (addAll w T).map List.length = T.map List.length := by
  apply List.ext_getElem?
  intro r
  rw [List.getElem?_map, List.getElem?_map, addAll_get]
  cases T[r]? <;> simp [addW_length]

theorem addAll_rows (w : Nat → Nat → ℝ) (T : List (List (List (Arc (WithBot ℝ))))) :
    (addAll w T).flatten.map List.length = T.flatten.map List.length := by
  rw [List.map_flatten, List.map_flatten]
  congr 1
  apply List.ext_getElem?
  intro r
  rw [List.getElem?_map, List.getElem?_map, addAll_get]
  cases T[r]? <;> simp [addW_lengths]

theorem addAll_flats (w : Nat → Nat → ℝ) (T : List (List (List (Arc (WithBot ℝ))))) (r : Nat) :
    splits ((addAll w T).map List.flatten) r = splits (T.map List.flatten) r := by
  unfold splits
  rw [List.map_take, List.map_take]
  congr 2
  apply List.ext_getElem?
  intro r
  simp only [List.getElem?_map, addAll_get]
  cases T[r]? with
  | none => rfl
  | some g => simp [addW_flatten]

theorem addAll_arc (w : Nat → Nat → ℝ) (T : List (List (List (Arc (WithBot ℝ))))) (r j : Nat)
    (f : List (List (Arc (WithBot ℝ)))) (hf : T[r]? = some f) (hj : j < f.flatten.length) :
    (addAll w T).flatten.flatten[splits (T.map List.flatten) r + j]? = f.flatten[j]?.map (bump (w r j)) := by
  have h := fsa_of_arc (addAll w T) r j (addW (w r) f) (by rw [addAll_get, hf]; rfl) (by
    rw [addW_flatten, List.length_mapIdx]; exact hj)
  obtain ⟨g, -, -, h3⟩ := h
  rw [addAll_flats, addW_get] at h3
  exact h3

theorem flat_addAll (w : Nat → Nat → ℝ) (T : List (List (List (Arc (WithBot ℝ))))) :
    flat (addAll w T) = { flat T with arcs := (addAll w T).flatten.flatten } := by
  unfold flat
  rw [addAll_lengths, addAll_rows]

/-! ## The arcs of the lattice -/

section
variable (f : List (List (Arc (WithBot ℝ)))) (fr : List (List (WithBot ℝ))) (neg : WithBot ℝ) (base stride : Nat)
  (g : List (List (Arc (WithBot ℝ)))) (ma mb : List Nat) (hL : Lattice f fr neg base stride g ma mb)
include hL

/-- The frame and the arc of the graph of an arc of the lattice. -/
theorem lattice_arc (i : Nat) (hi : i < g.flatten.length) :
    ∃ (t m : Nat) (a a' : Arc (WithBot ℝ)), t < fr.length ∧ ma[i]? = some m ∧ g.flatten[i]? = some a ∧
      f.flatten[m]? = some a' ∧ a.label = a'.label ∧
      mb[i]? = some (base + stride * t + (a.label + 1).toNat) := by
  obtain ⟨is, js, p, hm, ⟨h0, q, hc, hq⟩, -⟩ := hL.arcsUsed i hi
  obtain ⟨js', p', h1, h2, h3, h4, h5⟩ := hL.sound is q h0 hc hq
  obtain ⟨t, ht⟩ := List.getElem?_of_mem hm
  have e1 := congrArg List.length h1
  have e2 := congrArg List.length hq
  have e3 := congrArg List.length h2.arcs
  have e4 := h2.len
  simp only [List.length_map] at e1 e2 e3
  have htl := (List.getElem?_eq_some_iff.mp ht).1
  have hj := List.getElem?_eq_getElem (show t < js'.length by omega)
  have hp := List.getElem?_eq_getElem (show t < p'.length by omega)
  have hqt := List.getElem?_eq_getElem (show t < q.length by omega)
  have k1 := congrArg (fun l => l[t]?) h1
  have k2 := congrArg (fun l => l[t]?) hq
  have k3 := congrArg (fun l => l[t]?) h2.arcs
  have k4 := congrArg (fun l => l[t]?) h3
  simp only [labels, List.getElem?_map, ht, hj, hp, hqt, Option.map_some, Option.some.injEq] at k1 k2 k3 k4
  exact ⟨t, _, _, _, by omega, k1, k2, k3, k4, h5 t i _ ht hqt⟩

end

theorem delay_eq (lam mid : ℝ) (mask : Nat → Bool) (w : Nat → ℝ) (is js : List Nat) (t : Nat)
    (hl : is.length = js.length)
    (h : ∀ (k i j : Nat), is[k]? = some i → js[k]? = some j →
      w i = if mask j then 0 else -lam * (((t + k : Nat) : ℝ) - mid)) :
    (is.map w).sum = delay lam mid mask t js := by
  induction is generalizing js t with
  | nil =>
    have : js = [] := by simpa using hl.symm
    subst this; rfl
  | cons i is ih =>
    cases js with
    | nil => simp at hl
    | cons j js =>
      rw [List.map_cons, List.sum_cons, delay, ih js (t + 1) (by simpa using hl) (by
        intro k a b h1 h2
        have := h (k + 1) a b (by simpa using h1) (by simpa using h2)
        rw [this, Nat.add_right_comm, Nat.add_assoc t k 1])]
      rw [h 0 i j rfl rfl, Nat.add_zero]

end Verif.Fsa.Loss
