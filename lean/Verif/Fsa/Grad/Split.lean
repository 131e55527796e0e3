import Verif.Fsa.Grad.Occupancy

/-!
# Sums over the states and the arcs of a vector of FSAs
-/

namespace Verif.Fsa.Grd
open Verif.Ragged Verif.Util Verif.Fsa.Top Verif.Fsa.Bat Verif.Fsa.Sco
variable {W K X : Type}

theorem filter_sum [AddCommMonoid K] (l : List X) (p : X → Bool) (h : X → K) :
    ((l.filter p).map h).sum = (l.map (fun x => if p x then h x else 0)).sum := by
  induction l with
  | nil => rfl
  | cons x l ih =>
    rw [List.filter_cons, List.map_cons, List.sum_cons, ← ih]
    cases p x <;> simp

theorem swap2 {Y : Type} [AddCommMonoid K] (l : List X) (m : List Y) (u : X → Y → K) :
    (l.map (fun x => (m.map (fun y => u x y)).sum)).sum = (m.map (fun y => (l.map (fun x => u x y)).sum)).sum := by
  induction m with
  | nil => simp
  | cons y m ih =>
    simp only [List.map_cons, List.sum_cons]
    rw [List.sum_map_add, ih]

theorem sum_split [AddCommMonoid K] (ls : List Nat) (h : Nat → K) :
    ((List.range ls.sum).map h).sum =
      ((List.range ls.length).map (fun r => ((List.range (ls.getD r 0)).map (fun s => h ((ls.take r).sum + s))).sum)).sum := by
  induction ls using List.reverseRecOn with
  | nil => rfl
  | append_singleton ls m ih =>
    rw [List.sum_append, List.sum_singleton, List.range_add, List.map_append, List.sum_append, ih, List.length_append,
      List.length_singleton, List.range_succ, List.map_append, List.sum_append]
    congr 1
    · congr 1
      apply List.map_congr_left
      intro r hr
      have hr := List.mem_range.mp hr
      rw [List.take_append_of_le_length (by omega), List.getD_eq_getElem?_getD, List.getD_eq_getElem?_getD,
        List.getElem?_append_left hr]
    · simp [List.map_map, Function.comp_def]

theorem zip_range {Y Z : Type} (l : List X) (m : List Y) (hl : l.length = m.length) (x0 : X) (y0 : Y) (g : X × Y → Z) :
    (l.zip m).map g = (List.range l.length).map (fun i => g (l.getD i x0, m.getD i y0)) := by
  apply List.ext_getElem
  · simp [hl]
  · intro i h1 h2
    simp at h1
    have h3 : i < m.length := by omega
    simp [List.getD_eq_getElem?_getD, List.getElem?_eq_getElem h1.1, List.getElem?_eq_getElem h3]

theorem zipIdx_range {Z : Type} (l : List X) (x0 : X) (g : X × Nat → Z) :
    l.zipIdx.map g = (List.range l.length).map (fun i => g (l.getD i x0, i)) := by
  apply List.ext_getElem
  · simp
  · intro i h1 h2
    simp at h1
    simp [List.getD_eq_getElem?_getD, List.getElem?_eq_getElem h1]

/-- A sum over all states, by FSAs. -/
theorem states_split [AddCommMonoid K] (T : List (List (List (Arc W)))) (h : Nat → K) :
    ((List.range T.flatten.length).map h).sum = ((List.range T.length).map (fun r =>
      ((List.range (T.getD r []).length).map (fun s => h (off T r + s))).sum)).sum := by
  have hM : T.flatten.length = (T.map List.length).sum := by rw [List.length_flatten]
  rw [hM, sum_split, List.length_map]
  congr 1
  apply List.map_congr_left
  intro r hr
  have hr := List.mem_range.mp hr
  have hf := List.getElem?_eq_getElem hr
  have e1 : T.getD r [] = T[r] := by rw [List.getD_eq_getElem?_getD, hf]; rfl
  have e2 : (T.map List.length).getD r 0 = T[r].length := by
    rw [List.getD_eq_getElem?_getD, List.getElem?_map, hf]; rfl
  rw [e1, e2]
  rfl


/-- A sum over all arcs, by FSAs. -/
theorem arcs_split [AddCommMonoid K] (T : List (List (List (Arc W)))) (h : Nat → K) :
    ((List.range T.flatten.flatten.length).map h).sum = ((List.range T.length).map (fun r =>
      (((T.getD r []).flatten.zipIdx).map (fun x => h (base T r + x.2))).sum)).sum := by
  have hM : T.flatten.flatten.length = (T.map (fun f => f.flatten.length)).sum := by
    rw [List.flatten_flatten, List.length_flatten, List.map_map]; rfl
  rw [hM, sum_split, List.length_map]
  congr 1
  apply List.map_congr_left
  intro r hr
  have hr := List.mem_range.mp hr
  have hf := List.getElem?_eq_getElem hr
  have e1 : T.getD r [] = T[r] := by rw [List.getD_eq_getElem?_getD, hf]; rfl
  have e2 : (T.map (fun f => f.flatten.length)).getD r 0 = T[r].flatten.length := by
    rw [List.getD_eq_getElem?_getD, List.getElem?_map, hf]; rfl
  rw [e1, e2]
  congr 1
  apply List.ext_getElem
  · simp
  · intro i h1 h2
    simp [base]

/-- A sum over the states of the sums over their arcs. -/
theorem fiber_sum [CommSemiring K] (n : Nat) (l : List X) (own : X → Nat) (c : X → K) (F : Nat → K)
    (h : ∀ x ∈ l, own x < n) :
    ((List.range n).map (fun s => ((l.filter (fun x => decide (own x = s))).map c).sum * F s)).sum =
      (l.map (fun x => c x * F (own x))).sum := by
  induction l with
  | nil => simp
  | cons x l ih =>
    rw [List.map_cons, List.sum_cons, ← ih (fun y hy => h y (List.mem_cons_of_mem _ hy)),
      ← sum_one n (own x) (h x List.mem_cons_self) (fun s => c x * F s), ← List.sum_map_add]
    congr 1
    apply List.map_congr_left
    intro s _
    rw [List.filter_cons]
    by_cases e : own x = s
    · simp [e, add_mul]
    · simp [e]

end Verif.Fsa.Grd
