import Verif.Fsa.Core
import Verif.Util.Ragged

/-!
The arcs of an FSA as a ragged array [state][arc] (k2/csrc/fsa.h 109-116): the rows are the arcs
leaving each state and the concatenation of the rows is the array of arcs.
-/

namespace Verif.Fsa
open Verif.Util
variable {W : Type}

/-- The arcs leaving each state. -/
def Fsa.rows (f : Fsa W) : List (List (Arc W)) :=
  (List.range f.numStates).map (fun s => f.arcs.filter (fun a => a.src == s))

@[simp] theorem rows_length (f : Fsa W) : f.rows.length = f.numStates := by simp [Fsa.rows]

theorem rows_get (f : Fsa W) (s : Nat) (h : s < f.numStates) :
    f.rows[s]? = some (f.arcs.filter (fun a => a.src == s)) := by
  simp [Fsa.rows, h]

theorem sorted_filter_split (l : List (Arc W)) (n : Nat)
    (h : l.Pairwise (fun a b => a.src ≤ b.src)) :
    l.filter (fun a => a.src < n) ++ l.filter (fun a => a.src == n) =
      l.filter (fun a => a.src < n + 1) := by
  induction l with
  | nil => rfl
  | cons a l ih =>
    rw [List.pairwise_cons] at h
    have ih := ih h.2
    by_cases h1 : a.src < n
    · have h2 : ¬ a.src = n := by omega
      have h3 : a.src < n + 1 := by omega
      simp only [List.filter_cons, h1, h2, h3, decide_true, if_true, beq_iff_eq, if_false,
        List.cons_append, ih]
    · have hnil : l.filter (fun a => a.src < n) = [] := by
        rw [List.filter_eq_nil_iff]
        intro b hb
        have := h.1 b hb
        simp; omega
      rw [hnil, List.nil_append] at ih
      by_cases h2 : a.src = n
      · have h3 : a.src < n + 1 := by omega
        simp only [List.filter_cons, h1, h2, decide_true, if_true, beq_iff_eq,
          hnil, List.nil_append, ih, Nat.lt_irrefl, decide_false, Bool.false_eq_true, if_false,
          show n < n + 1 from Nat.lt_succ_self n]
      · have h3 : ¬ a.src < n + 1 := by omega
        simp only [List.filter_cons, h1, h2, h3, decide_false, Bool.false_eq_true, if_false,
          beq_iff_eq, hnil, List.nil_append, ih]

theorem flatMap_filter_src (l : List (Arc W)) (n : Nat)
    (h : l.Pairwise (fun a b => a.src ≤ b.src)) :
    ((List.range n).map (fun s => l.filter (fun a => a.src == s))).flatten =
      l.filter (fun a => a.src < n) := by
  induction n with
  | zero => simp
  | succ n ih =>
    rw [List.range_succ, List.map_append, List.flatten_append, ih]
    simp only [List.map_cons, List.map_nil, List.flatten_cons, List.flatten_nil, List.append_nil]
    exact sorted_filter_split l n h

/-- The concatenation of the rows is the array of arcs. -/
theorem rows_flatten (f : Fsa W) (hs : f.Sorted) (hl : ∀ a ∈ f.arcs, a.src < f.numStates) :
    f.rows.flatten = f.arcs := by
  rw [Fsa.rows, flatMap_filter_src f.arcs _ hs, List.filter_eq_self]
  intro a ha
  simpa using hl a ha

theorem Fsa.Valid.rows_flatten {f : Fsa W} (h : f.Valid) : f.rows.flatten = f.arcs :=
  Verif.Fsa.rows_flatten f h.sorted (fun a ha => by
    have := h.src_lt a ha; have := h.two; simp only [Fsa.final] at *; omega)

theorem rows_src (f : Fsa W) (s : Nat) (r : List (Arc W)) (h : f.rows[s]? = some r) (a : Arc W)
    (ha : a ∈ r) : a.src = s := by
  have hs : s < f.numStates := by
    have := (List.getElem?_eq_some_iff.mp h).1; simpa using this
  rw [rows_get f s hs] at h
  obtain rfl := Option.some.inj h
  simpa using (List.mem_filter.mp ha).2

end Verif.Fsa
