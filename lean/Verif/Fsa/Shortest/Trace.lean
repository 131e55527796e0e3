import Verif.Fsa.Shortest.Fixed
import Verif.Fsa.Scores.Paths
import Mathlib.Data.List.Perm.Subperm
import Mathlib.Data.Nat.ModEq

/-!
# Following entering arcs one by one, and by powers of two
-/

namespace Verif.Fsa
variable {W : Type}

/-- Following the arcs `e` back from state `s` passes the arcs `l` and ends at state `t`, which has no entering
arc. -/
def Trace (f : List (List (Arc W))) (e : Nat → Option Nat) : Nat → List Nat → Nat → Prop
  | s, [], t => e s = none ∧ s = t
  | s, k :: l, t => e s = some k ∧ ∃ a, f.flatten[k]? = some a ∧ Trace f e a.src l t

/-- `ent` holds for every state an arc that enters it, or nothing; `e r s` is that of state `s` of FSA `r`, as
a position in that FSA. -/
structure EntOk (T : List (List (List (Arc W)))) (e : Nat → Nat → Option Nat) (ent : List (Option Nat)) : Prop where
  length : ent.length = T.flatten.length
  get : ∀ (r : Nat) (f : List (List (Arc W))), T[r]? = some f → ∀ s < f.length,
    ent[off T r + s]? = some ((e r s).map (Sco.base T r + ·))
  enters : ∀ (r : Nat) (f : List (List (Arc W))), T[r]? = some f → ∀ s < f.length, ∀ k, e r s = some k →
    ∃ a, f.flatten[k]? = some a ∧ a.dst = s

namespace Best
open Verif.Ragged Verif.Util Verif.Fsa.Bat Verif.Fsa.Sco Verif.Fsa.Top

section
variable (f : List (List (Arc W))) (e : Nat → Option Nat)
  (hok : ∀ s < f.length, ∀ k, e s = some k → ∃ a, f.flatten[k]? = some a ∧ a.dst = s)
  (hfw : ∀ a ∈ f.flatten, a.src < a.dst)

theorem trace_drop (s : Nat) (l : List Nat) (t : Nat) (h : Trace f e s l t) (i k : Nat) (hi : l[i]? = some k) :
    ∃ a, f.flatten[k]? = some a ∧ Trace f e a.src (l.drop (i + 1)) t := by
  induction l generalizing s i with
  | nil => simp at hi
  | cons j l ih =>
    obtain ⟨_, a, h2, h3⟩ := h
    cases i with
    | zero =>
      simp only [List.getElem?_cons_zero, Option.some.injEq] at hi
      subst hi
      exact ⟨a, h2, h3⟩
    | succ i =>
      rw [List.getElem?_cons_succ] at hi
      exact ih _ h3 i hi

theorem trace_head (s : Nat) (l : List Nat) (t : Nat) (h : Trace f e s l t) : e s = l[0]? := by
  cases l with
  | nil => exact h.1
  | cons j l => exact h.1

theorem trace_unique (s : Nat) (l l' : List Nat) (t t' : Nat) (h : Trace f e s l t) (h' : Trace f e s l' t') :
    l = l' ∧ t = t' := by
  induction l generalizing s l' with
  | nil =>
    obtain ⟨h1, h2⟩ := h
    cases l' with
    | nil => exact ⟨rfl, h2.symm.trans h'.2⟩
    | cons j l' => rw [Trace, h1] at h'; simp at h'
  | cons j l ih =>
    obtain ⟨h1, a, h2, h3⟩ := h
    cases l' with
    | nil => rw [Trace, h1] at h'; simp at h'
    | cons j' l' =>
      obtain ⟨h1', a', h2', h3'⟩ := h'
      rw [h1] at h1'
      obtain rfl := Option.some.inj h1'
      rw [h2] at h2'
      obtain rfl := Option.some.inj h2'
      obtain ⟨rfl, rfl⟩ := ih _ _ h3 h3'
      exact ⟨rfl, rfl⟩

include hok hfw

theorem trace_exists (s : Nat) (hs : s < f.length) : ∃ l t, Trace f e s l t := by
  induction s using Nat.strong_induction_on with
  | _ s ih =>
    cases he : e s with
    | none => exact ⟨[], s, he, rfl⟩
    | some k =>
      obtain ⟨a, h1, h2⟩ := hok s hs k he
      have := hfw a (List.mem_of_getElem? h1)
      obtain ⟨l, t, h⟩ := ih a.src (by omega) (by omega)
      exact ⟨k :: l, t, he, a, h1, h⟩

theorem trace_path (s : Nat) (hs : s < f.length) (l : List Nat) (t : Nat) (h : Trace f e s l t) :
    t + l.length ≤ s ∧ IPath f.flatten t l.reverse s := by
  induction l generalizing s with
  | nil =>
    obtain ⟨_, rfl⟩ := h
    exact ⟨by simp, (ipath_nil _ _ _).mpr rfl⟩
  | cons k l ih =>
    obtain ⟨he, a, h1, h2⟩ := h
    obtain ⟨a', h1', h3⟩ := hok s hs k he
    rw [h1] at h1'
    obtain rfl := Option.some.inj h1'
    have := hfw a (List.mem_of_getElem? h1)
    obtain ⟨h4, h5⟩ := ih a.src (by omega) h2
    refine ⟨by rw [List.length_cons]; omega, ?_⟩
    rw [List.reverse_cons]
    exact (ipath_snoc _ _ _ _ _).mpr ⟨a, h1, h5, h3⟩

theorem trace_nodup (s : Nat) (hs : s < f.length) (l : List Nat) (t : Nat) (h : Trace f e s l t) :
    l.Nodup ∧ ∀ k ∈ l, ∃ a, f.flatten[k]? = some a ∧ a.dst ≤ s := by
  induction l generalizing s with
  | nil => simp
  | cons k l ih =>
    obtain ⟨he, a, h1, h2⟩ := h
    obtain ⟨a', h1', h3⟩ := hok s hs k he
    rw [h1] at h1'
    obtain rfl := Option.some.inj h1'
    have := hfw a (List.mem_of_getElem? h1)
    obtain ⟨h4, h5⟩ := ih a.src (by omega) h2
    constructor
    · refine List.nodup_cons.mpr ⟨?_, h4⟩
      intro hk
      obtain ⟨a', h6, h7⟩ := h5 k hk
      rw [h1] at h6
      obtain rfl := Option.some.inj h6
      omega
    · intro k' hk'
      rcases List.mem_cons.mp hk' with rfl | hk'
      · exact ⟨a, h1, by omega⟩
      · obtain ⟨a', h6, h7⟩ := h5 k' hk'
        exact ⟨a', h6, by omega⟩

theorem trace_le_arcs (s : Nat) (hs : s < f.length) (l : List Nat) (t : Nat) (h : Trace f e s l t) :
    l.length ≤ f.flatten.length := by
  obtain ⟨h1, h2⟩ := trace_nodup f e hok hfw s hs l t h
  have := (h1.subperm (l₂ := List.range f.flatten.length) (by
    intro k hk
    obtain ⟨a, h3, _⟩ := h2 k hk
    exact List.mem_range.mpr (List.getElem?_eq_some_iff.mp h3).1)).length_le
  rwa [List.length_range] at this
end

/-! ## The powers -/

section
variable (T : List (List (List (Arc W)))) (hT : VecOk T) (hfw : ∀ f ∈ T, ∀ a ∈ f.flatten, a.src < a.dst)
  (e : Nat → Nat → Option Nat)

/-- Row `m` of the powers: the `2^m`-th arc of every trace. -/
structure RowOk (m : Nat) (row : List (Option Nat)) : Prop where
  length : row.length = T.flatten.length
  get : ∀ (r : Nat) (f : List (List (Arc W))), T[r]? = some f → ∀ s < f.length, ∀ l t, Trace f (e r) s l t →
    row[off T r + s]? = some ((l[2 ^ m - 1]?).map (base T r + ·))

theorem rowOk_zero (ent : List (Option Nat)) (he : EntOk T e ent) : RowOk T e 0 ent := by
  refine ⟨he.length, ?_⟩
  intro r f hf s hs l t h
  rw [he.get r f hf s hs, trace_head f (e r) s l t h]
  rfl

include hT in
/-- An arc at a position of its FSA. -/
theorem arc_at (r k : Nat) (f : List (List (Arc W))) (a : Arc W) (hf : T[r]? = some f) (ha : f.flatten[k]? = some a) :
    (flat T).arcs[base T r + k]? = some a ∧ a.src < f.length := by
  obtain ⟨dest, hde, _, _⟩ := destStates_spec T hT
  obtain ⟨_, h2, _, _, h5, _⟩ := arc_local T hT dest hde r k f a hf ha
  exact ⟨h2, h5⟩

variable (hen : ∀ (r : Nat) (f : List (List (Arc W))), T[r]? = some f → ∀ s < f.length, ∀ k, e r s = some k →
    ∃ a, f.flatten[k]? = some a ∧ a.dst = s)
include hT hfw hen

theorem nextPower_eq (m : Nat) (row : List (Option Nat)) (h : RowOk T e m row) :
    ∃ row', nextPower (flat T) row = some row' ∧ RowOk T e (m + 1) row' := by
  have key : ∀ (r : Nat) (f : List (List (Arc W))), T[r]? = some f → ∀ s < f.length, ∀ l t, Trace f (e r) s l t →
      powerAt (flat T) row (off T r + s) = some ((l[2 ^ (m + 1) - 1]?).map (base T r + ·)) := by
    intro r f hf s hs l t ht
    have hrl := (List.getElem?_eq_some_iff.mp hf).1
    have e1 := flat_id1 T r s f hf hs
    have e2 := flat_sp1 T r (by omega)
    have e3 := h.get r f hf s hs l t ht
    unfold powerAt
    simp only [e1, e2, e3, Option.bind_eq_bind, Option.bind_some]
    have hpos := Nat.one_le_two_pow (n := m)
    have hpw : 2 ^ (m + 1) - 1 = (2 ^ m - 1 + 1) + (2 ^ m - 1) := by rw [Nat.pow_succ]; omega
    cases hk : l[2 ^ m - 1]? with
    | none =>
      have := List.getElem?_eq_none_iff.mp hk
      rw [List.getElem?_eq_none (by omega)]
      rfl
    | some k =>
      obtain ⟨a, ha, hd⟩ := trace_drop f (e r) s l t ht _ k hk
      obtain ⟨h1, h2⟩ := arc_at T hT r k f a hf ha
      have h3 := h.get r f hf a.src h2 _ t hd
      rw [List.getElem?_drop, ← hpw, Nat.add_comm (off T r)] at h3
      simp only [Option.map_some, secondHalf, h1, Option.bind_eq_bind, Option.bind_some, h3]
  have hall : ∃ row', nextPower (flat T) row = some row' := by
    unfold nextPower
    apply mapM_exists
    intro g hg
    rw [List.mem_range, flat_id1_length] at hg
    obtain ⟨r, f, s, hf, hs, rfl⟩ := state_pos T g hg
    obtain ⟨l, t, ht⟩ := trace_exists f (e r) (hen r f hf) (hfw f (List.mem_of_getElem? hf)) s hs
    exact ⟨_, key r f hf s hs l t ht⟩
  obtain ⟨row', hrow'⟩ := hall
  have hg := mapM_get hrow'
  refine ⟨row', hrow', ?_, ?_⟩
  · rw [hg.1, List.length_range, flat_id1_length]
  · intro r f hf s hs l t ht
    have := hg.2 (off T r + s) (off T r + s) (by
      rw [List.getElem?_range]
      rw [flat_id1_length]
      exact off_lt T r s f hf hs)
    rw [this]
    exact key r f hf s hs l t ht

theorem arcPowers_eq (lp : Nat) : ∀ (m : Nat) (row : List (Option Nat)), RowOk T e m row →
    ∃ rows, arcPowers (flat T) lp row = some rows ∧ ∀ i ≤ lp, ∃ row', rows[i]? = some row' ∧ RowOk T e (m + i) row' := by
  induction lp with
  | zero =>
    intro m row h
    refine ⟨[row], rfl, ?_⟩
    intro i hi
    obtain rfl : i = 0 := by omega
    exact ⟨row, rfl, h⟩
  | succ lp ih =>
    intro m row h
    obtain ⟨row', h1, h2⟩ := nextPower_eq T hT hfw e hen m row h
    obtain ⟨rows, h3, h4⟩ := ih (m + 1) row' h2
    refine ⟨row :: rows, ?_, ?_⟩
    · unfold arcPowers
      simp only [h1, h3, Option.bind_eq_bind, Option.bind_some]
    · intro i hi
      cases i with
      | zero => exact ⟨row, rfl, h⟩
      | succ i =>
        obtain ⟨row'', h5, h6⟩ := h4 i (by omega)
        exact ⟨row'', h5, by rw [show m + (i + 1) = m + 1 + i by omega]; exact h6⟩

end

end Best
end Verif.Fsa
