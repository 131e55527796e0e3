import Verif.Fsa.Dense.Spec
import Verif.Fsa.Shortest.Sweep

/-!
# Forward and backward scores of one FSA

`fwd f fr t s` is the best score of a path of `t` arcs from the start to `s`, aligned with the first `t`
frames, and `bwd f fr k s` the best score of a path of `k` arcs from `s` to the final state, aligned with
the last `k` frames.
-/

set_option linter.unusedSectionVars false

namespace Verif.Fsa.Dn
open Verif.Ragged Verif.Util Verif.Fsa.Sco Verif.Fsa.Best
variable {K : Type} [AddCommGroup K] [LinearOrder K] [IsOrderedAddMonoid K]

local notation "S" => WithBot K

/-- The score of an arc at time `t`. -/
def useScore (fr : List (List S)) (t : Nat) (a : Arc S) : S := a.score + labScore (fr.getD t []) a.label

/-- Forward scores. -/
def fwd (f : List (List (Arc S))) (fr : List (List S)) : Nat → Nat → S
  | 0, s => if s = 0 then 0 else ⊥
  | t + 1, s => reduceRow max ⊥ ((f.flatten.filter (fun a => a.dst = s)).map
      (fun a => fwd f fr t a.src + useScore fr t a))

/-- Backward scores. -/
def bwd (f : List (List (Arc S))) (fr : List (List S)) : Nat → Nat → S
  | 0, s => if s + 1 = f.length then 0 else ⊥
  | k + 1, s => reduceRow max ⊥ ((f.getD s []).map
      (fun a => bwd f fr k a.dst + useScore fr (fr.length - (k + 1)) a))

theorem alignScore_cons (a : Arc S) (p : List (Arc S)) (fr : List (List S)) (t : Nat) (h : t < fr.length) :
    alignScore (a :: p) (fr.drop t) = useScore fr t a + alignScore p (fr.drop (t + 1)) := by
  rw [List.drop_eq_getElem_cons h, alignScore, useScore, List.getD_eq_getElem?_getD,
    List.getElem?_eq_getElem h]
  rfl

theorem alignScore_append (p q : List (Arc S)) (fr : List (List S)) (t : Nat) (h : t + p.length ≤ fr.length) :
    alignScore (p ++ q) (fr.drop t) = alignScore p (fr.drop t) + alignScore q (fr.drop (t + p.length)) := by
  induction p generalizing t with
  | nil =>
    have : alignScore ([] : List (Arc S)) (fr.drop t) = 0 := by cases fr.drop t <;> rfl
    simp [this]
  | cons a p ih =>
    simp only [List.length_cons] at h
    rw [List.cons_append, alignScore_cons _ _ _ _ (by omega), alignScore_cons _ _ _ _ (by omega),
      ih (t + 1) (by omega), ← add_assoc,
      show t + (a :: p).length = t + 1 + p.length by simp only [List.length_cons]; omega]

theorem alignScore_nil (fr : List (List S)) : alignScore ([] : List (Arc S)) fr = 0 := by cases fr <;> rfl

/-- A path of rows: each arc is in the row of its state. -/
theorem arc_in_row (f : List (List (Arc S))) (hf : RowsOk f) (a : Arc S) (ha : a ∈ f.flatten) :
    a ∈ f.getD a.src [] ∧ a.src < f.length ∧ a.dst < f.length := by
  obtain ⟨row, hr, har⟩ := List.mem_flatten.mp ha
  obtain ⟨s, hs⟩ := List.mem_iff_getElem?.mp hr
  obtain ⟨h1, h2⟩ := hf s row hs a har
  subst h1
  refine ⟨?_, (List.getElem?_eq_some_iff.mp hs).1, h2⟩
  rw [List.getD_eq_getElem?_getD, hs]; exact har

theorem row_sub (f : List (List (Arc S))) (s : Nat) (a : Arc S) (ha : a ∈ f.getD s []) :
    ∃ row, f[s]? = some row ∧ a ∈ row ∧ a ∈ f.flatten := by
  rw [List.getD_eq_getElem?_getD] at ha
  cases h : f[s]? with
  | none => rw [h] at ha; simp at ha
  | some row =>
    rw [h] at ha
    exact ⟨row, rfl, ha, List.mem_flatten.mpr ⟨row, List.mem_of_getElem? h, ha⟩⟩

theorem fwd_succ_ge (f : List (List (Arc S))) (fr : List (List S)) (t : Nat) (a : Arc S)
    (ha : a ∈ f.flatten) : fwd f fr t a.src + useScore fr t a ≤ fwd f fr (t + 1) a.dst := by
  rw [fwd]
  refine (reduceRow_max_le _ ⊥).2.1 _ (List.mem_map.mpr ⟨a, List.mem_filter.mpr ⟨ha, by simp⟩, rfl⟩)

theorem bwd_succ_ge (f : List (List (Arc S))) (hf : RowsOk f) (fr : List (List S)) (k : Nat) (a : Arc S)
    (ha : a ∈ f.flatten) :
    bwd f fr k a.dst + useScore fr (fr.length - (k + 1)) a ≤ bwd f fr (k + 1) a.src := by
  rw [bwd]
  exact (reduceRow_max_le _ ⊥).2.1 _ (List.mem_map.mpr ⟨a, (arc_in_row f hf a ha).1, rfl⟩)

theorem fwd_path_le (f : List (List (Arc S))) (fr : List (List S)) (s : Nat) (p : List (Arc S)) (s' t : Nat)
    (hp : Path f.flatten s p s') (ht : t + p.length ≤ fr.length) :
    fwd f fr t s + alignScore p (fr.drop t) ≤ fwd f fr (t + p.length) s' := by
  induction p generalizing s t with
  | nil =>
    rw [(path_nil _ _ _).mp hp, alignScore_nil, add_zero]; exact le_refl _
  | cons a p ih =>
    simp only [List.length_cons] at ht
    obtain ⟨h1, rfl, h3⟩ := (path_cons _ _ _ _ _).mp hp
    rw [alignScore_cons _ _ _ _ (by omega), ← add_assoc]
    refine le_trans (add_le_add_left (fwd_succ_ge f fr t a h1) _) ?_
    have := ih a.dst (t + 1) h3 (by omega)
    rw [show t + (a :: p).length = t + 1 + p.length by simp only [List.length_cons]; omega]
    exact this

theorem bwd_path_le (f : List (List (Arc S))) (hf : RowsOk f) (fr : List (List S)) (s : Nat)
    (p : List (Arc S)) (s' k : Nat) (hp : Path f.flatten s p s') (ht : k + p.length ≤ fr.length) :
    alignScore p (fr.drop (fr.length - (k + p.length))) + bwd f fr k s' ≤ bwd f fr (k + p.length) s := by
  induction p generalizing s with
  | nil =>
    rw [(path_nil _ _ _).mp hp, alignScore_nil, zero_add]; exact le_refl _
  | cons a p ih =>
    simp only [List.length_cons] at ht
    obtain ⟨h1, rfl, h3⟩ := (path_cons _ _ _ _ _).mp hp
    rw [show k + (a :: p).length = k + p.length + 1 by simp only [List.length_cons]; omega]
    rw [alignScore_cons _ _ _ _ (by omega), add_assoc]
    have h4 := ih a.dst h3 (by omega)
    rw [show fr.length - (k + p.length + 1) + 1 = fr.length - (k + p.length) by omega]
    refine le_trans (add_le_add_right h4 _) ?_
    rw [add_comm]
    exact bwd_succ_ge f hf fr (k + p.length) a h1

/-- A forward score other than minus infinity is the score of a path. -/
theorem fwd_attained (f : List (List (Arc S))) (fr : List (List S)) (t s : Nat) (ht : t ≤ fr.length)
    (h : fwd f fr t s ≠ ⊥) :
    ∃ p, Path f.flatten 0 p s ∧ p.length = t ∧ alignScore p fr = fwd f fr t s := by
  induction t generalizing s with
  | zero =>
    rw [fwd] at h ⊢
    split at h
    · next h0 =>
      subst h0
      exact ⟨[], (path_nil _ _ _).mpr rfl, rfl, by rw [alignScore_nil, if_pos rfl]⟩
    · exact absurd rfl h
  | succ t ih =>
    rw [fwd] at h ⊢
    rcases (reduceRow_max_le ((f.flatten.filter (fun a => a.dst = s)).map
      (fun a => fwd f fr t a.src + useScore fr t a)) (⊥ : S)).2.2 with h1 | h1
    · exact absurd h1 h
    · obtain ⟨a, ha, hv⟩ := List.mem_map.mp h1
      obtain ⟨ha1, ha2⟩ := List.mem_filter.mp ha
      have ha2 : a.dst = s := by simpa using ha2
      have hne : fwd f fr t a.src ≠ ⊥ := by
        intro h0
        rw [h0, WithBot.bot_add] at hv
        exact h hv.symm
      obtain ⟨p, hp1, hp2, hp3⟩ := ih a.src (by omega) hne
      refine ⟨p ++ [a], (path_append _ _ _ _ _).mpr ⟨a.src, hp1, (path_cons _ _ _ _ _).mpr
        ⟨ha1, rfl, (path_nil _ _ _).mpr ha2⟩⟩, by simp [hp2], ?_⟩
      have h5 := alignScore_append p [a] fr 0 (by omega)
      rw [List.drop_zero] at h5
      rw [h5, hp3, Nat.zero_add, hp2, alignScore_cons _ _ _ _ (by omega), alignScore_nil, add_zero]
      exact hv

/-- A backward score other than minus infinity is the score of a path. -/
theorem bwd_attained (f : List (List (Arc S))) (hf : RowsOk f) (fr : List (List S)) (k s : Nat)
    (hk : k ≤ fr.length) (h : bwd f fr k s ≠ ⊥) :
    ∃ p, Path f.flatten s p (f.length - 1) ∧ 0 < f.length ∧ p.length = k ∧
      alignScore p (fr.drop (fr.length - k)) = bwd f fr k s := by
  induction k generalizing s with
  | zero =>
    rw [bwd] at h ⊢
    split at h
    · next h0 =>
      exact ⟨[], (path_nil _ _ _).mpr (by omega), by omega, rfl, by rw [alignScore_nil, if_pos h0]⟩
    · exact absurd rfl h
  | succ k ih =>
    rw [bwd] at h ⊢
    rcases (reduceRow_max_le ((f.getD s []).map
      (fun a => bwd f fr k a.dst + useScore fr (fr.length - (k + 1)) a)) (⊥ : S)).2.2 with h1 | h1
    · exact absurd h1 h
    · obtain ⟨a, ha, hv⟩ := List.mem_map.mp h1
      obtain ⟨row, hr, har, haf⟩ := row_sub f s a ha
      have hne : bwd f fr k a.dst ≠ ⊥ := by
        intro h0
        rw [h0, WithBot.bot_add] at hv
        exact h hv.symm
      obtain ⟨p, hp1, hp0, hp2, hp3⟩ := ih a.dst (by omega) hne
      refine ⟨a :: p, (path_cons _ _ _ _ _).mpr ⟨haf, (hf s row hr a har).1, hp1⟩, hp0, by simp [hp2], ?_⟩
      rw [alignScore_cons _ _ _ _ (by omega),
        show fr.length - (k + 1) + 1 = fr.length - k by omega, hp3, add_comm]
      exact hv

end Verif.Fsa.Dn
