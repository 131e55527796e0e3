import Verif.Fsa.Scores.Paths
import Verif.Fsa.Connect.Props
import Mathlib.Algebra.Field.Rat
import Mathlib.Algebra.Field.Basic

/-!
# C36, C38: forward and backward scores and arc posteriors

The scores are in a commutative semiring: `wt w` is the weight of an arc of score `w` (for the log semiring,
the exponential), weights along a path multiply and weights of paths add up.
-/

namespace Verif.Fsa
open Verif.Ragged Verif.Util Verif.Fsa.Bat Verif.Fsa.Top Verif.Fsa.Sco
variable {W K : Type}

/-! ## Specification -/

/-- `S` cuts `f` in two: the start state is in it, the final state is not, and no arc leads back into it. -/
structure Cut (f : Fsa W) (S : Nat → Bool) : Prop where
  start : S 0 = true
  final : S f.final = false
  closed : ∀ a ∈ f.arcs, S a.dst = true → S a.src = true

/-- The arcs that leave `S`. -/
def crossing (A : List (Arc W)) (S : Nat → Bool) : List (Arc W) := A.filter (fun a => S a.src && !S a.dst)

/-! ## Theorems -/

theorem vec_arc_lt {T : List (List (List (Arc W)))} (hT : VecOk T) {f : List (List (Arc W))} (hf : f ∈ T) :
    ∀ a ∈ f.flatten, a.src < f.length ∧ a.dst < f.length := by
  intro a ha
  obtain ⟨dest, hde, _, _⟩ := destStates_spec T hT
  obtain ⟨r, hr⟩ := List.getElem?_of_mem hf
  obtain ⟨j, hj⟩ := List.getElem?_of_mem ha
  obtain ⟨_, _, _, _, h1, h2⟩ := arc_local T hT dest hde r j f a hr hj
  exact ⟨h1, h2⟩

/-- The paths between two states of a top-sorted FSA can be listed. -/
theorem allPaths_exists (A : List (Arc W)) (hA : ∀ a ∈ A, a.src < a.dst) (s t : Nat) : ∃ L, AllPaths A s t L :=
  ⟨_, allPaths_to A hA s t (t + 1) (by omega)⟩

section
variable [CommSemiring K] [DecidableEq K] (wt : W → K)
  (T : List (List (List (Arc W)))) (hT : VecOk T) (hn : T.flatten.length ≤ intMax)
  (hfw : ∀ f ∈ T, ∀ a ∈ f.flatten, a.src < a.dst)
include hT hn hfw

/-- C36: the forward score of a state is the sum of the weights of all paths from the start state. -/
theorem forward_scores_are_path_sums :
    ∃ fwd, (∀ lp0, forwardScores lp0 (fun x w => x * wt w) (· + ·) 0 1 (flat T) = some fwd) ∧
      fwd.length = T.flatten.length ∧
      ∀ (r s : Nat) (f : List (List (Arc W))), T[r]? = some f → s < f.length →
        ∀ L, AllPaths f.flatten 0 s L → fwd[off T r + s]? = some (L.map (pathWeight wt f.flatten)).sum := by
  obtain ⟨out, h1, h2, h3⟩ := forward_fixed (fun (x : K) w => x * wt w) (· + ·) 0 1
    (fun l l' h => reduceRow_add_perm l l' h) T hT hn hfw
  refine ⟨out, h1, h2, ?_⟩
  intro r s f hf hs L hL
  have hm := List.mem_of_getElem? hf
  have hlt : off T r + s < out.length := by rw [h2]; exact off_lt T r s f hf hs
  have := forward_sum wt f.flatten (hfw f hm) f.length (fun a ha => (vec_arc_lt hT hm a ha).2)
    (fun s => out.getD (off T r + s) 0) (by
      intro s hs
      have := h3 r f hf s hs
      rw [reduceRow_add] at this
      exact this) s hs L hL
  rw [← this, List.getD_eq_getElem?_getD, List.getElem?_eq_getElem hlt]
  rfl

/-- C36: the backward score of a state is the sum of the weights of all paths to the final state. -/
theorem backward_scores_are_path_sums :
    ∃ bwd, (∀ lp0, backwardScores lp0 (fun x w => x * wt w) (· + ·) 0 1 (flat T) = some bwd) ∧
      bwd.length = T.flatten.length ∧
      ∀ (r s : Nat) (f : List (List (Arc W))), T[r]? = some f → s < f.length →
        ∀ L, AllPaths f.flatten s (rowsFsa f).final L →
          bwd[off T r + s]? = some (L.map (pathWeight wt f.flatten)).sum := by
  obtain ⟨out, h1, h2, h3⟩ := backward_fixed (fun (x : K) w => x * wt w) (· + ·) 0 1
    (fun l l' h => reduceRow_add_perm l l' h) T hT hn hfw
  refine ⟨out, h1, h2, ?_⟩
  intro r s f hf hs L hL
  have hm := List.mem_of_getElem? hf
  have hlt : off T r + s < out.length := by rw [h2]; exact off_lt T r s f hf hs
  have := backward_sum wt f.flatten (hfw f hm) f.length (fun a ha => (vec_arc_lt hT hm a ha).2)
    (fun s => out.getD (off T r + s) 0) (by
      intro s hs
      have := h3 r f hf s hs
      rw [reduceRow_add] at this
      exact this) (f.length - s) s hs (by omega) L hL
  rw [← this, List.getD_eq_getElem?_getD, List.getElem?_eq_getElem hlt]
  rfl

/-- C36: the total score of an FSA is the sum of the weights of its accepting paths, and the backward score
of the start state is the same number. -/
theorem tot_scores_are_path_sums (fwd bwd : List K) (lp0 lp1 : Nat)
    (hF : forwardScores lp0 (fun x w => x * wt w) (· + ·) 0 1 (flat T) = some fwd)
    (hB : backwardScores lp1 (fun x w => x * wt w) (· + ·) 0 1 (flat T) = some bwd) :
    ∃ tot, totScores (flat T) 0 fwd = some tot ∧ tot.length = T.length ∧
      ∀ (r : Nat) (f : List (List (Arc W))), T[r]? = some f →
        (∀ L : List (List Nat), L.Nodup → (∀ is, is ∈ L ↔ IAccepting (rowsFsa f) is) →
          tot[r]? = some (L.map (pathWeight wt f.flatten)).sum) ∧
        (f ≠ [] → tot[r]? = bwd[off T r]?) := by
  obtain ⟨fwd', g1, g2, g3⟩ := forward_scores_are_path_sums wt T hT hn hfw
  obtain ⟨bwd', k1, k2, k3⟩ := backward_scores_are_path_sums wt T hT hn hfw
  rw [g1] at hF
  obtain rfl := Option.some.inj hF
  rw [k1] at hB
  obtain rfl := Option.some.inj hB
  have hs1 := flat_sp1_length T
  have hval : ∀ r < T.length, ∃ x, (do
      let b ← (flat T).sp1[r]?
      let e ← (flat T).sp1[r + 1]?
      if b < e then fwd'[e - 1]? else some 0) = some x ∧ (T.getD r [] = [] → x = 0) ∧
        (T.getD r [] ≠ [] → fwd'[off T r + ((T.getD r []).length - 1)]? = some x) := by
    intro r hr
    have hf := List.getElem?_eq_getElem hr
    have ho := off_succ T r _ hf
    have hd : T.getD r [] = T[r] := by rw [List.getD_eq_getElem?_getD, hf]; rfl
    have e1 := flat_sp1 T r (by omega)
    have e2 := flat_sp1 T (r + 1) (by omega)
    simp only [e1, e2, Option.bind_eq_bind, Option.bind_some]
    rw [hd]
    by_cases h0 : T[r] = []
    · refine ⟨0, ?_, fun _ => rfl, fun h => absurd h0 h⟩
      rw [h0] at ho
      rw [if_neg (by simp at ho; omega)]
    · have hpos : 0 < T[r].length := List.length_pos_iff.mpr h0
      rw [if_pos (by omega)]
      have hlt := off_lt T r (T[r].length - 1) _ hf (by omega)
      have hlt' : off T r + (T[r].length - 1) < fwd'.length := by omega
      refine ⟨fwd'[off T r + (T[r].length - 1)], ?_, fun h => absurd h h0, fun _ => List.getElem?_eq_getElem hlt'⟩
      rw [ho, show off T r + T[r].length - 1 = off T r + (T[r].length - 1) by omega]
      exact List.getElem?_eq_getElem hlt'
  obtain ⟨tot, t1⟩ : ∃ tot, (List.range ((flat T).sp1.length - 1)).mapM (fun r => (do
      let b ← (flat T).sp1[r]?
      let e ← (flat T).sp1[r + 1]?
      if b < e then fwd'[e - 1]? else some (0 : K))) = some tot := by
    apply mapM_exists
    intro r hr
    have := List.mem_range.mp hr
    obtain ⟨x, hx, _⟩ := hval r (by rw [hs1] at this; omega)
    exact ⟨x, hx⟩
  have htl := (mapM_get t1).1
  rw [List.length_range, hs1, Nat.add_sub_cancel] at htl
  have htot : ∀ (r : Nat) (f : List (List (Arc W))), T[r]? = some f →
      (f = [] → tot[r]? = some 0) ∧ (f ≠ [] → tot[r]? = fwd'[off T r + (f.length - 1)]?) := by
    intro r f hf
    have hr := (List.getElem?_eq_some_iff.mp hf).1
    obtain ⟨x, hx, h0, h1⟩ := hval r hr
    have hd : T.getD r [] = f := by rw [List.getD_eq_getElem?_getD, hf]; rfl
    rw [hd] at h0 h1
    have := (mapM_get t1).2 r r (List.getElem?_range (by rw [hs1]; omega))
    rw [hx] at this
    exact ⟨fun h => by rw [this, h0 h], fun h => by rw [this, h1 h]⟩
  refine ⟨tot, ?_, htl, ?_⟩
  · unfold totScores
    rw [if_neg (by rw [flat_id1_length, g2]; simp)]
    exact t1
  · intro r f hf
    obtain ⟨h0, h1⟩ := htot r f hf
    have hm := List.mem_of_getElem? hf
    constructor
    · intro L hL1 hL2
      by_cases he : f = []
      · have : L = [] := by
          rw [List.eq_nil_iff_forall_not_mem]
          intro is his
          have := ((hL2 is).mp his).1
          subst he
          simp [rowsFsa] at this
        rw [h0 he, this]
        rfl
      · have hpos : 0 < f.length := List.length_pos_iff.mpr he
        rw [h1 he]
        refine g3 r (f.length - 1) f hf (by omega) L ⟨hL1, fun is => ?_⟩
        rw [hL2]
        exact ⟨fun h => h.2, fun h => ⟨hpos, h⟩⟩
    · intro he
      have hpos : 0 < f.length := List.length_pos_iff.mpr he
      obtain ⟨L, hL⟩ := allPaths_exists f.flatten (hfw f hm) 0 (f.length - 1)
      rw [h1 he, g3 r (f.length - 1) f hf (by omega) L hL, ← k3 r 0 f hf hpos L hL]
      rfl

/-- C36: over the arcs of every cut, forward score times arc weight times backward score adds up to the
total weight of the accepting paths. -/
theorem forward_backward_on_cuts (fwd bwd : List K) (lp0 lp1 : Nat)
    (hF : forwardScores lp0 (fun x w => x * wt w) (· + ·) 0 1 (flat T) = some fwd)
    (hB : backwardScores lp1 (fun x w => x * wt w) (· + ·) 0 1 (flat T) = some bwd)
    (r : Nat) (f : List (List (Arc W))) (hf : T[r]? = some f) (S : Nat → Bool) (hS : Cut (rowsFsa f) S)
    (L : List (List Nat)) (hL1 : L.Nodup) (hL2 : ∀ is, is ∈ L ↔ IAccepting (rowsFsa f) is) :
    ((crossing f.flatten S).map (fun a =>
      fwd.getD (off T r + a.src) 0 * wt a.score * bwd.getD (off T r + a.dst) 0)).sum =
      (L.map (pathWeight wt f.flatten)).sum := by
  obtain ⟨fwd', g1, g2, g3⟩ := forward_fixed (fun (x : K) w => x * wt w) (· + ·) 0 1
    (fun l l' h => reduceRow_add_perm l l' h) T hT hn hfw
  obtain ⟨bwd', k1, k2, k3⟩ := backward_fixed (fun (x : K) w => x * wt w) (· + ·) 0 1
    (fun l l' h => reduceRow_add_perm l l' h) T hT hn hfw
  rw [g1] at hF
  obtain rfl := Option.some.inj hF
  rw [k1] at hB
  obtain rfl := Option.some.inj hB
  have hm := List.mem_of_getElem? hf
  by_cases hlen : f.length < 2
  · have hc : f.length - 1 = 0 := by omega
    have h1 := hS.final
    have h2 := hS.start
    simp only [rowsFsa, Fsa.final] at h1
    rw [hc, h2] at h1
    cases h1
  have hpos : 2 ≤ f.length := by omega
  set S' : Nat → Bool := fun s => S s && decide (s < f.length) with hS'
  have hcr : crossing f.flatten S = f.flatten.filter (fun a => S' a.src && !S' a.dst) := by
    apply List.filter_congr
    intro a ha
    obtain ⟨h1, h2⟩ := vec_arc_lt hT hm a ha
    simp [hS', h1, h2]
  obtain ⟨m, hm1, hm2, hm3⟩ : ∃ m, m + 1 < f.length ∧ S' m = true ∧ ∀ s, m < s → S' s = false := by
    have : ∀ k, 0 < k → k < f.length → (∀ s, k ≤ s → S' s = false) →
        ∃ m, m + 1 < f.length ∧ S' m = true ∧ ∀ s, m < s → S' s = false := by
      intro k
      induction k with
      | zero => intro h; omega
      | succ k ih =>
        intro _ hk hall
        cases hs : S' k with
        | true => exact ⟨k, by omega, hs, fun s h => hall s (by omega)⟩
        | false =>
          have hk0 : 0 < k := by
            rcases Nat.eq_zero_or_pos k with h | h
            · subst h
              have := hS.start
              have h0 : decide (0 < f.length) = true := decide_eq_true (by omega)
              rw [hS'] at hs
              simp only [this, h0] at hs
              cases hs
            · exact h
          exact ih hk0 (by omega) (fun s h => by
            rcases Nat.lt_or_ge k s with h1 | h1
            · exact hall s (by omega)
            · obtain rfl : s = k := by omega
              exact hs)
    refine this (f.length - 1) (by omega) (by omega) (fun s h => ?_)
    by_cases h1 : s = f.length - 1
    · have := hS.final
      simp only [rowsFsa, Fsa.final] at this
      simp [hS', h1, this]
    · have : ¬ s < f.length := by omega
      simp [hS', this]
  have hc := cut_sum wt f.flatten (hfw f hm) f.length hpos (fun a ha => (vec_arc_lt hT hm a ha).2)
    (fun s => fwd'.getD (off T r + s) 0) (fun s => bwd'.getD (off T r + s) 0) (by
      intro s hs
      have := g3 r f hf s hs
      rw [reduceRow_add] at this
      exact this) (by
      intro s hs
      have := k3 r f hf s hs
      rw [reduceRow_add] at this
      exact this) m S' hm1 (by
        have := hS.start
        have h0 : 0 < f.length := by omega
        simp [hS', this, h0]) hm2 hm3 (by
        intro a ha h
        have := hS.closed a ha (by simp only [hS', Bool.and_eq_true] at h; exact h.1)
        simp [hS', this, (vec_arc_lt hT hm a ha).1])
  rw [hcr]
  refine hc.trans ?_
  refine backward_sum wt f.flatten (hfw f hm) f.length (fun a ha => (vec_arc_lt hT hm a ha).2)
    (fun s => bwd'.getD (off T r + s) 0) (by
      intro s hs
      have := k3 r f hf s hs
      rw [reduceRow_add] at this
      exact this) f.length 0 (by omega) (by omega) L ⟨hL1, fun is => ?_⟩
  rw [hL2]
  exact ⟨fun h => h.2, fun h => ⟨by show 0 < f.length; omega, h⟩⟩
end

/-! ## Arc posteriors -/

section
variable [Field K] [DecidableEq K] (wt : W → K) (mid : K → K → K) (hmid : ∀ x, mid x x = x)
  (T : List (List (List (Arc W)))) (hT : VecOk T) (hn : T.flatten.length ≤ intMax)
  (hfw : ∀ f ∈ T, ∀ a ∈ f.flatten, a.src < a.dst)
include hmid hT hn hfw

theorem arcPost_eq (fwd bwd : List K) (lp0 lp1 : Nat)
    (hF : forwardScores lp0 (fun x w => x * wt w) (· + ·) 0 1 (flat T) = some fwd)
    (hB : backwardScores lp1 (fun x w => x * wt w) (· + ·) 0 1 (flat T) = some bwd) :
    ∃ post, arcPost (flat T) 1 (fun x w => x * wt w) (· * ·) mid (·⁻¹) fwd bwd = some post ∧
      post.length = T.flatten.flatten.length ∧
      ∀ (r j : Nat) (f : List (List (Arc W))) (a : Arc W), T[r]? = some f → f.flatten[j]? = some a →
        post[base T r + j]? = some (fwd.getD (off T r + a.src) 0 * wt a.score * bwd.getD (off T r + a.dst) 0 *
          (bwd.getD (off T r) 0)⁻¹) := by
  obtain ⟨tot, t1, t2, t3⟩ := tot_scores_are_path_sums wt T hT hn hfw fwd bwd lp0 lp1 hF hB
  obtain ⟨fwd', g1, g2, g3⟩ := forward_scores_are_path_sums wt T hT hn hfw
  obtain ⟨bwd', k1, k2, k3⟩ := backward_scores_are_path_sums wt T hT hn hfw
  rw [g1] at hF
  obtain rfl := Option.some.inj hF
  rw [k1] at hB
  obtain rfl := Option.some.inj hB
  obtain ⟨dest, hde, _, _⟩ := destStates_spec T hT
  have hs1 := flat_sp1_length T
  have hneg : ∀ r < T.length, ∃ x, (do
      let b ← (flat T).sp1[r]?
      let e ← (flat T).sp1[r + 1]?
      if b ≠ e then do
        let x ← fwd'[e - 1]?
        let y ← bwd'[b]?
        some ((mid x y)⁻¹)
      else some ((1 : K)⁻¹)) = some x ∧ (T.getD r [] ≠ [] → x = (bwd'.getD (off T r) 0)⁻¹) := by
    intro r hr
    have hf := List.getElem?_eq_getElem hr
    have hm := List.mem_of_getElem? hf
    have ho := off_succ T r _ hf
    have hd : T.getD r [] = T[r] := by rw [List.getD_eq_getElem?_getD, hf]; rfl
    have e1 := flat_sp1 T r (by omega)
    have e2 := flat_sp1 T (r + 1) (by omega)
    simp only [e1, e2, Option.bind_eq_bind, Option.bind_some]
    rw [hd]
    by_cases h0 : T[r] = []
    · rw [h0] at ho
      rw [if_neg (by simp at ho ⊢; omega)]
      exact ⟨_, rfl, fun h => absurd h0 h⟩
    · have hpos : 0 < T[r].length := List.length_pos_iff.mpr h0
      rw [if_pos (by omega)]
      obtain ⟨L, hL⟩ := allPaths_exists T[r].flatten (hfw _ hm) 0 (T[r].length - 1)
      have e3 := g3 r (T[r].length - 1) _ hf (by omega) L hL
      have e4 := k3 r 0 _ hf hpos L hL
      rw [Nat.add_zero] at e4
      rw [ho, show off T r + T[r].length - 1 = off T r + (T[r].length - 1) by omega]
      simp only [e3, e4, Option.bind_some, hmid]
      refine ⟨_, rfl, fun _ => ?_⟩
      rw [List.getD_eq_getElem?_getD, e4]
      rfl
  obtain ⟨neg, n1⟩ : ∃ neg, negTotScores (flat T) 1 mid (·⁻¹) fwd' bwd' = some neg := by
    unfold negTotScores
    apply mapM_exists
    intro r hr
    have := List.mem_range.mp hr
    obtain ⟨x, hx, _⟩ := hneg r (by rw [hs1] at this; omega)
    exact ⟨x, hx⟩
  have hnegr : ∀ r < T.length, T.getD r [] ≠ [] → neg[r]? = some (bwd'.getD (off T r) 0)⁻¹ := by
    intro r hr h0
    obtain ⟨x, hx, h1⟩ := hneg r hr
    have := (mapM_get n1).2 r r (List.getElem?_range (by rw [hs1]; omega))
    rw [hx] at this
    rw [this, h1 h0]
  have hpost : ∀ (r j : Nat) (f : List (List (Arc W))) (a : Arc W), T[r]? = some f → f.flatten[j]? = some a →
      arcPostOf (flat T) (fun x w => x * wt w) (· * ·) fwd' bwd' neg (base T r + j) =
        some (fwd'.getD (off T r + a.src) 0 * wt a.score * bwd'.getD (off T r + a.dst) 0 *
          (bwd'.getD (off T r) 0)⁻¹) := by
    intro r j f a hf ha
    have hr := (List.getElem?_eq_some_iff.mp hf).1
    obtain ⟨h1, h2, h3, h4, h5, h6⟩ := arc_local T hT dest hde r j f a hf ha
    have e1 : (flat T).arcs[base T r + j]? = some a := h2
    have e2 := id2_get T _ h1
    rw [h3] at e2
    have e3 := flat_id1 T r a.src f hf h5
    have e4 := flat_sp1 T r (by omega)
    have e5 : fwd'[off T r + a.src]? = some (fwd'.getD (off T r + a.src) 0) := by
      have := off_lt T r a.src f hf h5
      rw [List.getD_eq_getElem?_getD, List.getElem?_eq_getElem (by omega)]; rfl
    have e6 : bwd'[off T r + a.dst]? = some (bwd'.getD (off T r + a.dst) 0) := by
      have := off_lt T r a.dst f hf h6
      rw [List.getD_eq_getElem?_getD, List.getElem?_eq_getElem (by omega)]; rfl
    have hd : T.getD r [] = f := by rw [List.getD_eq_getElem?_getD, hf]; rfl
    have e7 := hnegr r hr (by rw [hd]; intro hc; rw [hc] at h5; simp at h5)
    unfold arcPostOf
    simp only [e1, e2, e3, e4, e5, e6, e7, Option.bind_eq_bind, Option.bind_some]
  obtain ⟨post, p1⟩ : ∃ post, (List.range (flat T).arcs.length).mapM
      (arcPostOf (flat T) (fun x w => x * wt w) (· * ·) fwd' bwd' neg) = some post := by
    apply mapM_exists
    intro j hj
    obtain ⟨r, f, k, a, h1, h2, rfl⟩ := arc_global T j (List.mem_range.mp hj)
    exact ⟨_, hpost r k f a h1 h2⟩
  refine ⟨post, ?_, ?_, ?_⟩
  · unfold arcPost
    rw [if_neg (by rw [flat_id1_length, g2, k2]; simp), n1]
    exact p1
  · have := (mapM_get p1).1
    rw [this, List.length_range]; rfl
  · intro r j f a hf ha
    have h1 := (arc_local T hT dest hde r j f a hf ha).1
    rw [(mapM_get p1).2 _ _ (List.getElem?_range h1), hpost r j f a hf ha]

/-- C38: the posterior of an arc is the weight of the accepting paths through it over the weight of all
accepting paths. -/
theorem arc_post_is_occupancy (fwd bwd : List K) (lp0 lp1 : Nat)
    (hF : forwardScores lp0 (fun x w => x * wt w) (· + ·) 0 1 (flat T) = some fwd)
    (hB : backwardScores lp1 (fun x w => x * wt w) (· + ·) 0 1 (flat T) = some bwd) :
    ∃ post, arcPost (flat T) 1 (fun x w => x * wt w) (· * ·) mid (·⁻¹) fwd bwd = some post ∧
      post.length = T.flatten.flatten.length ∧
      ∀ (r j : Nat) (f : List (List (Arc W))), T[r]? = some f → j < f.flatten.length →
        ∀ L L' : List (List Nat), L.Nodup → (∀ is, is ∈ L ↔ IAccepting (rowsFsa f) is) →
          L'.Nodup → (∀ is, is ∈ L' ↔ IAccepting (rowsFsa f) is ∧ j ∈ is) →
          post[base T r + j]? = some ((L'.map (pathWeight wt f.flatten)).sum / (L.map (pathWeight wt f.flatten)).sum) := by
  obtain ⟨post, p1, p2, p3⟩ := arcPost_eq wt mid hmid T hT hn hfw fwd bwd lp0 lp1 hF hB
  obtain ⟨fwd', g1, g2, g3⟩ := forward_scores_are_path_sums wt T hT hn hfw
  obtain ⟨bwd', k1, k2, k3⟩ := backward_scores_are_path_sums wt T hT hn hfw
  rw [g1] at hF
  obtain rfl := Option.some.inj hF
  rw [k1] at hB
  obtain rfl := Option.some.inj hB
  refine ⟨post, p1, p2, ?_⟩
  intro r j f hf hj L L' hL1 hL2 hL1' hL2'
  have hm := List.mem_of_getElem? hf
  have ha := List.getElem?_eq_getElem hj
  obtain ⟨h1, h2⟩ := vec_arc_lt hT hm _ (List.mem_of_getElem? ha)
  have hpos : 0 < f.length := by omega
  obtain ⟨L1, hLL1⟩ := allPaths_exists f.flatten (hfw f hm) 0 f.flatten[j].src
  obtain ⟨L2, hLL2⟩ := allPaths_exists f.flatten (hfw f hm) f.flatten[j].dst (f.length - 1)
  have hth := through_sum wt f.flatten (hfw f hm) 0 (f.length - 1) j _ ha L1 L2 L' hLL1 hLL2 hL1' (by
    intro is
    rw [hL2']
    exact ⟨fun h => ⟨h.1.2, h.2⟩, fun h => ⟨⟨hpos, h.1⟩, h.2⟩⟩)
  have e1 := g3 r _ f hf h1 L1 hLL1
  have e2 := k3 r _ f hf h2 L2 hLL2
  have e3 := k3 r 0 f hf hpos L ⟨hL1, fun is => by
    rw [hL2]
    exact ⟨fun h => h.2, fun h => ⟨hpos, h⟩⟩⟩
  rw [Nat.add_zero] at e3
  rw [p3 r j f _ hf ha, hth, List.getD_eq_getElem?_getD, e1, List.getD_eq_getElem?_getD, e2,
    List.getD_eq_getElem?_getD, e3, div_eq_mul_inv]
  rfl

/-- C38: the posteriors of the arcs of a cut add up to one. -/
theorem arc_post_on_cuts (fwd bwd post : List K) (lp0 lp1 : Nat)
    (hF : forwardScores lp0 (fun x w => x * wt w) (· + ·) 0 1 (flat T) = some fwd)
    (hB : backwardScores lp1 (fun x w => x * wt w) (· + ·) 0 1 (flat T) = some bwd)
    (hP : arcPost (flat T) 1 (fun x w => x * wt w) (· * ·) mid (·⁻¹) fwd bwd = some post)
    (r : Nat) (f : List (List (Arc W))) (hf : T[r]? = some f) (S : Nat → Bool) (hS : Cut (rowsFsa f) S)
    (L : List (List Nat)) (hL1 : L.Nodup) (hL2 : ∀ is, is ∈ L ↔ IAccepting (rowsFsa f) is)
    (hne : (L.map (pathWeight wt f.flatten)).sum ≠ 0) :
    ((f.flatten.zipIdx.filter (fun x => S x.1.src && !S x.1.dst)).map (fun x => post.getD (base T r + x.2) 0)).sum =
      1 := by
  obtain ⟨post', p1, p2, p3⟩ := arcPost_eq wt mid hmid T hT hn hfw fwd bwd lp0 lp1 hF hB
  rw [p1] at hP
  obtain rfl := Option.some.inj hP
  have hc := forward_backward_on_cuts wt T hT hn hfw fwd bwd lp0 lp1 hF hB r f hf S hS L hL1 hL2
  have hm := List.mem_of_getElem? hf
  obtain ⟨bwd', k1, k2, k3⟩ := backward_scores_are_path_sums wt T hT hn hfw
  rw [k1] at hB
  obtain rfl := Option.some.inj hB
  have hpos : 0 < f.length := by
    rcases Nat.eq_zero_or_pos f.length with h | h
    · have h1 := hS.final
      simp only [rowsFsa, Fsa.final, h] at h1
      rw [hS.start] at h1
      cases h1
    · exact h
  have e3 := k3 r 0 f hf hpos L ⟨hL1, fun is => by
    rw [hL2]
    exact ⟨fun h => h.2, fun h => ⟨hpos, h⟩⟩⟩
  rw [Nat.add_zero] at e3
  have hb : bwd'.getD (off T r) 0 = (L.map (pathWeight wt f.flatten)).sum := by
    rw [List.getD_eq_getElem?_getD, e3]; rfl
  have : (f.flatten.zipIdx.filter (fun x => S x.1.src && !S x.1.dst)).map (fun x => post'.getD (base T r + x.2) 0) =
      ((crossing f.flatten S).map (fun a => fwd.getD (off T r + a.src) 0 * wt a.score *
        bwd'.getD (off T r + a.dst) 0 * (bwd'.getD (off T r) 0)⁻¹)) := by
    rw [crossing, zip_filter_map]
    apply List.map_congr_left
    intro x hx
    have hx1 := (mem_zip _ x).mp (List.mem_filter.mp hx).1
    rw [List.getD_eq_getElem?_getD, p3 r x.2 f x.1 hf hx1]
    rfl
  rw [this, List.sum_map_mul_right, hc, hb, mul_inv_cancel₀ hne]
end

/-! ## Examples

The first FSA of `batchExample` has the paths 0 1 3 4 and 0 2 3 4, the second one only an arc. -/

example : VecOk batchExample := batchExample_ok
example : batchExample.flatten.length ≤ intMax := by decide
example : ∀ f ∈ batchExample, ∀ a ∈ f.flatten, a.src < a.dst := by decide

/-- With weight `w + 1` for score `w`: the two paths have the weight 4 each. -/
example : forwardScores 4 (fun x w => x * (w + 1)) (· + ·) 0 1 (flat batchExample) = some [1, 2, 2, 8, 8, 1, 1] := by
  decide +kernel

example : backwardScores 0 (fun x w => x * (w + 1)) (· + ·) 0 1 (flat batchExample) = some [8, 2, 2, 1, 1, 1, 1] := by
  decide +kernel

example : totScores (flat batchExample) 0 [1, 2, 2, 8, 8, 1, 1] = some [8, 1] := by decide +kernel

/-- The states 0 and 1 are a cut with the arcs 0-2 and 1-3. -/
example : Cut (rowsFsa (batchExample.getD 0 [])) (fun s => decide (s ≤ 1)) := ⟨by decide, by decide, by decide⟩

example : crossing (batchExample.getD 0 []).flatten (fun s => decide (s ≤ 1)) = [⟨0, 2, 2, 1⟩, ⟨1, 3, 1, 1⟩] := by
  decide

/-- Each of the two paths has the probability one half. -/
example : arcPost (flat batchExample) 1 (fun (x : Rat) w => x * (w + 1)) (· * ·) (fun x y => (x + y) / 2) (·⁻¹)
    [1, 2, 2, 8, 8, 1, 1] [8, 2, 2, 1, 1, 1, 1] = some [1/2, 1/2, 1/2, 1/2, 1, 1] := by decide +kernel

/-- The two paths of the first FSA. -/
example : pathsTo (batchExample.getD 0 []).flatten 0 5 4 = [[0, 2, 4], [1, 3, 4]] := by decide

end Verif.Fsa
