import Verif.Fsa.Grad.Occupancy

/-!
# C67: what `BackpropGetForwardScores` and `BackpropGetBackwardScores` return in the log semiring
-/

namespace Verif.Fsa
open Verif.Ragged Verif.Util Verif.Fsa.Top Verif.Fsa.Bat Verif.Fsa.Sco Verif.Fsa.Grd
variable {W K : Type}

/-! ## Specification -/

/-- The sum over the states `s` of an FSA with `n` states, of the derivative `g s` times the share that the paths
listed by `L' s` have in the weight of the paths listed by `L s`. -/
def occupancy [Field K] (wt : W → K) (A : List (Arc W)) (n : Nat) (g : Nat → K) (L L' : Nat → List (List Nat)) : K :=
  ((List.range n).map (fun s => g s * (((L' s).map (pathWeight wt A)).sum / ((L s).map (pathWeight wt A)).sum))).sum

/-! ## Theorems -/

section
variable [Field K] [LinearOrder K] [IsStrictOrderedRing K] (wt : W → K) (hwt : ∀ w, 0 ≤ wt w)
  (T : List (List (List (Arc W)))) (hT : VecOk T) (hn : T.flatten.length ≤ intMax)
  (hfw : ∀ f ∈ T, ∀ a ∈ f.flatten, a.src < a.dst) (deriv : List K) (hd : deriv.length = T.flatten.length)
include hwt hT hn hfw hd

theorem backpropForward_eq (fwd : List K) (lp0 : Nat)
    (hF : forwardScores lp0 (fun x w => x * wt w) (· + ·) 0 1 (flat T) = some fwd) :
    ∃ ans, (∀ lp, backpropForward lp wt (flat T) fwd deriv = some ans) ∧ ans.length = T.flatten.flatten.length ∧
      ∀ (r k : Nat) (f : List (List (Arc W))) (a : Arc W), T[r]? = some f → f.flatten[k]? = some a →
        ans[base T r + k]? = some ((List.range f.length).map (fun t => deriv.getD (off T r + t) 0 *
          (between wt f.flatten 0 a.src * wt a.score * between wt f.flatten a.dst t / between wt f.flatten 0 t))).sum := by
  obtain ⟨fwd', g1, g2, g3⟩ := forward_scores_are_path_sums wt T hT hn hfw
  rw [g1] at hF
  obtain rfl := Option.some.inj hF
  obtain ⟨dest, hde, _, _⟩ := destStates_spec T hT
  have hloc := arc_local T hT dest hde
  have hF : ∀ (r s : Nat) (f : List (List (Arc W))), T[r]? = some f → s < f.length →
      fwd'[off T r + s]? = some (between wt f.flatten 0 s) := by
    intro r s f hf hs
    exact g3 r s f hf hs _ (allPaths_from _ (hfw f (List.mem_of_getElem? hf)) 0 s _ (by omega))
  have harc : ∀ (r k : Nat) (f : List (List (Arc W))) (a : Arc W), T[r]? = some f →
      f.flatten[k]? = some a → ∀ cur : List K, cur.length = T.flatten.length →
      forwardArc (flat T) wt fwd' cur (base T r + k) = some
        ((if between wt f.flatten 0 a.dst = 0 then 0 else
          between wt f.flatten 0 a.src * wt a.score / between wt f.flatten 0 a.dst) *
          cur.getD (off T r + a.dst) 0) := by
    intro r k f a hf ha cur hc
    obtain ⟨h1, h2, h3, h4, h5, h6⟩ := hloc r k f a hf ha
    have hm := hfw f (List.mem_of_getElem? hf)
    have e1 := id2_get T _ h1
    have e2 : (flat T).arcs[base T r + k]? = some a := h2
    have hlt : off T r + a.dst < cur.length := by rw [hc]; exact off_lt T r _ f hf h6
    unfold forwardArc
    rw [h3] at e1
    simp only [e1, e2, Option.bind_eq_bind, Option.bind_some, hF r _ f hf h5,
      show off T r + a.src - a.src + a.dst = off T r + a.dst by omega, hF r _ f hf h6,
      alpha_eq _ _ (between_step wt f.flatten hm hwt 0 k a ha) (between_nonneg wt _ hwt 0 a.dst),
      List.getElem?_eq_getElem hlt, List.getD_eq_getElem?_getD, Option.getD_some]
  obtain ⟨D, ans, q1, q2, q3⟩ := grad_leaving T hT hn hfw (forwardArc (flat T) wt fwd')
    (fun r _ a d => (if between wt (T.getD r []).flatten 0 a.dst = 0 then 0 else
      between wt (T.getD r []).flatten 0 a.src * wt a.score / between wt (T.getD r []).flatten 0 a.dst) * d)
    deriv hd (by
      intro r k f a hf ha cur hc
      have e : T.getD r [] = f := by rw [List.getD_eq_getElem?_getD, hf]; rfl
      rw [e]
      exact harc r k f a hf ha cur hc)
  refine ⟨ans, ?_, q2, ?_⟩
  · intro lp
    unfold backpropForward
    rw [if_neg (by rw [flat_id1_length, g2, hd]; simp)]
    exact q1 lp
  · intro r k f a hf ha
    obtain ⟨h1, h2, h3, h4, h5, h6⟩ := hloc r k f a hf ha
    have hm := hfw f (List.mem_of_getElem? hf)
    have e : T.getD r [] = f := by rw [List.getD_eq_getElem?_getD, hf]; rfl
    obtain ⟨q4, q5⟩ := q3 r f hf
    rw [q5 k a ha]
    simp only [e] at q4 ⊢
    congr 1
    set A := f.flatten with hA
    have hocc := occ f.length (fun x : Arc W × Nat => x.1.src) (fun x => x.1.dst) (fun x => wt x.1.score) A.zipIdx
      (fun s => f.length - s) (by
        intro x hx
        have hx' := (mem_zip A x).mp hx
        obtain ⟨_, _, _, _, h7, h8⟩ := hloc r x.2 f x.1 hf hx'
        have := hm x.1 (List.mem_of_getElem? hx')
        exact ⟨h8, by omega⟩) (between wt A 0) (D r) (fun s => deriv.getD (off T r + s) 0) (between wt A)
      (fun s _ t _ => between_first wt A hm s t) (by
        intro x hx
        exact between_pos_step wt A hm hwt 0 x.2 x.1 ((mem_zip A x).mp hx)) (by
        intro s hs
        rw [q4 s hs]
        congr 2
        apply List.map_congr_left
        intro x hx
        have hxs := of_decide_eq_true (List.mem_filter.mp hx).2
        subst hxs
        rfl)
    by_cases h0 : between wt A 0 a.dst = 0
    · rw [if_pos h0, zero_mul]
      symm
      apply List.sum_eq_zero
      intro x hx
      obtain ⟨t, _, rfl⟩ := List.mem_map.mp hx
      have hz : between wt A 0 a.src * wt a.score = 0 := by
        by_contra hne
        have := mul_ne_zero_iff.mp hne
        exact between_pos_step wt A hm hwt 0 k a ha this.1 this.2 h0
      rw [hz]; simp
    · rw [if_neg h0, hocc a.dst h6 h0, ← mul_assoc, div_mul_cancel₀ _ h0, ← List.sum_map_mul_left]
      congr 1
      apply List.map_congr_left
      intro t _
      ring

theorem backpropBackward_eq (bwd : List K) (lp0 : Nat)
    (hB : backwardScores lp0 (fun x w => x * wt w) (· + ·) 0 1 (flat T) = some bwd) :
    ∃ ans, (∀ lp, backpropBackward lp wt (flat T) bwd deriv = some ans) ∧ ans.length = T.flatten.flatten.length ∧
      ∀ (r k : Nat) (f : List (List (Arc W))) (a : Arc W), T[r]? = some f → f.flatten[k]? = some a →
        ans[base T r + k]? = some ((List.range f.length).map (fun t => deriv.getD (off T r + t) 0 *
          (between wt f.flatten t a.src * wt a.score * between wt f.flatten a.dst (f.length - 1) /
            between wt f.flatten t (f.length - 1)))).sum := by
  obtain ⟨bwd', g1, g2, g3⟩ := backward_scores_are_path_sums wt T hT hn hfw
  rw [g1] at hB
  obtain rfl := Option.some.inj hB
  obtain ⟨dest, hde, _, _⟩ := destStates_spec T hT
  have hloc := arc_local T hT dest hde
  have hF : ∀ (r s : Nat) (f : List (List (Arc W))), T[r]? = some f → s < f.length →
      bwd'[off T r + s]? = some (between wt f.flatten s (f.length - 1)) := by
    intro r s f hf hs
    exact g3 r s f hf hs _ (allPaths_from _ (hfw f (List.mem_of_getElem? hf)) s (f.length - 1) _ (by omega))
  have harc : ∀ (r k : Nat) (f : List (List (Arc W))) (a : Arc W), T[r]? = some f →
      f.flatten[k]? = some a → ∀ cur : List K, cur.length = T.flatten.length →
      backwardArc (flat T) wt bwd' cur (base T r + k) = some
        ((if between wt f.flatten a.src (f.length - 1) = 0 then 0 else
          between wt f.flatten a.dst (f.length - 1) * wt a.score / between wt f.flatten a.src (f.length - 1)) *
          cur.getD (off T r + a.src) 0) := by
    intro r k f a hf ha cur hc
    obtain ⟨h1, h2, h3, h4, h5, h6⟩ := hloc r k f a hf ha
    have hm := hfw f (List.mem_of_getElem? hf)
    have e1 := id2_get T _ h1
    have e2 : (flat T).arcs[base T r + k]? = some a := h2
    have hlt : off T r + a.src < cur.length := by rw [hc]; exact off_lt T r _ f hf h5
    unfold backwardArc
    rw [h3] at e1
    simp only [e1, e2, Option.bind_eq_bind, Option.bind_some, hF r _ f hf h5,
      show off T r + a.src - a.src + a.dst = off T r + a.dst by omega, hF r _ f hf h6,
      alpha_eq _ _ (between_step' wt f.flatten hm hwt (f.length - 1) k a ha)
        (between_nonneg wt _ hwt a.src (f.length - 1)),
      List.getElem?_eq_getElem hlt, List.getD_eq_getElem?_getD, Option.getD_some]
  obtain ⟨D, ans, q1, q2, q3⟩ := grad_entering T hT hn hfw (backwardArc (flat T) wt bwd')
    (fun r _ a d => (if between wt (T.getD r []).flatten a.src ((T.getD r []).length - 1) = 0 then 0 else
      between wt (T.getD r []).flatten a.dst ((T.getD r []).length - 1) * wt a.score /
        between wt (T.getD r []).flatten a.src ((T.getD r []).length - 1)) * d)
    deriv hd (by
      intro r k f a hf ha cur hc
      have e : T.getD r [] = f := by rw [List.getD_eq_getElem?_getD, hf]; rfl
      rw [e]
      exact harc r k f a hf ha cur hc)
  refine ⟨ans, ?_, q2, ?_⟩
  · intro lp
    unfold backpropBackward
    rw [if_neg (by rw [flat_id1_length, g2, hd]; simp)]
    exact q1 lp
  · intro r k f a hf ha
    obtain ⟨h1, h2, h3, h4, h5, h6⟩ := hloc r k f a hf ha
    have hm := hfw f (List.mem_of_getElem? hf)
    have e : T.getD r [] = f := by rw [List.getD_eq_getElem?_getD, hf]; rfl
    obtain ⟨q4, q5⟩ := q3 r f hf
    rw [q5 k a ha]
    simp only [e] at q4 ⊢
    congr 1
    set A := f.flatten with hA
    set z := f.length - 1 with hz
    have hocc := occ f.length (fun x : Arc W × Nat => x.1.dst) (fun x => x.1.src) (fun x => wt x.1.score) A.zipIdx
      (fun s => s) (by
        intro x hx
        have hx' := (mem_zip A x).mp hx
        obtain ⟨_, _, _, _, h7, h8⟩ := hloc r x.2 f x.1 hf hx'
        have := hm x.1 (List.mem_of_getElem? hx')
        exact ⟨h7, by omega⟩) (fun s => between wt A s z) (D r) (fun s => deriv.getD (off T r + s) 0)
      (fun s t => between wt A t s)
      (fun s _ t _ => by
        rw [between_last wt A hm t s]
        congr 1
        by_cases h : s = t
        · rw [if_pos h, if_pos h.symm]
        · rw [if_neg h, if_neg (fun h' => h h'.symm)]) (by
        intro x hx
        exact between_pos_step' wt A hm hwt z x.2 x.1 ((mem_zip A x).mp hx)) (by
        intro s hs
        rw [q4 s hs]
        congr 2
        apply List.map_congr_left
        intro x hx
        have hxs := of_decide_eq_true (List.mem_filter.mp hx).2
        subst hxs
        rfl)
    by_cases h0 : between wt A a.src z = 0
    · rw [if_pos h0, zero_mul]
      symm
      apply List.sum_eq_zero
      intro x hx
      obtain ⟨t, _, rfl⟩ := List.mem_map.mp hx
      have hz : between wt A a.dst z * wt a.score = 0 := by
        by_contra hne
        have := mul_ne_zero_iff.mp hne
        exact between_pos_step' wt A hm hwt z k a ha this.1 this.2 h0
      rw [mul_assoc, mul_comm (wt a.score), hz]; simp
    · rw [if_neg h0, hocc a.src h5 h0, ← mul_assoc, div_mul_cancel₀ _ h0, ← List.sum_map_mul_left]
      congr 1
      apply List.map_congr_left
      intro t _
      ring

/-- C67: the derivative of an arc's score is, summed over the states, the derivative of the state's forward score
times the share of the paths through the arc in the weight of all paths to the state. -/
theorem backprop_forward_is_occupancy (fwd : List K) (lp0 : Nat)
    (hF : forwardScores lp0 (fun x w => x * wt w) (· + ·) 0 1 (flat T) = some fwd) :
    ∃ ans, (∀ lp, backpropForward lp wt (flat T) fwd deriv = some ans) ∧ ans.length = T.flatten.flatten.length ∧
      ∀ (r j : Nat) (f : List (List (Arc W))), T[r]? = some f → j < f.flatten.length →
        ∀ L L' : Nat → List (List Nat), (∀ s < f.length, AllPaths f.flatten 0 s (L s)) →
          (∀ s < f.length, (L' s).Nodup ∧ ∀ is, is ∈ L' s ↔ IPath f.flatten 0 is s ∧ j ∈ is) →
          ans[base T r + j]? = some (occupancy wt f.flatten f.length (fun s => deriv.getD (off T r + s) 0) L L') := by
  obtain ⟨ans, h1, h2, h3⟩ := backpropForward_eq wt hwt T hT hn hfw deriv hd fwd lp0 hF
  refine ⟨ans, h1, h2, ?_⟩
  intro r j f hf hj L L' hL hL'
  have ha := List.getElem?_eq_getElem hj
  have hm := hfw f (List.mem_of_getElem? hf)
  rw [h3 r j f _ hf ha]
  congr 2
  apply List.map_congr_left
  intro s hs
  have hs := List.mem_range.mp hs
  rw [between_through wt _ hm 0 s j _ ha _ (hL' s hs).1 (hL' s hs).2, between_eq wt _ hm 0 s _ (hL s hs)]

/-- C67: the same for backward scores and the paths from the state to the final state. -/
theorem backprop_backward_is_occupancy (bwd : List K) (lp0 : Nat)
    (hB : backwardScores lp0 (fun x w => x * wt w) (· + ·) 0 1 (flat T) = some bwd) :
    ∃ ans, (∀ lp, backpropBackward lp wt (flat T) bwd deriv = some ans) ∧ ans.length = T.flatten.flatten.length ∧
      ∀ (r j : Nat) (f : List (List (Arc W))), T[r]? = some f → j < f.flatten.length →
        ∀ L L' : Nat → List (List Nat), (∀ s < f.length, AllPaths f.flatten s (rowsFsa f).final (L s)) →
          (∀ s < f.length, (L' s).Nodup ∧ ∀ is, is ∈ L' s ↔ IPath f.flatten s is (rowsFsa f).final ∧ j ∈ is) →
          ans[base T r + j]? = some (occupancy wt f.flatten f.length (fun s => deriv.getD (off T r + s) 0) L L') := by
  obtain ⟨ans, h1, h2, h3⟩ := backpropBackward_eq wt hwt T hT hn hfw deriv hd bwd lp0 hB
  refine ⟨ans, h1, h2, ?_⟩
  intro r j f hf hj L L' hL hL'
  have ha := List.getElem?_eq_getElem hj
  have hm := hfw f (List.mem_of_getElem? hf)
  rw [h3 r j f _ hf ha]
  congr 2
  apply List.map_congr_left
  intro s hs
  have hs := List.mem_range.mp hs
  have e1 := between_through wt _ hm s _ j _ ha _ (hL' s hs).1 (hL' s hs).2
  have e2 := between_eq wt _ hm s _ _ (hL s hs)
  have e3 : (rowsFsa f).final = f.length - 1 := rfl
  rw [e3] at e1 e2
  rw [e1, e2]
end

end Verif.Fsa
