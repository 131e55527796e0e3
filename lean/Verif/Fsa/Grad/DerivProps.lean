import Verif.Fsa.Grad.Deriv
import Verif.Fsa.Grad.LogProps
import Verif.Fsa.Grad.ArcPostProps

/-!
# C67, C68, C69: what is returned to autograd are derivatives

The score of an arc is `θ w` for its label `w : W`; every arc may have its own `w`.  The scores are moved to
`θ w + ε * δ w`.  The scores that the functions compute are real functions of `ε`, and the inner product of `δ`
with the returned gradient is the derivative of the loss at 0, in every direction `δ`.
-/

namespace Verif.Fsa
open Verif.Ragged Verif.Util Verif.Fsa.Top Verif.Fsa.Bat Verif.Fsa.Sco Verif.Fsa.Grd
variable {W : Type}

/-! ## Specification -/

/-- A loss with derivatives `deriv` with respect to the logarithms of the scores `x`; the scores that are 0 at the
point `x0` (the exponential of minus infinity) do not take part. -/
noncomputable def loss (n : Nat) (deriv x0 x : List ℝ) : ℝ :=
  ((List.range n).map (fun g => if x0.getD g 0 = 0 then 0 else deriv.getD g 0 * Real.log (x.getD g 0))).sum

/-! ## Theorems -/

theorem pairing_dot (arcs : List (Arc W)) (c : List ℝ) (δ : W → ℝ) :
    pairing arcs c δ = dot c (arcs.map (fun a => δ a.score)) := by
  unfold pairing dot
  induction arcs generalizing c with
  | nil => simp
  | cons a arcs ih =>
    cases c with
    | nil => simp
    | cons x c => simp [ih c]

section
variable (T : List (List (List (Arc W)))) (hT : VecOk T) (hn : T.flatten.length ≤ intMax)
  (hfw : ∀ f ∈ T, ∀ a ∈ f.flatten, a.src < a.dst) (θ δ : W → ℝ)
include hT hn hfw

/-- The derivative of a loss that is a function of sums over paths, from those of the FSAs. -/
theorem assemble (deriv ans : List ℝ) (X : ℝ → List ℝ) (u v : Nat → Nat → Nat)
    (hl : ans.length = T.flatten.flatten.length)
    (hX : ∀ (ε : ℝ) (r s : Nat) (f : List (List (Arc W))), T[r]? = some f → s < f.length →
      (X ε)[off T r + s]? = some (between (moved θ δ ε) f.flatten (u r s) (v r s)))
    (ha : ∀ (r k : Nat) (f : List (List (Arc W))) (a : Arc W), T[r]? = some f → f.flatten[k]? = some a →
      ans[base T r + k]? = some ((List.range f.length).map (fun t => deriv.getD (off T r + t) 0 *
        (between (moved θ δ 0) f.flatten (u r t) a.src * moved θ δ 0 a.score *
          between (moved θ δ 0) f.flatten a.dst (v r t) / between (moved θ δ 0) f.flatten (u r t) (v r t)))).sum) :
    HasDerivAt (fun ε => loss T.flatten.length deriv (X 0) (X ε)) (pairing (flat T).arcs ans δ) 0 := by
  obtain ⟨dest, hde, _, _⟩ := destStates_spec T hT
  have e0 : (fun ε => loss T.flatten.length deriv (X 0) (X ε)) = fun ε => ((List.range T.length).map (fun r =>
      ((List.range (T.getD r []).length).map (fun t =>
        if between (moved θ δ 0) (T.getD r []).flatten (u r t) (v r t) = 0 then 0 else
        deriv.getD (off T r + t) 0 * Real.log (between (moved θ δ ε) (T.getD r []).flatten (u r t) (v r t)))).sum)).sum := by
    funext ε
    rw [loss, states_split]
    congr 1
    apply List.map_congr_left
    intro r hr
    have hr := List.mem_range.mp hr
    have hf := List.getElem?_eq_getElem hr
    have hd : T.getD r [] = T[r] := by rw [List.getD_eq_getElem?_getD, hf]; rfl
    rw [hd]
    congr 1
    apply List.map_congr_left
    intro s hs
    have hs := List.mem_range.mp hs
    rw [List.getD_eq_getElem?_getD (l := X 0), List.getD_eq_getElem?_getD (l := X ε), hX 0 r s _ hf hs,
      hX ε r s _ hf hs]
    rfl
  rw [e0]
  refine (list_sum_deriv (List.range T.length) _ ?_ 0 (fun r hr => ?_)).congr_deriv ?_
  · exact fun r => (((T.getD r []).flatten.zipIdx.map (fun x => ((List.range (T.getD r []).length).map (fun t =>
        deriv.getD (off T r + t) 0 *
        (between (moved θ δ 0) (T.getD r []).flatten (u r t) x.1.src * moved θ δ 0 x.1.score *
          between (moved θ δ 0) (T.getD r []).flatten x.1.dst (v r t) /
          between (moved θ δ 0) (T.getD r []).flatten (u r t) (v r t)))).sum * δ x.1.score)).sum)
  · have hr := List.mem_range.mp hr
    have hf := List.getElem?_eq_getElem hr
    have hd : T.getD r [] = T[r] := by rw [List.getD_eq_getElem?_getD, hf]; rfl
    exact log_deriv θ δ (T.getD r []).flatten (by rw [hd]; exact hfw _ (List.mem_of_getElem? hf))
      (T.getD r []).length (u r) (v r) (fun t => deriv.getD (off T r + t) 0)
  · symm
    refine pairing_split T ans hl δ (fun r a => ((List.range (T.getD r []).length).map (fun t =>
        deriv.getD (off T r + t) 0 *
        (between (moved θ δ 0) (T.getD r []).flatten (u r t) a.src * moved θ δ 0 a.score *
          between (moved θ δ 0) (T.getD r []).flatten a.dst (v r t) /
          between (moved θ δ 0) (T.getD r []).flatten (u r t) (v r t)))).sum) ?_ ?_
    · intro r k f a hf hk
      have hd : T.getD r [] = f := by rw [List.getD_eq_getElem?_getD, hf]; rfl
      rw [hd]
      exact ha r k f a hf hk
    · intro r k f a hf hk
      exact (arc_local T hT dest hde r k f a hf hk).2.1

theorem forward_between (F : ℝ → List ℝ)
    (hF : ∀ ε, ∃ lp, forwardScores lp (fun x w => x * moved θ δ ε w) (· + ·) 0 1 (flat T) = some (F ε))
    (ε : ℝ) : (F ε).length = T.flatten.length ∧
    ∀ (r s : Nat) (f : List (List (Arc W))), T[r]? = some f → s < f.length →
      (F ε)[off T r + s]? = some (between (moved θ δ ε) f.flatten 0 s) := by
  obtain ⟨fwd, g1, g2, g3⟩ := forward_scores_are_path_sums (moved θ δ ε) T hT hn hfw
  obtain ⟨lp, h⟩ := hF ε
  rw [g1] at h
  rw [← Option.some.inj h]
  refine ⟨g2, ?_⟩
  intro r s f hf hs
  exact g3 r s f hf hs _ (allPaths_from _ (hfw f (List.mem_of_getElem? hf)) 0 s _ (by omega))

theorem backward_between (B : ℝ → List ℝ)
    (hB : ∀ ε, ∃ lp, backwardScores lp (fun x w => x * moved θ δ ε w) (· + ·) 0 1 (flat T) = some (B ε))
    (ε : ℝ) : (B ε).length = T.flatten.length ∧
    ∀ (r s : Nat) (f : List (List (Arc W))), T[r]? = some f → s < f.length →
      (B ε)[off T r + s]? = some (between (moved θ δ ε) f.flatten s (f.length - 1)) := by
  obtain ⟨bwd, g1, g2, g3⟩ := backward_scores_are_path_sums (moved θ δ ε) T hT hn hfw
  obtain ⟨lp, h⟩ := hB ε
  rw [g1] at h
  rw [← Option.some.inj h]
  refine ⟨g2, ?_⟩
  intro r s f hf hs
  exact g3 r s f hf hs _ (allPaths_from _ (hfw f (List.mem_of_getElem? hf)) s (f.length - 1) _ (by omega))

/-- C67: `BackpropGetForwardScores` returns the gradient of a loss with respect to the arcs' scores from its
derivatives with respect to the forward scores. -/
theorem backprop_forward_is_gradient (F : ℝ → List ℝ)
    (hF : ∀ ε, ∃ lp, forwardScores lp (fun x w => x * moved θ δ ε w) (· + ·) 0 1 (flat T) = some (F ε))
    (deriv : List ℝ) (hd : deriv.length = T.flatten.length) :
    ∃ ans, (∀ lp, backpropForward lp (moved θ δ 0) (flat T) (F 0) deriv = some ans) ∧
      ans.length = T.flatten.flatten.length ∧
      HasDerivAt (fun ε => loss T.flatten.length deriv (F 0) (F ε)) (pairing (flat T).arcs ans δ) 0 := by
  obtain ⟨lp0, h0⟩ := hF 0
  obtain ⟨ans, h1, h2, h3⟩ := backpropForward_eq (moved θ δ 0) (fun w => le_of_lt (moved_pos θ δ 0 w)) T hT hn hfw
    deriv hd (F 0) lp0 h0
  refine ⟨ans, h1, h2, ?_⟩
  exact assemble T hT hn hfw θ δ deriv ans F (fun _ _ => 0) (fun _ s => s) h2
    (fun ε => (forward_between T hT hn hfw θ δ F hF ε).2) h3

/-- C67: the same for `BackpropGetBackwardScores`. -/
theorem backprop_backward_is_gradient (B : ℝ → List ℝ)
    (hB : ∀ ε, ∃ lp, backwardScores lp (fun x w => x * moved θ δ ε w) (· + ·) 0 1 (flat T) = some (B ε))
    (deriv : List ℝ) (hd : deriv.length = T.flatten.length) :
    ∃ ans, (∀ lp, backpropBackward lp (moved θ δ 0) (flat T) (B 0) deriv = some ans) ∧
      ans.length = T.flatten.flatten.length ∧
      HasDerivAt (fun ε => loss T.flatten.length deriv (B 0) (B ε)) (pairing (flat T).arcs ans δ) 0 := by
  obtain ⟨lp0, h0⟩ := hB 0
  obtain ⟨ans, h1, h2, h3⟩ := backpropBackward_eq (moved θ δ 0) (fun w => le_of_lt (moved_pos θ δ 0 w)) T hT hn hfw
    deriv hd (B 0) lp0 h0
  refine ⟨ans, h1, h2, ?_⟩
  exact assemble T hT hn hfw θ δ deriv ans B (fun _ s => s) (fun r _ => (T.getD r []).length - 1) h2
    (fun ε r s f hf hs => by
      have hd : T.getD r [] = f := by rw [List.getD_eq_getElem?_getD, hf]; rfl
      rw [hd]
      exact (backward_between T hT hn hfw θ δ B hB ε).2 r s f hf hs)
    (fun r k f a hf hk => by
      have hd : T.getD r [] = f := by rw [List.getD_eq_getElem?_getD, hf]; rfl
      rw [hd]
      exact h3 r k f a hf hk)

/-- C68: the gradients that `get_arc_post`, `get_forward_scores` and `get_backward_scores` add up for the arcs'
scores, for FSAs all of whose states are on paths from the start and on paths to the final state. -/
theorem arc_post_gradient (F B P : ℝ → List ℝ)
    (hF : ∀ ε, ∃ lp, forwardScores lp (fun x w => x * moved θ δ ε w) (· + ·) 0 1 (flat T) = some (F ε))
    (hB : ∀ ε, ∃ lp, backwardScores lp (fun x w => x * moved θ δ ε w) (· + ·) 0 1 (flat T) = some (B ε))
    (hP : ∀ ε, arcPost (flat T) 0 (fun x w => x + (θ w + ε * δ w)) (· + ·) (fun x y => 1 / 2 * (x + y)) (fun x => -x)
      ((F ε).map Real.log) ((B ε).map Real.log) = some (P ε))
    (h0 : ∀ x ∈ F 0 ++ B 0, x ≠ 0) (c : List ℝ) (hc : c.length = T.flatten.flatten.length) :
    ∃ dF dB gF gB, backpropArcPost (flat T) c = some (dF, dB) ∧
      (∀ lp, backpropForward lp (moved θ δ 0) (flat T) (F 0) dF = some gF) ∧
      (∀ lp, backpropBackward lp (moved θ δ 0) (flat T) (B 0) dB = some gB) ∧
      HasDerivAt (fun ε => dot c (P ε))
        (pairing (flat T).arcs c δ + pairing (flat T).arcs gF δ + pairing (flat T).arcs gB δ) 0 := by
  obtain ⟨dF, dB, h1, h2, h3, h4⟩ := backprop_arc_post_is_transpose T hT hfw c hc
  obtain ⟨gF, k1, k2, k3⟩ := backprop_forward_is_gradient T hT hn hfw θ δ F hF dF h2
  obtain ⟨gB, m1, m2, m3⟩ := backprop_backward_is_gradient T hT hn hfw θ δ B hB dB h3
  refine ⟨dF, dB, gF, gB, h1, k1, m1, ?_⟩
  have hFl := fun ε => (forward_between T hT hn hfw θ δ F hF ε).1
  have hBl := fun ε => (backward_between T hT hn hfw θ δ B hB ε).1
  have hloss : ∀ (d : List ℝ) (X : ℝ → List ℝ), d.length = T.flatten.length → (∀ ε, (X ε).length = T.flatten.length) →
      (∀ x ∈ X 0, x ≠ 0) → ∀ ε, loss T.flatten.length d (X 0) (X ε) = dot d ((X ε).map Real.log) := by
    intro d X hd hX hx ε
    rw [loss, dot_range d _ _ hd (by rw [List.length_map]; exact hX ε)]
    congr 1
    apply List.map_congr_left
    intro g hg
    have hg := List.mem_range.mp hg
    have hg0 : g < (X 0).length := by rw [hX]; exact hg
    have hg1 : g < (X ε).length := by rw [hX]; exact hg
    rw [List.getD_eq_getElem?_getD (l := X 0), List.getElem?_eq_getElem hg0, Option.getD_some,
      if_neg (hx _ (List.getElem_mem hg0)), List.getD_eq_getElem?_getD (l := X ε),
      List.getD_eq_getElem?_getD (l := List.map _ _), List.getElem?_map, List.getElem?_eq_getElem hg1]
    rfl
  have hsc : ∀ ε, dot c (T.flatten.flatten.map (fun a => θ a.score + ε * δ a.score)) =
      dot c (T.flatten.flatten.map (fun a => θ a.score)) + ε * pairing (flat T).arcs c δ := by
    intro ε
    have e : pairing (flat T).arcs c δ = dot c (T.flatten.flatten.map (fun a => δ a.score)) := pairing_dot _ c δ
    rw [e, dot_range c _ _ hc (List.length_map _), dot_range c _ _ hc (List.length_map _),
      dot_range c _ _ hc (List.length_map _), ← List.sum_map_mul_left, ← List.sum_map_add]
    congr 1
    apply List.map_congr_left
    intro i hi
    have hi := List.mem_range.mp hi
    simp only [List.getD_eq_getElem?_getD, List.getElem?_map, List.getElem?_eq_getElem hi, Option.map_some,
      Option.getD_some]
    ring
  have e0 : (fun ε => dot c (P ε)) = fun ε => loss T.flatten.length dF (F 0) (F ε) +
      loss T.flatten.length dB (B 0) (B ε) +
      (dot c (T.flatten.flatten.map (fun a => θ a.score)) + ε * pairing (flat T).arcs c δ) := by
    funext ε
    obtain ⟨post, p1, p2, p3⟩ := h4 (fun w => θ w + ε * δ w) ((F ε).map Real.log) ((B ε).map Real.log)
      (by rw [List.length_map]; exact hFl ε) (by rw [List.length_map]; exact hBl ε)
    have := hP ε
    rw [p1] at this
    rw [← Option.some.inj this, p3,
      hloss dF F h2 hFl (fun x hx => h0 x (List.mem_append_left _ hx)) ε,
      hloss dB B h3 hBl (fun x hx => h0 x (List.mem_append_right _ hx)) ε, hsc ε]
  rw [e0]
  have hlin : HasDerivAt (fun ε : ℝ => dot c (T.flatten.flatten.map (fun a => θ a.score)) +
      ε * pairing (flat T).arcs c δ) (pairing (flat T).arcs c δ) 0 := by
    simpa using ((hasDerivAt_id (0 : ℝ)).mul_const (pairing (flat T).arcs c δ)).const_add
      (dot c (T.flatten.flatten.map (fun a => θ a.score)))
  refine ((k3.fun_add m3).fun_add hlin).congr_deriv ?_
  ring

/-- C69: `GetTotScoresLogBackward` returns the gradient of a loss with respect to the arcs' scores from its
derivatives with respect to the total scores. -/
theorem tot_scores_gradient (mid : ℝ → ℝ → ℝ) (hmid : ∀ x, mid x x = x) (F tot : ℝ → List ℝ) (bwd post : List ℝ)
    (hF : ∀ ε, ∃ lp, forwardScores lp (fun x w => x * moved θ δ ε w) (· + ·) 0 1 (flat T) = some (F ε))
    (htot : ∀ ε, totScores (flat T) 0 (F ε) = some (tot ε)) (lp1 : Nat)
    (hB : backwardScores lp1 (fun x w => x * moved θ δ 0 w) (· + ·) 0 1 (flat T) = some bwd)
    (hpost : arcPost (flat T) 1 (fun x w => x * moved θ δ 0 w) (· * ·) mid (·⁻¹) (F 0) bwd = some post)
    (deriv : List ℝ) (hd : deriv.length = T.length) :
    ∃ ans, totScoresBackward (flat T) post deriv = some ans ∧ ans.length = T.flatten.flatten.length ∧
      HasDerivAt (fun ε => loss T.length deriv (tot 0) (tot ε)) (pairing (flat T).arcs ans δ) 0 := by
  obtain ⟨dest, hde, _, _⟩ := destStates_spec T hT
  have hloc := arc_local T hT dest hde
  obtain ⟨lp0, hF0⟩ := hF 0
  obtain ⟨post', p1, p2, p3⟩ := arcPost_eq (moved θ δ 0) mid hmid T hT hn hfw (F 0) bwd lp0 lp1 hF0 hB
  rw [hpost] at p1
  obtain rfl := Option.some.inj p1
  have hFv := forward_between T hT hn hfw θ δ F hF
  have hBv := backward_between T hT hn hfw θ δ (fun ε => ((backward_scores_are_path_sums (moved θ δ ε) T hT hn hfw).choose))
    (fun ε => ⟨0, (backward_scores_are_path_sums (moved θ δ ε) T hT hn hfw).choose_spec.1 0⟩) 0
  have hb0 : (backward_scores_are_path_sums (moved θ δ 0) T hT hn hfw).choose = bwd := by
    have := (backward_scores_are_path_sums (moved θ δ 0) T hT hn hfw).choose_spec.1 lp1
    rw [hB] at this
    exact (Option.some.inj this).symm
  simp only [hb0] at hBv
  have htv : ∀ (ε : ℝ) (r : Nat) (f : List (List (Arc W))), T[r]? = some f →
      (tot ε)[r]? = some (if f.length = 0 then 0 else between (moved θ δ ε) f.flatten 0 (f.length - 1)) := by
    intro ε r f hf
    obtain ⟨lp, hFe⟩ := hF ε
    obtain ⟨b', q1, _, _⟩ := backward_scores_are_path_sums (moved θ δ ε) T hT hn hfw
    obtain ⟨tot', t1, t2, t3⟩ := tot_scores_are_path_sums (moved θ δ ε) T hT hn hfw (F ε) b' lp 0 hFe (q1 0)
    rw [htot ε] at t1
    rw [Option.some.inj t1]
    have hm := hfw f (List.mem_of_getElem? hf)
    by_cases h0 : f.length = 0
    · rw [if_pos h0]
      refine (t3 r f hf).1 [] (List.nodup_nil) ?_
      intro is
      constructor
      · intro h; cases h
      · intro h
        have : 0 < f.length := h.1
        omega
    · rw [if_neg h0]
      have hL := allPaths_from f.flatten hm 0 (f.length - 1) (f.length - 1 + 1) (by omega)
      refine (t3 r f hf).1 _ hL.1 ?_
      intro is
      rw [hL.2]
      exact ⟨fun h => ⟨by show 0 < f.length; omega, h⟩, fun h => h.2⟩
  obtain ⟨ans, a1⟩ : ∃ ans, (List.range (flat T).arcs.length).mapM (fun j => (do
      let s ← (flat T).id2[j]?
      let r ← (flat T).id1[s]?
      let p ← post[j]?
      let d ← deriv[r]?
      some (p * d))) = some ans := by
    apply mapM_exists
    intro j hj
    have hj : j < T.flatten.flatten.length := List.mem_range.mp hj
    obtain ⟨r, f, k, a, h1, h2, rfl⟩ := arc_global T j hj
    obtain ⟨q1, q2, q3, q4, q5, q6⟩ := hloc r k f a h1 h2
    have e1 := id2_get T _ hj
    rw [q3] at e1
    have hr := (List.getElem?_eq_some_iff.mp h1).1
    simp only [e1, flat_id1 T r a.src f h1 q5, p3 r k f a h1 h2, Option.bind_eq_bind, Option.bind_some,
      List.getElem?_eq_getElem (show r < deriv.length by omega)]
    exact ⟨_, rfl⟩
  have hav : ∀ (r k : Nat) (f : List (List (Arc W))) (a : Arc W), T[r]? = some f → f.flatten[k]? = some a →
      ans[base T r + k]? = some (((List.range 1).map (fun _ => deriv.getD r 0 *
        (between (moved θ δ 0) f.flatten 0 a.src * moved θ δ 0 a.score *
          between (moved θ δ 0) f.flatten a.dst (f.length - 1) / between (moved θ δ 0) f.flatten 0 (f.length - 1)))).sum) := by
    intro r k f a h1 h2
    obtain ⟨q1, q2, q3, q4, q5, q6⟩ := hloc r k f a h1 h2
    have e1 := id2_get T _ q1
    rw [q3] at e1
    have hr := (List.getElem?_eq_some_iff.mp h1).1
    have e2 := (mapM_get a1).2 _ _ (List.getElem?_range q1)
    rw [e2]
    have w1 := (hFv 0).2 r a.src f h1 q5
    have w2 := hBv.2 r a.dst f h1 q6
    have w3 := hBv.2 r 0 f h1 (by omega)
    rw [Nat.add_zero] at w3
    simp only [e1, flat_id1 T r a.src f h1 q5, p3 r k f a h1 h2, Option.bind_eq_bind, Option.bind_some,
      List.getElem?_eq_getElem (show r < deriv.length by omega), List.getD_eq_getElem?_getD, w1, w2, w3,
      Option.getD_some]
    simp
    rw [div_eq_mul_inv]
    ring
  refine ⟨ans, ?_, ?_, ?_⟩
  · unfold totScoresBackward
    rw [if_neg (by
      have : (flat T).arcs.length = T.flatten.flatten.length := rfl
      rw [p2, this, flat_sp1_length, hd]; simp)]
    exact a1
  · rw [(mapM_get a1).1, List.length_range]; rfl
  · have e0 : (fun ε => loss T.length deriv (tot 0) (tot ε)) = fun ε => ((List.range T.length).map (fun r =>
        ((List.range (if (T.getD r []).length = 0 then 0 else 1)).map (fun _ =>
          if between (moved θ δ 0) (T.getD r []).flatten 0 ((T.getD r []).length - 1) = 0 then 0 else
          deriv.getD r 0 * Real.log (between (moved θ δ ε) (T.getD r []).flatten 0 ((T.getD r []).length - 1)))).sum)).sum := by
      funext ε
      rw [loss]
      congr 1
      apply List.map_congr_left
      intro r hr
      have hr := List.mem_range.mp hr
      have hf := List.getElem?_eq_getElem hr
      have hdd : T.getD r [] = T[r] := by rw [List.getD_eq_getElem?_getD, hf]; rfl
      rw [hdd, List.getD_eq_getElem?_getD (l := tot 0), List.getD_eq_getElem?_getD (l := tot ε), htv 0 r _ hf,
        htv ε r _ hf, Option.getD_some, Option.getD_some]
      by_cases h0 : T[r].length = 0
      · simp [h0]
      · simp [h0]
    rw [e0]
    refine (list_sum_deriv (List.range T.length) _ ?_ 0 (fun r hr => ?_)).congr_deriv ?_
    · exact fun r => (((T.getD r []).flatten.zipIdx.map (fun x =>
          ((List.range (if (T.getD r []).length = 0 then 0 else 1)).map (fun _ => deriv.getD r 0 *
          (between (moved θ δ 0) (T.getD r []).flatten 0 x.1.src * moved θ δ 0 x.1.score *
            between (moved θ δ 0) (T.getD r []).flatten x.1.dst ((T.getD r []).length - 1) /
            between (moved θ δ 0) (T.getD r []).flatten 0 ((T.getD r []).length - 1)))).sum * δ x.1.score)).sum)
    · have hr := List.mem_range.mp hr
      have hf := List.getElem?_eq_getElem hr
      have hdd : T.getD r [] = T[r] := by rw [List.getD_eq_getElem?_getD, hf]; rfl
      exact log_deriv θ δ (T.getD r []).flatten (by rw [hdd]; exact hfw _ (List.mem_of_getElem? hf))
        _ (fun _ => 0) (fun _ => (T.getD r []).length - 1) (fun _ => deriv.getD r 0)
    · symm
      refine pairing_split T ans (by rw [(mapM_get a1).1, List.length_range]; rfl) δ (fun r a =>
          ((List.range (if (T.getD r []).length = 0 then 0 else 1)).map (fun _ => deriv.getD r 0 *
          (between (moved θ δ 0) (T.getD r []).flatten 0 a.src * moved θ δ 0 a.score *
            between (moved θ δ 0) (T.getD r []).flatten a.dst ((T.getD r []).length - 1) /
            between (moved θ δ 0) (T.getD r []).flatten 0 ((T.getD r []).length - 1)))).sum) ?_ ?_
      · intro r k f a hf hk
        have hdd : T.getD r [] = f := by rw [List.getD_eq_getElem?_getD, hf]; rfl
        have := (hloc r k f a hf hk).2.2.2.2.1
        rw [hdd, if_neg (by omega)]
        exact hav r k f a hf hk
      · intro r k f a hf hk
        exact (hloc r k f a hf hk).2.1
end

end Verif.Fsa
