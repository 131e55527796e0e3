import Verif.Fsa.Grad.Split
import Mathlib.Analysis.SpecialFunctions.Log.Deriv
import Mathlib.Analysis.SpecialFunctions.ExpDeriv

/-!
# Derivatives of sums over paths
-/

namespace Verif.Fsa

/-- The weight of an arc whose score is moved from `θ w` by `ε` times `δ w`. -/
noncomputable def moved {W : Type} (θ δ : W → ℝ) (ε : ℝ) (w : W) : ℝ := Real.exp (θ w + ε * δ w)

/-- The change of a function with derivatives `ans` with respect to the scores of `arcs`, if the scores are moved
along `δ`. -/
noncomputable def pairing {W : Type} (arcs : List (Arc W)) (ans : List ℝ) (δ : W → ℝ) : ℝ :=
  ((arcs.zip ans).map (fun x => x.2 * δ x.1.score)).sum

namespace Grd
open Verif.Ragged Verif.Util Verif.Fsa.Top Verif.Fsa.Bat Verif.Fsa.Sco
variable {W X : Type}

theorem moved_pos (θ δ : W → ℝ) (ε : ℝ) (w : W) : 0 < moved θ δ ε w := Real.exp_pos _

theorem moved_zero (θ δ : W → ℝ) : moved θ δ 0 = fun w => Real.exp (θ w) := by
  funext w; simp [moved]

theorem moved_deriv (θ δ : W → ℝ) (w : W) : HasDerivAt (fun ε => moved θ δ ε w) (δ w * moved θ δ 0 w) 0 := by
  rw [moved_zero]
  have h1 : HasDerivAt (fun ε : ℝ => θ w + ε * δ w) (δ w) 0 := by
    simpa using ((hasDerivAt_id (0 : ℝ)).mul_const (δ w)).const_add (θ w)
  have h2 := h1.exp
  have e : Real.exp (θ w + 0 * δ w) * δ w = δ w * Real.exp (θ w) := by
    rw [zero_mul, add_zero, mul_comm]
  rw [e] at h2
  exact h2

theorem list_sum_deriv (l : List X) (h : X → ℝ → ℝ) (h' : X → ℝ) (x0 : ℝ) (hh : ∀ x ∈ l, HasDerivAt (h x) (h' x) x0) :
    HasDerivAt (fun ε => (l.map (fun x => h x ε)).sum) (l.map h').sum x0 := by
  induction l with
  | nil => simpa using hasDerivAt_const x0 (0 : ℝ)
  | cons x l ih =>
    have h1 := hh x List.mem_cons_self
    have h2 := ih (fun y hy => hh y (List.mem_cons_of_mem _ hy))
    simp only [List.map_cons, List.sum_cons]
    exact h1.add h2

section
variable (θ δ : W → ℝ) (A : List (Arc W)) (hA : ∀ a ∈ A, a.src < a.dst)
include hA

/-- The derivative of the weight of the paths from `s` to `t`. -/
theorem between_deriv (s t : Nat) :
    HasDerivAt (fun ε => between (moved θ δ ε) A s t)
      ((A.zipIdx.map (fun x => δ x.1.score * (between (moved θ δ 0) A s x.1.src * moved θ δ 0 x.1.score *
        between (moved θ δ 0) A x.1.dst t))).sum) 0 := by
  induction t using Nat.strongRecOn with
  | _ t ih =>
    set G : Nat → ℝ := fun t => (A.zipIdx.map (fun x => δ x.1.score *
      (between (moved θ δ 0) A s x.1.src * moved θ δ 0 x.1.score * between (moved θ δ 0) A x.1.dst t))).sum with hG
    have e0 : (fun ε => between (moved θ δ ε) A s t) = fun ε => (if s = t then 1 else 0) +
        ((A.zipIdx.filter (fun x => decide (x.1.dst = t))).map (fun x =>
          moved θ δ ε x.1.score * between (moved θ δ ε) A s x.1.src)).sum := by
      funext ε; exact between_last _ A hA s t
    rw [e0]
    have h1 := list_sum_deriv (A.zipIdx.filter (fun x => decide (x.1.dst = t)))
      (fun x ε => moved θ δ ε x.1.score * between (moved θ δ ε) A s x.1.src)
      (fun x => δ x.1.score * moved θ δ 0 x.1.score * between (moved θ δ 0) A s x.1.src +
        moved θ δ 0 x.1.score * G x.1.src) 0 (by
        intro x hx
        obtain ⟨hx1, hx2⟩ := List.mem_filter.mp hx
        have hlt := hA x.1 (List.mem_of_getElem? ((mem_zip A x).mp hx1))
        have h := (moved_deriv θ δ x.1.score).fun_mul (ih x.1.src (by have := of_decide_eq_true hx2; omega))
        exact h)
    have h2 := h1.const_add (if s = t then (1 : ℝ) else 0)
    refine h2.congr_deriv ?_
    rw [List.sum_map_add]
    -- the value of `G t`
    have e1 : ∀ x ∈ A.zipIdx, δ x.1.score * (between (moved θ δ 0) A s x.1.src * moved θ δ 0 x.1.score *
        between (moved θ δ 0) A x.1.dst t) =
        (if decide (x.1.dst = t) = true then δ x.1.score * moved θ δ 0 x.1.score * between (moved θ δ 0) A s x.1.src
          else 0) +
        ((A.zipIdx.filter (fun x => decide (x.1.dst = t))).map (fun y => moved θ δ 0 y.1.score *
          (δ x.1.score * (between (moved θ δ 0) A s x.1.src * moved θ δ 0 x.1.score *
            between (moved θ δ 0) A x.1.dst y.1.src)))).sum := by
      intro x _
      rw [between_last _ A hA x.1.dst t, mul_add, mul_add]
      congr 1
      · by_cases h : x.1.dst = t
        · simp [h]; ring
        · simp [h]
      · rw [← List.sum_map_mul_left, ← List.sum_map_mul_left]
        congr 1
        apply List.map_congr_left
        intro y _
        ring
    rw [List.map_congr_left e1, List.sum_map_add, filter_sum]
    congr 1
    rw [swap2 A.zipIdx (A.zipIdx.filter (fun x => decide (x.1.dst = t))) (fun x y => moved θ δ 0 y.1.score *
          (δ x.1.score * (between (moved θ δ 0) A s x.1.src * moved θ δ 0 x.1.score *
            between (moved θ δ 0) A x.1.dst y.1.src)))]
    congr 1
    apply List.map_congr_left
    intro y _
    rw [hG, List.sum_map_mul_left]

/-- The derivative of a weighted sum of logarithms of sums over paths. -/
theorem log_deriv (n : Nat) (u v : Nat → Nat) (g : Nat → ℝ) :
    HasDerivAt (fun ε => ((List.range n).map (fun t => if between (moved θ δ 0) A (u t) (v t) = 0 then 0 else
        g t * Real.log (between (moved θ δ ε) A (u t) (v t)))).sum)
      ((A.zipIdx.map (fun x => ((List.range n).map (fun t => g t *
        (between (moved θ δ 0) A (u t) x.1.src * moved θ δ 0 x.1.score * between (moved θ δ 0) A x.1.dst (v t) /
          between (moved θ δ 0) A (u t) (v t)))).sum * δ x.1.score)).sum) 0 := by
  have h1 := list_sum_deriv (List.range n) (fun t ε => if between (moved θ δ 0) A (u t) (v t) = 0 then 0 else
        g t * Real.log (between (moved θ δ ε) A (u t) (v t)))
      (fun t => (A.zipIdx.map (fun x => g t *
        (between (moved θ δ 0) A (u t) x.1.src * moved θ δ 0 x.1.score * between (moved θ δ 0) A x.1.dst (v t) /
          between (moved θ δ 0) A (u t) (v t)) * δ x.1.score)).sum) 0 (by
      intro t _
      by_cases h0 : between (moved θ δ 0) A (u t) (v t) = 0
      · simp only [if_pos h0]
        refine (hasDerivAt_const (0 : ℝ) (0 : ℝ)).congr_deriv ?_
        symm
        apply List.sum_eq_zero
        intro y hy
        obtain ⟨x, _, rfl⟩ := List.mem_map.mp hy
        rw [h0]; simp
      · simp only [if_neg h0]
        have h := ((between_deriv θ δ A hA (u t) (v t)).log h0).const_mul (g t)
        refine h.congr_deriv ?_
        rw [div_eq_mul_inv, ← List.sum_map_mul_right, ← List.sum_map_mul_left]
        congr 1
        apply List.map_congr_left
        intro x _
        rw [div_eq_mul_inv]; ring)
  refine h1.congr_deriv ?_
  rw [swap2]
  congr 1
  apply List.map_congr_left
  intro x _
  rw [List.sum_map_mul_right]
end

/-! ## All FSAs -/

/-- A sum over all arcs, by FSAs. -/
theorem pairing_split (T : List (List (List (Arc W)))) (ans : List ℝ) (hl : ans.length = T.flatten.flatten.length)
    (δ : W → ℝ) (m : Nat → Arc W → ℝ)
    (h : ∀ (r k : Nat) (f : List (List (Arc W))) (a : Arc W), T[r]? = some f → f.flatten[k]? = some a →
      ans[base T r + k]? = some (m r a)) (hloc : ∀ (r k : Nat) (f : List (List (Arc W))) (a : Arc W), T[r]? = some f →
      f.flatten[k]? = some a → T.flatten.flatten[base T r + k]? = some a) :
    pairing T.flatten.flatten ans δ = ((List.range T.length).map (fun r =>
      (((T.getD r []).flatten.zipIdx).map (fun x => m r x.1 * δ x.1.score)).sum)).sum := by
  by_cases hne : T.flatten.flatten = []
  · have e : ∀ r, (T.getD r []).flatten = [] := by
      intro r
      by_cases hr : r < T.length
      · rw [List.getD_eq_getElem?_getD, List.getElem?_eq_getElem hr]
        show T[r].flatten = []
        rw [List.eq_nil_iff_forall_not_mem]
        intro a ha
        have : a ∈ T.flatten.flatten := by
          rw [List.flatten_flatten]
          exact List.mem_flatten.mpr ⟨_, List.mem_map.mpr ⟨_, List.getElem_mem hr, rfl⟩, ha⟩
        rw [hne] at this
        cases this
      · rw [List.getD_eq_getElem?_getD, List.getElem?_eq_none (by omega)]; rfl
    simp only [e, pairing, hne]
    symm
    apply List.sum_eq_zero
    intro x hx
    obtain ⟨r, _, rfl⟩ := List.mem_map.mp hx
    rfl
  · obtain ⟨a0, _⟩ := List.exists_mem_of_ne_nil _ hne
    have hM : T.flatten.flatten.length = (T.map (fun f => f.flatten.length)).sum := by
      rw [List.flatten_flatten, List.length_flatten, List.map_map]; rfl
    rw [pairing, zip_range _ _ hl.symm a0 0, hM, sum_split, List.length_map]
    congr 1
    apply List.map_congr_left
    intro r hr
    have hr := List.mem_range.mp hr
    have hf := List.getElem?_eq_getElem hr
    have e1 : T.getD r [] = T[r] := by rw [List.getD_eq_getElem?_getD, hf]; rfl
    have e2 : (T.map (fun f => f.flatten.length)).getD r 0 = T[r].flatten.length := by
      rw [List.getD_eq_getElem?_getD, List.getElem?_map, hf]; rfl
    rw [e1, e2, zipIdx_range _ a0]
    congr 1
    apply List.map_congr_left
    intro k hk
    have hk := List.mem_range.mp hk
    have ha := List.getElem?_eq_getElem hk
    have h1 := h r k _ _ hf ha
    have h2 := hloc r k _ _ hf ha
    have e3 : ((T.map (fun f => f.flatten.length)).take r).sum = base T r := rfl
    rw [e3]
    simp only [List.getD_eq_getElem?_getD, h1, h2, ha, Option.getD_some]

end Grd

end Verif.Fsa
