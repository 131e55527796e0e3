import Verif.Fsa.Grad.ArcPost

/-!
# C68: `BackpropGetArcPost` is the transpose of `GetArcPost`

Scores are given as they are, in a field: `GetArcPost` is then a linear map of the forward scores, the backward
scores and the arcs' scores.
-/

namespace Verif.Fsa
open Verif.Ragged Verif.Util Verif.Fsa.Top Verif.Fsa.Bat Verif.Fsa.Sco Verif.Fsa.Grd
variable {W K : Type}

/-! ## Specification -/

/-- The sum of the products of the elements of two lists. -/
def dot [Add K] [Mul K] [Zero K] (a b : List K) : K := (List.zipWith (· * ·) a b).sum

/-! ## Theorems -/

section
variable [Field K] (T : List (List (List (Arc W)))) (hT : VecOk T)

theorem dot_range (a b : List K) (n : Nat) (ha : a.length = n) (hb : b.length = n) :
    dot a b = ((List.range n).map (fun i => a.getD i 0 * b.getD i 0)).sum := by
  subst ha
  unfold dot
  congr 1
  apply List.ext_getElem
  · simp [hb]
  · intro i h1 h2
    simp at h1
    simp [List.getD_eq_getElem?_getD, List.getElem?_eq_getElem h1.1, List.getElem?_eq_getElem h1.2]

include hT

theorem arcPost_log (θ : W → K) (fwd bwd : List K) (hf : fwd.length = T.flatten.length)
    (hb : bwd.length = T.flatten.length) :
    ∃ post, arcPost (flat T) 0 (fun x w => x + θ w) (· + ·) (fun x y => 1 / 2 * (x + y)) (fun x => -x) fwd bwd =
        some post ∧ post.length = T.flatten.flatten.length ∧
      ∀ (r k : Nat) (f : List (List (Arc W))) (a : Arc W), T[r]? = some f → f.flatten[k]? = some a →
        post[base T r + k]? = some (fwd.getD (off T r + a.src) 0 + θ a.score + bwd.getD (off T r + a.dst) 0 +
          -(1 / 2 * (fwd.getD (off T r + (f.length - 1)) 0 + bwd.getD (off T r + 0) 0))) := by
  obtain ⟨dest, hde, _, _⟩ := destStates_spec T hT
  have hs1 := flat_sp1_length T
  have hget : ∀ (l : List K), l.length = T.flatten.length → ∀ (r s : Nat) (f : List (List (Arc W))), T[r]? = some f →
      s < f.length → l[off T r + s]? = some (l.getD (off T r + s) 0) := by
    intro l hl r s f hf hs
    have := off_lt T r s f hf hs
    rw [List.getD_eq_getElem?_getD, List.getElem?_eq_getElem (by omega)]; rfl
  have hneg : ∀ r < T.length, ∃ x, (do
      let b ← (flat T).sp1[r]?
      let e ← (flat T).sp1[r + 1]?
      if b ≠ e then do
        let x ← fwd[e - 1]?
        let y ← bwd[b]?
        some (-(1 / 2 * (x + y)))
      else some (-(0 : K))) = some x ∧ (T.getD r [] ≠ [] → x =
        -(1 / 2 * (fwd.getD (off T r + ((T.getD r []).length - 1)) 0 + bwd.getD (off T r + 0) 0))) := by
    intro r hr
    have hf' := List.getElem?_eq_getElem hr
    have ho := off_succ T r _ hf'
    have hd : T.getD r [] = T[r] := by rw [List.getD_eq_getElem?_getD, hf']; rfl
    have e1 := flat_sp1 T r (by omega)
    have e2 := flat_sp1 T (r + 1) (by omega)
    simp only [e1, e2, Option.bind_eq_bind, Option.bind_some]
    rw [hd]
    by_cases h0 : T[r] = []
    · rw [h0] at ho
      rw [if_neg (by simp at ho ⊢; omega)]
      exact ⟨_, rfl, fun h => absurd h0 h⟩
    · have hpos : 0 < T[r].length := List.length_pos_iff.mpr h0
      rw [if_pos (by omega)]
      have e3 := hget fwd hf r (T[r].length - 1) _ hf' (by omega)
      have e4 := hget bwd hb r 0 _ hf' hpos
      rw [ho, show off T r + T[r].length - 1 = off T r + (T[r].length - 1) by omega]
      rw [Nat.add_zero] at e4 ⊢
      simp only [e3, e4, Option.bind_some]
      exact ⟨_, rfl, fun _ => rfl⟩
  obtain ⟨neg, n1⟩ : ∃ neg, negTotScores (flat T) 0 (fun x y => 1 / 2 * (x + y)) (fun x => -x) fwd bwd = some neg := by
    unfold negTotScores
    apply mapM_exists
    intro r hr
    have := List.mem_range.mp hr
    obtain ⟨x, hx, _⟩ := hneg r (by rw [hs1] at this; omega)
    exact ⟨x, hx⟩
  have hpost : ∀ (r j : Nat) (f : List (List (Arc W))) (a : Arc W), T[r]? = some f → f.flatten[j]? = some a →
      arcPostOf (flat T) (fun x w => x + θ w) (· + ·) fwd bwd neg (base T r + j) =
        some (fwd.getD (off T r + a.src) 0 + θ a.score + bwd.getD (off T r + a.dst) 0 +
          -(1 / 2 * (fwd.getD (off T r + (f.length - 1)) 0 + bwd.getD (off T r + 0) 0))) := by
    intro r j f a hf' ha
    have hr := (List.getElem?_eq_some_iff.mp hf').1
    obtain ⟨h1, h2, h3, h4, h5, h6⟩ := arc_local T hT dest hde r j f a hf' ha
    have e1 : (flat T).arcs[base T r + j]? = some a := h2
    have e2 := id2_get T _ h1
    rw [h3] at e2
    have e3 := flat_id1 T r a.src f hf' h5
    have e4 := flat_sp1 T r (by omega)
    have e5 := hget fwd hf r a.src f hf' h5
    have e6 := hget bwd hb r a.dst f hf' h6
    have hd : T.getD r [] = f := by rw [List.getD_eq_getElem?_getD, hf']; rfl
    have e7 : neg[r]? = some (-(1 / 2 * (fwd.getD (off T r + (f.length - 1)) 0 + bwd.getD (off T r + 0) 0))) := by
      obtain ⟨x, hx, h1⟩ := hneg r hr
      have := (mapM_get n1).2 r r (List.getElem?_range (by rw [hs1]; omega))
      rw [hx] at this
      rw [hd] at h1
      rw [this, h1 (by intro hc; rw [hc] at h5; simp at h5)]
    unfold arcPostOf
    simp only [e1, e2, e3, e4, e5, e6, e7, Option.bind_eq_bind, Option.bind_some]
  obtain ⟨post, p1⟩ : ∃ post, (List.range (flat T).arcs.length).mapM
      (arcPostOf (flat T) (fun x w => x + θ w) (· + ·) fwd bwd neg) = some post := by
    apply mapM_exists
    intro j hj
    obtain ⟨r, f, k, a, h1, h2, rfl⟩ := arc_global T j (List.mem_range.mp hj)
    exact ⟨_, hpost r k f a h1 h2⟩
  refine ⟨post, ?_, ?_, ?_⟩
  · unfold arcPost
    rw [if_neg (by rw [flat_id1_length, hf, hb]; simp), n1]
    exact p1
  · have := (mapM_get p1).1
    rw [this, List.length_range]; rfl
  · intro r j f a hf' ha
    have h1 := (arc_local T hT dest hde r j f a hf' ha).1
    rw [(mapM_get p1).2 _ _ (List.getElem?_range h1), hpost r j f a hf' ha]

/-- C68: for all forward scores, backward scores and arc scores, the posteriors weighted by `c` add up to the
forward and backward scores weighted by the two results of `BackpropGetArcPost`, plus the arcs' scores weighted
by `c`. -/
theorem backprop_arc_post_is_transpose (hfw : ∀ f ∈ T, ∀ a ∈ f.flatten, a.src < a.dst)
    (c : List K) (hc : c.length = T.flatten.flatten.length) :
    ∃ dF dB, backpropArcPost (flat T) c = some (dF, dB) ∧ dF.length = T.flatten.length ∧
      dB.length = T.flatten.length ∧
      ∀ (θ : W → K) (fwd bwd : List K), fwd.length = T.flatten.length → bwd.length = T.flatten.length →
        ∃ post, arcPost (flat T) 0 (fun x w => x + θ w) (· + ·) (fun x y => 1 / 2 * (x + y)) (fun x => -x) fwd bwd =
          some post ∧ post.length = T.flatten.flatten.length ∧
          dot c post = dot dF fwd + dot dB bwd + dot c (T.flatten.flatten.map (fun a => θ a.score)) := by
  obtain ⟨fw, bw, h1, h2, h3, h4⟩ := backpropArcPost_eq T hT c hc
  refine ⟨fw, bw, h1, h2, h3, ?_⟩
  intro θ fwd bwd hf hb
  obtain ⟨post, p1, p2, p3⟩ := arcPost_log T hT θ fwd bwd hf hb
  refine ⟨post, p1, p2, ?_⟩
  obtain ⟨dest, hde, _, _⟩ := destStates_spec T hT
  have hloc := arc_local T hT dest hde
  rw [dot_range c post _ hc p2, dot_range fw fwd _ h2 hf, dot_range bw bwd _ h3 hb,
    dot_range c _ _ hc (List.length_map _), arcs_split, arcs_split, states_split, states_split, ← List.sum_map_add,
    ← List.sum_map_add]
  congr 1
  apply List.map_congr_left
  intro r hr
  have hr := List.mem_range.mp hr
  have hf' := List.getElem?_eq_getElem hr
  have hd : T.getD r [] = T[r] := by rw [List.getD_eq_getElem?_getD, hf']; rfl
  rw [hd]
  generalize T[r] = f at hf' hd
  have hm := hfw f (List.mem_of_getElem? hf')
  set cc : Arc W × Nat → K := fun x => c.getD (base T r + x.2) 0 with hcc
  set F : Nat → K := fun s => fwd.getD (off T r + s) 0 with hF
  set B : Nat → K := fun s => bwd.getD (off T r + s) 0 with hB
  set l := f.flatten.zipIdx with hl
  have hmem : ∀ x ∈ l, x.1.src < f.length ∧ x.1.dst < f.length ∧ x.1.src < x.1.dst := by
    intro x hx
    have := (mem_zip _ x).mp hx
    obtain ⟨_, _, _, _, q5, q6⟩ := hloc r x.2 f x.1 hf' this
    exact ⟨q5, q6, hm _ (List.mem_of_getElem? this)⟩
  have e1 : l.map (fun x => c.getD (base T r + x.2) 0 * post.getD (base T r + x.2) 0) =
      l.map (fun x => cc x * F x.1.src + cc x * B x.1.dst + cc x * θ x.1.score +
        -(1 / 2) * (F (f.length - 1) + B 0) * cc x) := by
    apply List.map_congr_left
    intro x hx
    have := p3 r x.2 f x.1 hf' ((mem_zip _ x).mp hx)
    rw [List.getD_eq_getElem?_getD (l := post), this, Option.getD_some]
    simp only [hF, hB, hcc]
    ring
  have e2 : l.map (fun x => c.getD (base T r + x.2) 0 *
      (T.flatten.flatten.map (fun a => θ a.score)).getD (base T r + x.2) 0) = l.map (fun x => cc x * θ x.1.score) := by
    apply List.map_congr_left
    intro x hx
    have := (hloc r x.2 f x.1 hf' ((mem_zip _ x).mp hx)).2.1
    rw [List.getD_eq_getElem?_getD (l := List.map _ _), List.getElem?_map, this]
    rfl
  rw [e1, e2, List.sum_map_add, List.sum_map_add, List.sum_map_add, List.sum_map_mul_left]
  by_cases h0 : f.length = 0
  · have : l = [] := by
      rw [hl, List.length_eq_zero_iff.mp h0]; rfl
    simp [this, h0]
  have e3 : (List.range f.length).map (fun s => fw.getD (off T r + s) 0 * fwd.getD (off T r + s) 0) =
      (List.range f.length).map (fun s => ((l.filter (fun x => decide (x.1.src = s))).map cc).sum * F s +
        (if f.length - 1 = s then -(1 / 2) * (l.map cc).sum * F s else 0)) := by
    apply List.map_congr_left
    intro s hs
    have hs := List.mem_range.mp hs
    rw [List.getD_eq_getElem?_getD (l := fw), (h4 r s f hf' hs).1, Option.getD_some]
    by_cases h : s + 1 = f.length
    · have hz : l.filter (fun x => decide (x.1.src = s)) = [] := by
        rw [List.filter_eq_nil_iff]
        intro x hx
        have := hmem x hx
        rw [decide_eq_true_eq]
        omega
      rw [if_pos h, if_pos (by omega), hz, arcSum]
      simp [hF, hl, hcc]
    · rw [if_neg h, if_neg (by omega), add_zero]
      rfl
  have e4 : (List.range f.length).map (fun s => bw.getD (off T r + s) 0 * bwd.getD (off T r + s) 0) =
      (List.range f.length).map (fun s => ((l.filter (fun x => decide (x.1.dst = s))).map cc).sum * B s +
        (if 0 = s then -(1 / 2) * (l.map cc).sum * B s else 0)) := by
    apply List.map_congr_left
    intro s hs
    have hs := List.mem_range.mp hs
    rw [List.getD_eq_getElem?_getD (l := bw), (h4 r s f hf' hs).2, Option.getD_some]
    by_cases h : s = 0
    · have hz : l.filter (fun x => decide (x.1.dst = s)) = [] := by
        rw [List.filter_eq_nil_iff]
        intro x hx
        have := hmem x hx
        rw [decide_eq_true_eq]
        omega
      rw [if_pos h, if_pos h.symm, hz, arcSum]
      simp [hB, hl, hcc]
    · rw [if_neg h, if_neg (fun h' => h h'.symm), add_zero]
      rfl
  rw [e3, e4, List.sum_map_add, List.sum_map_add, sum_one f.length (f.length - 1) (by omega)
      (fun s => -(1 / 2) * (l.map cc).sum * F s), sum_one f.length 0 (by omega)
      (fun s => -(1 / 2) * (l.map cc).sum * B s),
    fiber_sum f.length l (fun x => x.1.src) cc F (fun x hx => (hmem x hx).1),
    fiber_sum f.length l (fun x => x.1.dst) cc B (fun x hx => (hmem x hx).2.1)]
  ring
end

end Verif.Fsa
