import Verif.Fsa.Grad.Fixed
import Verif.Fsa.Grad.Walk

/-!
# C70: what the derivatives are in the tropical semiring
-/

namespace Verif.Fsa
open Verif.Ragged Verif.Util Verif.Fsa.Top Verif.Fsa.Bat Verif.Fsa.Sco Verif.Fsa.Best Verif.Fsa.Grd
variable {W K : Type}

/-! ## Specification -/

/-- The score of the arcs at the positions `js`. -/
def scoreAt [AddCommMonoid W] (A : List (Arc W)) (js : List Nat) : W := (js.map (fun j => (A[j]?).elim 0 Arc.score)).sum

/-- `js` is a path from `s` to `t`, and none has a better score. -/
def BestPath [AddCommMonoid W] [LinearOrder W] (A : List (Arc W)) (s t : Nat) (js : List Nat) : Prop :=
  IPath A s js t ∧ ∀ is, IPath A s is t → scoreAt A is ≤ scoreAt A js

/-- The sum of the derivatives of the states whose path has arc `j`. -/
def pathDerivs [AddCommMonoid K] (n j : Nat) (path : Nat → List Nat) (g : Nat → K) : K :=
  ((List.range n).map (fun s => if j ∈ path s then g s else 0)).sum

/-! ## Lemmas -/

theorem gpath_forward (A : List (Arc W)) (js : List Nat) : ∀ t u,
    GPath A Arc.src Arc.dst t js u ↔ IPath A u js.reverse t := by
  induction js with
  | nil => intro t u; rw [GPath, List.reverse_nil, ipath_nil]; exact eq_comm
  | cons k js ih =>
    intro t u
    rw [GPath, List.reverse_cons, ipath_snoc]
    constructor
    · rintro ⟨a, h1, h2, h3⟩
      exact ⟨a, h1, (ih _ _).mp h3, h2⟩
    · rintro ⟨a, h1, h3, h2⟩
      exact ⟨a, h1, h2, (ih _ _).mpr h3⟩

theorem gpath_backward (A : List (Arc W)) (js : List Nat) : ∀ t u,
    GPath A Arc.dst Arc.src t js u ↔ IPath A t js u := by
  induction js with
  | nil => intro t u; rw [GPath, ipath_nil]
  | cons k js ih =>
    intro t u
    rw [GPath, ipath_cons]
    constructor
    · rintro ⟨a, h1, h2, h3⟩
      exact ⟨a, h1, h2, (ih _ _).mp h3⟩
    · rintro ⟨a, h1, h2, h3⟩
      exact ⟨a, h1, h2, (ih _ _).mpr h3⟩

theorem bestGrad_eq [Zero K] (best : List (Option Nat)) (cur : List K) (b k g : Nat) (e : Option Nat)
    (h : best[g]? = some (e.map (b + ·))) (hg : g < cur.length) :
    bestGrad best cur (b + k) g = some (if e = some k then cur.getD g 0 else 0) := by
  unfold bestGrad
  simp only [h, Option.bind_eq_bind, Option.bind_some]
  have : (e.map (b + ·) = some (b + k)) ↔ e = some k := by
    cases e with
    | none => simp
    | some i => simp
  by_cases he : e = some k
  · rw [if_pos (this.mpr he), if_pos he, List.getD_eq_getElem?_getD, List.getElem?_eq_getElem hg]; rfl
  · rw [if_neg (fun h => he (this.mp h)), if_neg he]

theorem ipath_later (A : List (Arc W)) (hA : ∀ a ∈ A, a.src < a.dst) (is : List Nat) : ∀ s t, IPath A s is t →
    ∀ j ∈ is, ∃ a, A[j]? = some a ∧ s ≤ a.src := by
  induction is with
  | nil => intro s t _ j hj; cases hj
  | cons i is ih =>
    intro s t h j hj
    obtain ⟨a, h1, h2, h3⟩ := (ipath_cons A s t i is).mp h
    rcases List.mem_cons.mp hj with rfl | hj
    · exact ⟨a, h1, by omega⟩
    · obtain ⟨b, g1, g2⟩ := ih _ _ h3 j hj
      have := hA a (List.mem_of_getElem? h1)
      exact ⟨b, g1, by omega⟩

theorem ipath_nodup (A : List (Arc W)) (hA : ∀ a ∈ A, a.src < a.dst) (is : List Nat) : ∀ s t, IPath A s is t →
    is.Nodup := by
  induction is with
  | nil => intro s t _; exact List.nodup_nil
  | cons i is ih =>
    intro s t h
    obtain ⟨a, h1, h2, h3⟩ := (ipath_cons A s t i is).mp h
    refine List.nodup_cons.mpr ⟨?_, ih _ _ h3⟩
    intro hc
    obtain ⟨b, g1, g2⟩ := ipath_later A hA is _ _ h3 i hc
    rw [h1] at g1
    obtain rfl := Option.some.inj g1
    have := hA a (List.mem_of_getElem? h1)
    omega

/-! ## Theorems -/

section
variable [Field K] [DecidableEq K] [AddCommMonoid W] [LinearOrder W] [IsOrderedAddMonoid W]
  (T : List (List (List (Arc W)))) (hT : VecOk T) (hn : T.flatten.length ≤ intMax)
  (hfw : ∀ f ∈ T, ∀ a ∈ f.flatten, a.src < a.dst) (deriv : List K) (hd : deriv.length = T.flatten.length)
include hT hn hfw hd

/-- C70: there is one path to each state, a best one from the start state if there is any from it, such that the
derivative of an arc's score is the sum of the derivatives of the states whose path has the arc. -/
theorem backprop_forward_tropical (lp0 : Nat) (fwd : List (WithBot W)) (ent : List (Option Nat))
    (hF : forwardBest lp0 extend ⊥ 0 (flat T) = some (fwd, ent)) :
    ∃ (ans : List K) (path : Nat → Nat → List Nat),
      (∀ lp, backpropForwardT lp (flat T) ent deriv = some ans) ∧ ans.length = T.flatten.flatten.length ∧
      ∀ (r : Nat) (f : List (List (Arc W))), T[r]? = some f →
        (∀ s < f.length, (∃ u, IPath f.flatten u (path r s) s) ∧
          ((∃ is, IPath f.flatten 0 is s) → BestPath f.flatten 0 s (path r s))) ∧
        ∀ j < f.flatten.length,
          ans[base T r + j]? = some (pathDerivs f.length j (path r) (fun s => deriv.getD (off T r + s) 0)) := by
  obtain ⟨fwd', ent', g1, _, g3, g4, g5⟩ := forwardBest_spec extend (0 : WithBot W) T hT hn hfw
  rw [g1] at hF
  obtain ⟨rfl, rfl⟩ := Prod.mk.inj (Option.some.inj hF)
  obtain ⟨dest, hde, _, _⟩ := destStates_spec T hT
  have hloc := arc_local T hT dest hde
  have h6 : ∀ r s, ∃ e : Option Nat, ∀ f, T[r]? = some f → s < f.length →
      ent'[off T r + s]? = some (e.map (base T r + ·)) ∧
      BestArc extend f (fun s => fwd'.getD (off T r + s) ⊥) s e := by
    intro r s
    cases hf : T[r]? with
    | none => exact ⟨none, fun f h => by simp at h⟩
    | some f =>
      by_cases hs : s < f.length
      · obtain ⟨e, g⟩ := (g5 r f hf).2 s hs
        refine ⟨e, fun f' h' _ => ?_⟩
        obtain rfl := Option.some.inj h'
        exact g
      · refine ⟨none, fun f' h' hs' => ?_⟩
        obtain rfl := Option.some.inj h'
        exact absurd hs' hs
  choose e he using h6
  obtain ⟨D, ans, q1, q2, q3⟩ := grad_leaving T hT hn hfw (forwardArcT (flat T) ent')
    (fun r k a d => if e r a.dst = some k then d else 0) deriv hd (by
      intro r k f a hf ha cur hc
      obtain ⟨h1, h2, h3, h4, h5, h6⟩ := hloc r k f a hf ha
      have e1 := id2_get T _ h1
      have e2 : (flat T).arcs[base T r + k]? = some a := h2
      rw [h3] at e1
      unfold forwardArcT
      simp only [e1, e2, Option.bind_eq_bind, Option.bind_some,
        show off T r + a.src - a.src + a.dst = off T r + a.dst by omega]
      exact bestGrad_eq ent' cur _ k _ (e r a.dst) (he r a.dst f hf h6).1 (by rw [hc]; exact off_lt T r _ f hf h6))
  refine ⟨ans, fun r s => (walk (T.getD r []).flatten Arc.src (e r) (T.getD r []).length s).reverse, ?_, q2, ?_⟩
  · intro lp
    unfold backpropForwardT
    rw [if_neg (by rw [flat_id1_length, g4, hd]; simp)]
    exact q1 lp
  · intro r f hf
    have hdd : T.getD r [] = f := by rw [List.getD_eq_getElem?_getD, hf]; rfl
    simp only [hdd]
    have hm := hfw f (List.mem_of_getElem? hf)
    have hlt : ∀ a ∈ f.flatten, a.src < f.length ∧ a.dst < f.length ∧ id a.src < id a.dst := by
      intro a ha
      obtain ⟨k, hk⟩ := List.getElem?_of_mem ha
      obtain ⟨_, _, _, _, h5, h6⟩ := hloc r k f a hf hk
      exact ⟨h5, h6, hm a ha⟩
    have hbest := fun t ht => (he r t f hf ht).2
    obtain ⟨q4, q5⟩ := q3 r f hf
    have hroot : ∀ a ∈ f.flatten, a.dst ≠ 0 := fun a ha => by have := hm a ha; omega
    have hV := (g5 r f hf).1
    have hM : ∀ t < f.length, id t < f.length := fun t ht => ht
    refine ⟨?_, ?_⟩
    · intro s hs
      obtain ⟨u, w1, _⟩ := walk_score f.length f.flatten Arc.src Arc.dst (e r) id hlt 0 hroot _ hV
        (fun t ht => (hbest t ht).1) (fun t ht => (hbest t ht).2) f.length hM s hs
      refine ⟨⟨u, (gpath_forward _ _ _ _).mp w1⟩, ?_⟩
      rintro ⟨is, his⟩
      have key := fun is (his : IPath f.flatten 0 is s) =>
        walk_best f.length f.flatten Arc.src Arc.dst (e r) id hlt 0 hroot _ hV
          (fun t ht => (hbest t ht).1) (fun t ht => (hbest t ht).2) f.length hM s hs is.reverse
          ((gpath_forward _ _ _ _).mpr (by rw [List.reverse_reverse]; exact his))
      refine ⟨(gpath_forward _ _ _ _).mp (key is his).1, ?_⟩
      intro is his
      have h := (key is his).2
      have hrev : ∀ l : List Nat, scoreAt f.flatten l.reverse = listScore f.flatten l := by
        intro l
        rw [scoreAt, List.map_reverse, List.sum_reverse]; rfl
      have h2 := hrev is.reverse
      rw [List.reverse_reverse] at h2
      rw [hrev, h2]
      exact h
    · intro j hj
      have ha := List.getElem?_eq_getElem hj
      rw [q5 j _ ha]
      congr 1
      have h := trop f.length f.flatten Arc.src Arc.dst (e r) id hlt
        (fun t ht k hk => by obtain ⟨a, z1, z2, _⟩ := (hbest t ht).2 k hk; exact ⟨a, z1, z2⟩) f.length hM (D r)
        (fun s => deriv.getD (off T r + s) 0) q4 j _ ha
      refine h.trans ?_
      unfold pathDerivs
      simp only [List.mem_reverse]

omit hn hfw hd [IsOrderedAddMonoid W] [Field K] [DecidableEq K] in
/-- The best leaving arcs. -/
theorem bestLeaving (bwd : List (WithBot W)) (hl : bwd.length = T.flatten.length) :
    ∃ vals best, beginScores (flat T) extend bwd = some vals ∧ argMaxRows ⊥ (flat T).sp2 vals = some best ∧
      best.length = T.flatten.length ∧
      ∀ (r s : Nat) (f : List (List (Arc W))), T[r]? = some f → s < f.length → ∃ e : Option Nat,
        best[off T r + s]? = some (e.map (base T r + ·)) ∧
        (e = none → ∀ a ∈ f.flatten, a.src ≠ s) ∧
        ∀ k, e = some k → ∃ a, f.flatten[k]? = some a ∧ a.src = s ∧
          ∀ a' ∈ f.flatten, a'.src = s → extend (bwd.getD (off T r + a'.dst) ⊥) a'.score ≤
            extend (bwd.getD (off T r + a.dst) ⊥) a.score := by
  obtain ⟨dest, hde, _, _⟩ := destStates_spec T hT
  have hloc := arc_local T hT dest hde
  have hval : ∀ (r k : Nat) (f : List (List (Arc W))) (a : Arc W), T[r]? = some f → f.flatten[k]? = some a →
      arcValue (flat T) extend (destState (flat T)) bwd (base T r + k) =
        some (extend (bwd.getD (off T r + a.dst) ⊥) a.score) := by
    intro r k f a hf ha
    obtain ⟨h1, h2, h3, h4, h5, h6⟩ := hloc r k f a hf ha
    have e1 := id2_get T _ h1
    have e2 : (flat T).arcs[base T r + k]? = some a := h2
    rw [h3] at e1
    have hb : off T r + a.dst < bwd.length := by rw [hl]; exact off_lt T r _ f hf h6
    unfold arcValue destState
    simp only [e1, e2, Option.bind_eq_bind, Option.bind_some,
      show off T r + a.src - a.src + a.dst = off T r + a.dst by omega, List.getElem?_eq_getElem hb,
      List.getD_eq_getElem?_getD, Option.getD_some]
  obtain ⟨vals, v1⟩ : ∃ vals, beginScores (flat T) extend bwd = some vals := by
    apply mapM_exists
    intro j hj
    have hj : j < T.flatten.flatten.length := List.mem_range.mp hj
    obtain ⟨r, f, k, a, h1, h2, rfl⟩ := arc_global T j hj
    exact ⟨_, hval r k f a h1 h2⟩
  have hvl : vals.length = T.flatten.flatten.length := by
    rw [(mapM_get v1).1, List.length_range]; rfl
  have hvget : ∀ (r k : Nat) (f : List (List (Arc W))) (a : Arc W), T[r]? = some f → f.flatten[k]? = some a →
      vals[base T r + k]? = some (extend (bwd.getD (off T r + a.dst) ⊥) a.score) := by
    intro r k f a hf ha
    rw [(mapM_get v1).2 _ _ (List.getElem?_range (hloc r k f a hf ha).1)]
    exact hval r k f a hf ha
  have hspl : (flat T).sp2.length = T.flatten.length + 1 := by
    show (psum _).length = _
    rw [psum_length, List.length_map]
  obtain ⟨best, b1⟩ : ∃ best, argMaxRows ⊥ (flat T).sp2 vals = some best := by
    apply mapM_exists
    intro g hg
    rw [List.mem_range, hspl, Nat.add_sub_cancel] at hg
    simp only [List.getElem?_eq_getElem (show g < (flat T).sp2.length by omega),
      List.getElem?_eq_getElem (show g + 1 < (flat T).sp2.length by omega), Option.bind_eq_bind, Option.bind_some]
    exact ⟨_, rfl⟩
  refine ⟨vals, best, v1, b1, by rw [(mapM_get b1).1, List.length_range, hspl]; rfl, ?_⟩
  intro r s f hf hs
  have hg := off_lt T r s f hf hs
  have e := state_at T r s f hf hs
  rw [List.getElem?_eq_getElem hs] at e
  have hmem := leaving_mem T hT r s f hf _ (List.getElem?_eq_getElem hs)
  have e1 := (mapM_get b1).2 _ _ (List.getElem?_range (show off T r + s < (flat T).sp2.length - 1 by omega))
  simp only [flat_sp2 T _ (show off T r + s ≤ T.flatten.length by omega), flat_sp2_succ T _ _ e,
    Option.bind_eq_bind, Option.bind_some, Nat.add_sub_cancel_left] at e1
  rw [e1]
  set lo := apos T (off T r + s) with hlo
  have hget : ∀ i, ((vals.drop lo).take (f[s]).length)[i]? = if i < (f[s]).length then vals[lo + i]? else none := by
    intro i
    rw [List.getElem?_take]
    split
    · rw [List.getElem?_drop]
    · rfl
  have hrow : ∀ i < (f[s]).length, ∃ k a, f.flatten[k]? = some a ∧ a.src = s ∧ lo + i = base T r + k ∧
      ((vals.drop lo).take (f[s]).length)[i]? = some (extend (bwd.getD (off T r + a.dst) ⊥) a.score) := by
    intro i hi
    obtain ⟨k, a, z1, z2, z3⟩ := (hmem (lo + i)).mp (List.mem_range'_1.mpr ⟨by omega, by omega⟩)
    refine ⟨k, a, z1, of_decide_eq_true z2, z3, ?_⟩
    rw [hget, if_pos hi, z3]
    exact hvget r k f a hf z1
  have hin : ∀ (a' : Arc W), a' ∈ f.flatten → a'.src = s →
      ∃ i, i < (f[s]).length ∧ ((vals.drop lo).take (f[s]).length)[i]? =
        some (extend (bwd.getD (off T r + a'.dst) ⊥) a'.score) := by
    intro a' ha' hs'
    obtain ⟨k, hk⟩ := List.getElem?_of_mem ha'
    have := (hmem (base T r + k)).mpr ⟨k, a', hk, by simpa using hs', rfl⟩
    rw [List.mem_range'_1] at this
    refine ⟨base T r + k - lo, by omega, ?_⟩
    rw [hget, if_pos (by omega), show lo + (base T r + k - lo) = base T r + k by omega]
    exact hvget r k f a' hf hk
  rcases argMaxFrom_cases ((vals.drop lo).take (f[s]).length) ⊥ none lo with ⟨c1, c2⟩ | ⟨i, x, c1, c2, _, c4⟩
  · refine ⟨none, by rw [c1]; rfl, ?_, by intro k hk; cases hk⟩
    intro _ a ha hs'
    obtain ⟨i, _, z2⟩ := hin a ha hs'
    exact absurd (c2 _ (List.mem_of_getElem? z2)) (by simp)
  · have hi : i < (f[s]).length := by
      by_contra hi
      rw [hget, if_neg hi] at c1
      cases c1
    obtain ⟨k, a, z1, z2, z3, z4⟩ := hrow i hi
    refine ⟨some k, by rw [c2, z3]; rfl, (by intro h; cases h), ?_⟩
    intro k' hk'
    obtain rfl := Option.some.inj hk'
    refine ⟨a, z1, z2, ?_⟩
    rw [c1] at z4
    obtain rfl := Option.some.inj z4
    intro a' ha' hs'
    obtain ⟨i', _, w⟩ := hin a' ha' hs'
    exact c4 _ (List.mem_of_getElem? w)

/-- C70: the same for backward scores and paths to the final state. -/
theorem backprop_backward_tropical (lp0 : Nat) (bwd : List (WithBot W))
    (hB : backwardScores lp0 extend max ⊥ 0 (flat T) = some bwd) :
    ∃ (ans : List K) (path : Nat → Nat → List Nat),
      (∀ lp, backpropBackwardT lp extend ⊥ (flat T) bwd deriv = some ans) ∧ ans.length = T.flatten.flatten.length ∧
      ∀ (r : Nat) (f : List (List (Arc W))), T[r]? = some f →
        (∀ s < f.length, (∃ u, IPath f.flatten s (path r s) u) ∧
          ((∃ is, IPath f.flatten s is (rowsFsa f).final) → BestPath f.flatten s (rowsFsa f).final (path r s))) ∧
        ∀ j < f.flatten.length,
          ans[base T r + j]? = some (pathDerivs f.length j (path r) (fun s => deriv.getD (off T r + s) 0)) := by
  obtain ⟨bwd', g1, g3, g5⟩ := backward_fixed (extend : WithBot W → W → WithBot W) max ⊥ 0 reduceRow_max_perm T hT hn hfw
  rw [g1] at hB
  obtain rfl := Option.some.inj hB
  obtain ⟨vals, best, v1, v2, v3, v4⟩ := bestLeaving T hT bwd' g3
  obtain ⟨dest, hde, _, _⟩ := destStates_spec T hT
  have hloc := arc_local T hT dest hde
  have h6 : ∀ r s, ∃ e : Option Nat, ∀ f, T[r]? = some f → s < f.length →
      best[off T r + s]? = some (e.map (base T r + ·)) ∧
        (e = none → ∀ a ∈ f.flatten, a.src ≠ s) ∧
        ∀ k, e = some k → ∃ a, f.flatten[k]? = some a ∧ a.src = s ∧
          ∀ a' ∈ f.flatten, a'.src = s → extend (bwd'.getD (off T r + a'.dst) ⊥) a'.score ≤
            extend (bwd'.getD (off T r + a.dst) ⊥) a.score := by
    intro r s
    cases hf : T[r]? with
    | none => exact ⟨none, fun f h => by simp at h⟩
    | some f =>
      by_cases hs : s < f.length
      · obtain ⟨e, g⟩ := v4 r s f hf hs
        refine ⟨e, fun f' h' _ => ?_⟩
        obtain rfl := Option.some.inj h'
        exact g
      · refine ⟨none, fun f' h' hs' => ?_⟩
        obtain rfl := Option.some.inj h'
        exact absurd hs' hs
  choose e he using h6
  obtain ⟨D, ans, q1, q2, q3⟩ := grad_entering T hT hn hfw (backwardArcT (flat T) best)
    (fun r k a d => if e r a.src = some k then d else 0) deriv hd (by
      intro r k f a hf ha cur hc
      obtain ⟨h1, h2, h3, h4, h5, h6⟩ := hloc r k f a hf ha
      have e1 := id2_get T _ h1
      rw [h3] at e1
      unfold backwardArcT
      simp only [e1, Option.bind_eq_bind, Option.bind_some]
      exact bestGrad_eq best cur _ k _ (e r a.src) (he r a.src f hf h5).1 (by rw [hc]; exact off_lt T r _ f hf h5))
  refine ⟨ans, fun r s => walk (T.getD r []).flatten Arc.dst (e r) ((T.getD r []).length + 1) s, ?_, q2, ?_⟩
  · intro lp
    unfold backpropBackwardT
    rw [if_neg (by rw [flat_id1_length, g3, hd]; simp)]
    have := q1 lp
    simp only [v1, v2, Option.bind_eq_bind, Option.bind_some] at this ⊢
    exact this
  · intro r f hf
    have hdd : T.getD r [] = f := by rw [List.getD_eq_getElem?_getD, hf]; rfl
    simp only [hdd]
    have hm := hfw f (List.mem_of_getElem? hf)
    have hlt : ∀ a ∈ f.flatten, a.dst < f.length ∧ a.src < f.length ∧ f.length - a.dst < f.length - a.src := by
      intro a ha
      obtain ⟨k, hk⟩ := List.getElem?_of_mem ha
      obtain ⟨_, _, _, _, h5, h6⟩ := hloc r k f a hf hk
      exact ⟨h6, h5, by have := hm a ha; omega⟩
    have hbest := fun t ht => (he r t f hf ht).2
    obtain ⟨q4, q5⟩ := q3 r f hf
    have hroot : ∀ a ∈ f.flatten, a.src ≠ f.length - 1 := fun a ha => by
      have := hm a ha; have := (hlt a ha).1; omega
    have hfin : (rowsFsa f).final = f.length - 1 := rfl
    have hV : ∀ s < f.length, (fun s => bwd'.getD (off T r + s) ⊥) s = if s = f.length - 1 then 0 else
        reduceRow max ⊥ ((f.flatten.filter (fun a => decide (a.src = s))).map
          (fun a => extend ((fun s => bwd'.getD (off T r + s) ⊥) a.dst) a.score)) := by
      intro s hs
      rw [g5 r f hf s hs]
      have : (s + 1 = f.length) ↔ (s = f.length - 1) := by omega
      simp only [this]
    have hM : ∀ t < f.length, f.length - t < f.length + 1 := fun t ht => by omega
    refine ⟨?_, ?_⟩
    · intro s hs
      obtain ⟨u, w1, _⟩ := walk_score f.length f.flatten Arc.dst Arc.src (e r) (fun t => f.length - t) hlt
        (f.length - 1) hroot _ hV
        (fun t ht => (hbest t ht).1) (fun t ht => (hbest t ht).2) (f.length + 1) hM s hs
      refine ⟨⟨u, (gpath_backward _ _ _ _).mp w1⟩, ?_⟩
      rintro ⟨is, his⟩
      have key := fun is (his : IPath f.flatten s is (f.length - 1)) =>
        walk_best f.length f.flatten Arc.dst Arc.src (e r) (fun t => f.length - t) hlt (f.length - 1) hroot _ hV
          (fun t ht => (hbest t ht).1) (fun t ht => (hbest t ht).2) (f.length + 1) hM s hs is
          ((gpath_backward _ _ _ _).mpr his)
      refine ⟨(gpath_backward _ _ _ _).mp (key is his).1, ?_⟩
      intro is his
      exact (key is his).2
    · intro j hj
      have ha := List.getElem?_eq_getElem hj
      rw [q5 j _ ha]
      congr 1
      exact trop f.length f.flatten Arc.dst Arc.src (e r) (fun t => f.length - t) hlt
        (fun t ht k hk => by obtain ⟨a, z1, z2, _⟩ := (hbest t ht).2 k hk; exact ⟨a, z1, z2⟩) (f.length + 1) hM (D r)
        (fun s => deriv.getD (off T r + s) 0) q4 j _ ha

omit hd [Field K] [DecidableEq K] in
/-- C70: the derivative of the total score of an FSA goes to the arcs of one best path, the one that
`shortest_path` returns; the other arcs get zero, as do all arcs if there is no path. -/
theorem tot_scores_tropical_gradient [Zero K] (lp0 jm : Nat) (hjm : 0 < jm) (out : FsaVec W) (best : List Nat)
    (hS : shortestPathFsas lp0 jm extend ⊥ 0 (flat T) = some (out, best.map some))
    (deriv : List K) (hd : deriv.length = T.length) :
    ∃ ans, totScoresBackwardT (flat T) best deriv = some ans ∧ ans.length = T.flatten.flatten.length ∧
      ∀ (r : Nat) (f : List (List (Arc W))), T[r]? = some f →
        ((∃ is q, IsPath (rowsFsa f) is q) → ∃ js p, IsPath (rowsFsa f) js p ∧
          (∀ is q, IsPath (rowsFsa f) is q → score q ≤ score p) ∧
          ∀ j < f.flatten.length, ans[base T r + j]? = if j ∈ js then deriv[r]? else some 0) ∧
        ((¬ ∃ is q, IsPath (rowsFsa f) is q) → ∀ j < f.flatten.length, ans[base T r + j]? = some 0) := by
  obtain ⟨Q, P, fwd, h1, h2, h3, h4, h5⟩ := shortest_path_is_best T hT hn hfw
  rw [h3 lp0 jm hjm] at hS
  have hQ : best = Q.flatten := by
    have := (Prod.mk.inj (Option.some.inj hS)).2
    exact (List.map_injective_iff.mpr (Option.some_injective _) this).symm
  subst hQ
  obtain ⟨dest, hde, _, _⟩ := destStates_spec T hT
  have hloc := arc_local T hT dest hde
  have hrow : ∀ (r : Nat) (f : List (List (Arc W))), T[r]? = some f → ∃ js,
      Q[r]? = some (js.map (base T r + ·)) ∧ js.Nodup ∧ (∀ j ∈ js, j < f.flatten.length) ∧
      ((∃ is q, IsPath (rowsFsa f) is q) → ∃ p, IsPath (rowsFsa f) js p ∧
          (∀ is q, IsPath (rowsFsa f) is q → score q ≤ score p)) ∧
      ((¬ ∃ is q, IsPath (rowsFsa f) is q) → js = []) := by
    intro r f hf
    obtain ⟨js, p, g1, g2, g3, g4⟩ := h5 r f hf
    by_cases hp : ∃ is q, IsPath (rowsFsa f) is q
    · obtain ⟨z1, z2, z3⟩ := g3 hp
      refine ⟨js, g1, ?_, ?_, fun _ => ⟨p, z1, z2⟩, fun h => absurd hp h⟩
      · exact ipath_nodup f.flatten (hfw f (List.mem_of_getElem? hf)) _ _ _ ⟨p, z1.2.1, z1.2.2⟩
      · intro j hj
        have z := z1.2.2
        have : (rowsFsa f).arcs[j]? ∈ p.map some := by rw [← z]; exact List.mem_map.mpr ⟨j, hj, rfl⟩
        obtain ⟨a, _, ha⟩ := List.mem_map.mp this
        exact (List.getElem?_eq_some_iff.mp ha.symm).1
    · obtain ⟨rfl, rfl⟩ := g4 hp
      exact ⟨[], g1, List.nodup_nil, (by intro j hj; cases hj), fun h => absurd h hp, fun _ => rfl⟩
  have hw : ∀ (r : Nat) (f : List (List (Arc W))), T[r]? = some f → ∀ j < f.flatten.length,
      bestWrite (flat T) deriv (base T r + j) = (deriv[r]?).map (fun d => (base T r + j, d)) := by
    intro r f hf j hj
    obtain ⟨q1, q2, q3, q4, q5, q6⟩ := hloc r j f _ hf (List.getElem?_eq_getElem hj)
    have e1 := id2_get T _ q1
    rw [q3] at e1
    have hr := (List.getElem?_eq_some_iff.mp hf).1
    unfold bestWrite
    simp only [e1, flat_id1 T r _ f hf q5, Option.bind_eq_bind, Option.bind_some,
      List.getElem?_eq_getElem (show r < deriv.length by omega)]
    rfl
  have hmem : ∀ x, x ∈ Q.flatten ↔ ∃ (r : Nat) (f : List (List (Arc W))) (js : List Nat) (k : Nat), T[r]? = some f ∧ Q[r]? = some (js.map (base T r + ·)) ∧
      k ∈ js ∧ x = base T r + k := by
    intro x
    rw [List.mem_flatten]
    constructor
    · rintro ⟨l, hl, hx⟩
      obtain ⟨r, hr⟩ := List.getElem?_of_mem hl
      have hrl := (List.getElem?_eq_some_iff.mp hr).1
      have hf := List.getElem?_eq_getElem (show r < T.length by omega)
      obtain ⟨js, g1, _⟩ := hrow r _ hf
      rw [hr] at g1
      obtain rfl := Option.some.inj g1
      obtain ⟨k, hk, rfl⟩ := List.mem_map.mp hx
      exact ⟨r, _, js, k, hf, hr, hk, rfl⟩
    · rintro ⟨r, f, js, k, hf, hr, hk, rfl⟩
      exact ⟨_, List.mem_of_getElem? hr, List.mem_map.mpr ⟨k, hk, rfl⟩⟩
  have hinj : ∀ (r r' k k' : Nat) (f f' : List (List (Arc W))), T[r]? = some f → T[r']? = some f' →
      k < f.flatten.length → k' < f'.flatten.length → base T r + k = base T r' + k' → r = r' ∧ k = k' := by
    intro r r' k k' f f' hf hf' hk hk' he
    have q := hloc r k f _ hf (List.getElem?_eq_getElem hk)
    have q' := hloc r' k' f' _ hf' (List.getElem?_eq_getElem hk')
    have e1 := q.2.2.1
    rw [he, q'.2.2.1] at e1
    obtain ⟨rfl, _⟩ := off_inj T r' r _ _ f' f hf' hf q'.2.2.2.2.1 q.2.2.2.2.1 e1
    exact ⟨rfl, by omega⟩
  have hnd : Q.flatten.Nodup := by
    rw [List.nodup_flatten]
    constructor
    · intro l hl
      obtain ⟨r, hr⟩ := List.getElem?_of_mem hl
      have hrl := (List.getElem?_eq_some_iff.mp hr).1
      obtain ⟨js, g1, g2, _⟩ := hrow r _ (List.getElem?_eq_getElem (show r < T.length by omega))
      rw [hr] at g1
      obtain rfl := Option.some.inj g1
      exact g2.map (fun a b h => by simpa using h)
    · rw [List.pairwise_iff_getElem]
      intro i i' hi hi' hlt x hx hx'
      have hf := List.getElem?_eq_getElem (show i < T.length by omega)
      have hf' := List.getElem?_eq_getElem (show i' < T.length by omega)
      obtain ⟨js, g1, _, g3, _⟩ := hrow i _ hf
      obtain ⟨js', g1', _, g3', _⟩ := hrow i' _ hf'
      rw [List.getElem?_eq_getElem hi] at g1
      rw [List.getElem?_eq_getElem hi'] at g1'
      rw [Option.some.inj g1] at hx
      rw [Option.some.inj g1'] at hx'
      obtain ⟨k, hk, rfl⟩ := List.mem_map.mp hx
      obtain ⟨k', hk', he⟩ := List.mem_map.mp hx'
      have := (hinj i' i k' k _ _ hf' hf (g3' k' hk') (g3 k hk) he).1
      omega
  obtain ⟨ws, w1⟩ : ∃ ws, Q.flatten.mapM (bestWrite (flat T) deriv) = some ws := by
    apply mapM_exists
    intro x hx
    obtain ⟨r, f, js, k, z1, z2, z3, rfl⟩ := (hmem x).mp hx
    obtain ⟨js', g1, _, g3, _⟩ := hrow r f z1
    rw [z2] at g1
    obtain rfl := List.map_injective_iff.mpr (fun a b h => by simpa using h) (Option.some.inj g1)
    have hr := (List.getElem?_eq_some_iff.mp z1).1
    rw [hw r f z1 k (g3 k z3), List.getElem?_eq_getElem (show r < deriv.length by omega)]
    exact ⟨_, rfl⟩
  have hwfst : ws.map Prod.fst = Q.flatten := by
    obtain ⟨l1, l2⟩ := mapM_get w1
    apply List.ext_getElem?
    intro i
    rw [List.getElem?_map]
    by_cases hi : i < Q.flatten.length
    · have := l2 i _ (List.getElem?_eq_getElem hi)
      rw [List.getElem?_eq_getElem hi, this]
      obtain ⟨r, f, js, k, z1, z2, z3, z4⟩ := (hmem _).mp (List.getElem_mem hi)
      obtain ⟨js', g1, _, g3, _⟩ := hrow r f z1
      rw [z2] at g1
      obtain rfl := List.map_injective_iff.mpr (fun a b h => by simpa using h) (Option.some.inj g1)
      have hr := (List.getElem?_eq_some_iff.mp z1).1
      rw [z4, hw r f z1 k (g3 k z3), List.getElem?_eq_getElem (show r < deriv.length by omega)]
      rfl
    · rw [List.getElem?_eq_none (by omega), List.getElem?_eq_none (by omega)]; rfl
  have hlt : ∀ w ∈ ws, w.1 < (List.replicate (flat T).arcs.length (0 : K)).length := by
    intro w hw'
    have : w.1 ∈ Q.flatten := by rw [← hwfst]; exact List.mem_map.mpr ⟨w, hw', rfl⟩
    obtain ⟨r, f, js, k, z1, z2, z3, z4⟩ := (hmem _).mp this
    obtain ⟨js', g1, _, g3, _⟩ := hrow r f z1
    rw [z2] at g1
    obtain rfl := List.map_injective_iff.mpr (fun a b h => by simpa using h) (Option.some.inj g1)
    rw [List.length_replicate, z4]
    exact (hloc r k f _ z1 (List.getElem?_eq_getElem (g3 k z3))).1
  obtain ⟨ans, a1, a2, a3, a4⟩ := writeAll_eq (List.replicate (flat T).arcs.length (0 : K)) ws
    (by rw [hwfst]; exact hnd) hlt
  have hans : ∀ (r : Nat) (f : List (List (Arc W))) (js : List Nat), T[r]? = some f →
      Q[r]? = some (js.map (base T r + ·)) → (∀ j ∈ js, j < f.flatten.length) → ∀ j < f.flatten.length,
      ans[base T r + j]? = if j ∈ js then deriv[r]? else some 0 := by
    intro r f js hf hq hjs j hj
    have q := hloc r j f _ hf (List.getElem?_eq_getElem hj)
    have hr := (List.getElem?_eq_some_iff.mp hf).1
    by_cases hm : j ∈ js
    · rw [if_pos hm, List.getElem?_eq_getElem (show r < deriv.length by omega)]
      apply a3
      have hx : base T r + j ∈ Q.flatten := (hmem _).mpr ⟨r, f, js, j, hf, hq, hm, rfl⟩
      obtain ⟨i, hi⟩ := List.getElem?_of_mem hx
      have := (mapM_get w1).2 i _ hi
      rw [hw r f hf j hj, List.getElem?_eq_getElem (show r < deriv.length by omega)] at this
      exact List.mem_of_getElem? this
    · rw [if_neg hm, a4]
      · rw [List.getElem?_replicate, if_pos]
        exact q.1
      · rw [hwfst]
        intro hc
        obtain ⟨r', f', js', k, z1, z2, z3, z4⟩ := (hmem _).mp hc
        obtain ⟨js'', g1, _, g3, _⟩ := hrow r' f' z1
        rw [z2] at g1
        obtain rfl := List.map_injective_iff.mpr (fun a b h => by simpa using h) (Option.some.inj g1)
        obtain ⟨rfl, rfl⟩ := hinj r r' j k f f' hf z1 hj (g3 k z3) z4
        rw [hq] at z2
        obtain rfl := List.map_injective_iff.mpr (fun a b h => by simpa using h) (Option.some.inj z2)
        exact hm z3
  refine ⟨ans, ?_, ?_, ?_⟩
  · unfold totScoresBackwardT
    rw [if_neg (by rw [flat_sp1_length, hd]; simp)]
    simp only [w1, Option.bind_eq_bind, Option.bind_some]
    exact a1
  · rw [a2, List.length_replicate]; rfl
  · intro r f hf
    obtain ⟨js, g1, g2, g3, g4, g5⟩ := hrow r f hf
    refine ⟨?_, ?_⟩
    · intro hp
      obtain ⟨p, z1, z2⟩ := g4 hp
      exact ⟨js, p, z1, z2, hans r f js hf g1 g3⟩
    · intro hp j hj
      obtain rfl := g5 hp
      rw [hans r f [] hf g1 g3 j hj, if_neg (by simp)]
end
end Verif.Fsa
