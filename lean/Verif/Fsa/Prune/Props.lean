import Verif.Fsa.Prune.Lemmas

/-!
# C98: `prune_on_arc_post` keeps the paths whose arcs are all likely

`k2.prune_on_arc_post(fsas, threshold_prob, use_double_scores)` removes the arcs with a posterior below the
threshold.  The posterior of an arc is the weight of the accepting paths through the arc over the weight of all
accepting paths; the weight of a path is the product of the exponentials of the scores of its arcs.

An FSA whose accepting paths weigh nothing in total has no posteriors (the code computes NaN and keeps such an arc);
nothing is said about the paths of such an FSA.
-/

namespace Verif.Fsa
open Verif.Ragged Verif.Util Verif.Fsa.Bat Verif.Fsa.Sco Verif.Fsa.Top Verif.Fsa.Pap
variable {W K : Type} [Field K] [LinearOrder K] [IsStrictOrderedRing K]

/-! ## Specification -/

/-- The posterior of arc `j`, given all accepting paths. -/
def posterior (w : List Nat → K) (L : List (List Nat)) (j : Nat) : K :=
  ((L.filter (fun is => decide (j ∈ is))).map w).sum / (L.map w).sum

/-- `L` lists the accepting paths, each one once. -/
def AllAccepting (f : List (List (Arc W))) (L : List (List Nat)) : Prop :=
  L.Nodup ∧ ∀ is, is ∈ L ↔ IAccepting (rowsFsa f) is

/-! ## Theorem -/

section
variable (wt : W → K) (hwt : ∀ w, 0 ≤ wt w) (mid : K → K → K) (hmid : ∀ x, mid x x = x) (thr : K) (h0 : 0 < thr)
  (h1 : thr < 1) (T : List (List (List (Arc W)))) (hT : VecOk T) (hn : T.flatten.length ≤ intMax)
  (hfw : ∀ f ∈ T, ∀ a ∈ f.flatten, a.src < a.dst)
include hwt hmid h0 h1 hT hn hfw

/-- C98: `prune_on_arc_post` keeps all states; the arcs that are left are, in their order, those of the arc map; in
an FSA with accepting paths they are the arcs with a posterior of at least the threshold; the accepting paths that are
left are those along such arcs only; and what is lost is at most the threshold for each removed arc. -/
theorem prune_on_arc_post_paths : ∃ (T' : List (List (List (Arc W)))) (arcMap : List Nat),
    (∀ lp0 lp1, pruneOnArcPostPy lp0 lp1 wt mid thr (flat T) = some (flat T', arcMap)) ∧
    T'.map List.length = T.map List.length ∧ VecOk T' ∧
    arcMap.Pairwise (· < ·) ∧ arcMap.map (fun j => (flat T).arcs[j]?) = (flat T').arcs.map some ∧
    ∀ (r : Nat) (f f' : List (List (Arc W))) (L L' : List (List Nat)), T[r]? = some f → T'[r]? = some f' →
      AllAccepting f L → AllAccepting f' L' → (L.map (pathWeight wt f.flatten)).sum ≠ 0 →
      (∀ j < f.flatten.length, base T r + j ∈ arcMap ↔ thr ≤ posterior (pathWeight wt f.flatten) L j) ∧
      (L'.map (fun is => is.map (fun i => arcMap[base T' r + i]?))).Perm
        ((L.filter (fun js => js.all (fun j => decide (thr ≤ posterior (pathWeight wt f.flatten) L j)))).map
          (fun js => js.map (fun j => some (base T r + j)))) ∧
      (L.map (pathWeight wt f.flatten)).sum * (1 - thr * ((List.range f.flatten.length).countP
          (fun j => decide (posterior (pathWeight wt f.flatten) L j < thr)) : Nat)) ≤
        (L'.map (pathWeight wt f'.flatten)).sum := by
  obtain ⟨fwd, f1, f2, f3⟩ := forward_fixed (fun (x : K) w => x * wt w) (· + ·) 0 1
    (fun l l' h => reduceRow_add_perm l l' h) T hT hn hfw
  obtain ⟨bwd, b1, b2, b3⟩ := backward_fixed (fun (x : K) w => x * wt w) (· + ·) 0 1
    (fun l l' h => reduceRow_add_perm l l' h) T hT hn hfw
  obtain ⟨post, p1, p2, p3⟩ := arc_post_is_occupancy wt mid hmid T hT hn hfw fwd bwd 0 0 (f1 0) (b1 0)
  obtain ⟨P, hP1, hP2⟩ := exists_flags_vec T (keepPost thr post) (by rw [keepPost, List.length_map, p2])
  have hl : (P.map flags).flatten.length = T.flatten.flatten.length := by
    rw [hP2, keepPost, List.length_map, p2]
  set M := sel (P.map flags).flatten (List.range (P.map flags).flatten.length) with hM
  have hT' : ∀ (r : Nat) (f' : List (List (Arc W))), (P.map picked)[r]? = some f' → ∃ Q, P[r]? = some Q ∧ f' = picked Q ∧ T[r]? = some (bare Q) := by
    intro r f' h
    rw [List.getElem?_map] at h
    cases hQ : P[r]? with
    | none => rw [hQ] at h; cases h
    | some Q =>
      rw [hQ] at h
      refine ⟨Q, rfl, (Option.some.inj h).symm, ?_⟩
      rw [← hP1, List.getElem?_map, hQ]; rfl
  refine ⟨P.map picked, M, ?_, ?_, ?_, ?_, ?_, ?_⟩
  · intro lp0 lp1
    unfold pruneOnArcPostPy pruneOnArcPost
    simp only [f1 lp0, b1 lp1, p1, Option.bind_eq_bind, Option.bind_some]
    rw [if_pos ⟨h0, h1, by rw [p2]; rfl⟩, new2old_spec, ← hP2, Option.bind_some]
    have := indexLast_eq P
    rw [hP1] at this
    exact this
  · rw [← hP1, List.map_map, List.map_map]
    apply List.map_congr_left
    intro Q _
    exact picked_length Q
  · intro f' hf' s row hs a ha
    obtain ⟨r, hr⟩ := List.getElem?_of_mem hf'
    obtain ⟨Q, hQ, rfl, hb⟩ := hT' r f' hr
    unfold picked at hs
    rw [List.getElem?_map] at hs
    cases hq : Q[s]? with
    | none => rw [hq] at hs; cases hs
    | some q =>
      rw [hq] at hs
      obtain rfl := Option.some.inj hs
      obtain ⟨x, hx, rfl⟩ := List.mem_map.mp ha
      have := hT (bare Q) (List.mem_of_getElem? hb) s (q.map Prod.fst) (by unfold bare; rw [List.getElem?_map, hq]; rfl)
        x.1 (List.mem_map.mpr ⟨x, (List.mem_filter.mp hx).1, rfl⟩)
      rw [picked_length]
      exact this
  · exact Verif.Fsa.Dp.sel_pairwise _ _ List.pairwise_lt_range
  · have e := picked_sel P.flatten
    rw [Pap.flags_flatten, bare_flatten, hP1, picked_flatten] at e
    have hg := Verif.Fsa.Dp.gather_sel (P.map flags).flatten T.flatten.flatten hl.symm
    rw [← e] at hg
    exact map_of_mapM _ _ _ hg
  · intro r f f' L L' hf hf' hL hL' hne
    obtain ⟨Q, hQ, rfl, hb⟩ := hT' r f' hf'
    rw [hf] at hb
    obtain rfl := Option.some.inj hb
    set w := pathWeight wt (bare Q).flatten with hw
    have hw0 : ∀ is, 0 ≤ w is := by
      intro is
      apply List.prod_nonneg
      intro x hx
      obtain ⟨j, _, rfl⟩ := List.mem_map.mp hx
      cases (bare Q).flatten[j]? with
      | none => exact zero_le_one
      | some a => exact hwt _
    have hpos : 0 < (L.map w).sum := by
      refine lt_of_le_of_ne (List.sum_nonneg ?_) (Ne.symm hne)
      intro x hx
      obtain ⟨is, _, rfl⟩ := List.mem_map.mp hx
      exact hw0 is
    have hpost : ∀ j < (bare Q).flatten.length, post[base T r + j]? = some (posterior w L j) := by
      intro j hj
      refine p3 r j (bare Q) hf hj L _ hL.1 hL.2 (hL.1.filter _) ?_
      intro is
      rw [List.mem_filter, hL.2, decide_eq_true_iff]
    have hflag : ∀ j < (bare Q).flatten.length, (flags Q)[j]? = some (decide (thr ≤ posterior w L j)) := by
      intro j hj
      have h := keep_get P r j Q hQ (by rw [flags_length]; exact hj)
      rw [hP2, hP1, keepPost, List.getElem?_map, hpost j hj] at h
      rw [← h]
      simp only [Option.map_some, Option.some.injEq]
      by_cases hlt : posterior w L j < thr
      · rw [if_pos hlt, decide_eq_false (not_le.mpr hlt)]
      · rw [if_neg hlt, decide_eq_true (not_lt.mp hlt)]
    have hmem : ∀ j < (bare Q).flatten.length, j ∈ Pap.arcMap Q ↔ thr ≤ posterior w L j := by
      intro j hj
      rw [arcMap_mem, hflag j hj, Option.some.injEq, decide_eq_true_iff]
    have hfilter : L.filter (fun js => js.all (fun j => decide (j ∈ Pap.arcMap Q))) =
        L.filter (fun js => js.all (fun j => decide (thr ≤ posterior w L j))) := by
      apply List.filter_congr
      intro js hjs
      have hlt := ipath_lt _ _ _ _ ((hL.2 js).mp hjs).2
      rw [Bool.eq_iff_iff, List.all_eq_true, List.all_eq_true]
      constructor
      · intro h j hj
        exact decide_eq_true ((hmem j (hlt j hj)).mp (of_decide_eq_true (h j hj)))
      · intro h j hj
        exact decide_eq_true ((hmem j (hlt j hj)).mpr (of_decide_eq_true (h j hj)))
    refine ⟨?_, ?_, ?_⟩
    · intro j hj
      rw [hM, Verif.Fsa.Dp.mem_sel _ _ (by simp)]
      have h := keep_get P r j Q hQ (by rw [flags_length]; exact hj)
      rw [hP1, hflag j hj] at h
      constructor
      · rintro ⟨k, k1, k2⟩
        rw [List.getElem?_range (List.getElem?_eq_some_iff.mp k1).1] at k2
        obtain rfl := Option.some.inj k2
        rw [h, Option.some.injEq, decide_eq_true_iff] at k1
        exact k1
      · intro k
        rw [decide_eq_true k] at h
        exact ⟨_, h, List.getElem?_range (List.getElem?_eq_some_iff.mp h).1⟩
    · rw [← hfilter]
      have := perm_behind P r Q hQ L L' hL.1 hL.2 hL'.1 hL'.2
      rw [hP1] at this
      exact this
    · rw [sum_behind wt Q L L' hL.1 hL.2 hL'.1 hL'.2, hfilter]
      set R := (List.range (bare Q).flatten.length).filter (fun j => decide (posterior w L j < thr)) with hR
      have hu := union_bound L w hw0 (fun j => decide (thr ≤ posterior w L j)) R (by
        intro is hi j hj hk
        rw [hR, List.mem_filter]
        refine ⟨List.mem_range.mpr (ipath_lt _ _ _ _ ((hL.2 is).mp hi).2 j hj), ?_⟩
        exact decide_eq_true (not_le.mp (of_decide_eq_false hk)))
      have hle : (R.map (fun j => ((L.filter (fun is => decide (j ∈ is))).map w).sum)).sum ≤
          (R.map (fun _ => thr * (L.map w).sum)).sum := by
        apply List.sum_le_sum
        intro j hj
        rw [hR, List.mem_filter] at hj
        have := of_decide_eq_true hj.2
        unfold posterior at this
        exact ((div_lt_iff₀ hpos).mp this).le
      rw [List.map_const', List.sum_replicate, nsmul_eq_mul] at hle
      rw [List.countP_eq_length_filter, ← hR]
      nlinarith
end

/-! ## Examples -/

/-- Three paths of weights 6, 3 and 1; the second FSA has two paths of weight 1. -/
def pruneExample : List (List (List (Arc Nat))) :=
  [[[⟨0, 1, 1, 3⟩, ⟨0, 2, 2, 1⟩], [⟨1, 2, 3, 2⟩, ⟨1, 2, 4, 1⟩], [⟨2, 3, -1, 1⟩], []],
    [[⟨0, 1, -1, 1⟩, ⟨0, 1, -1, 1⟩], []]]

theorem pruneExample_ok : VecOk pruneExample := by
  intro f hf
  rcases List.mem_cons.mp hf with rfl | hf
  · intro s row hs a ha
    match s with
    | 0 => simp at hs; subst hs; simp at ha; rcases ha with rfl | rfl <;> decide
    | 1 => simp at hs; subst hs; simp at ha; rcases ha with rfl | rfl <;> decide
    | 2 => simp at hs; subst hs; simp at ha; subst ha; decide
    | 3 => simp at hs; subst hs; simp at ha
    | s + 4 => simp at hs
  · simp at hf; subst hf
    intro s row hs a ha
    match s with
    | 0 => simp at hs; subst hs; simp at ha; subst ha; decide
    | 1 => simp at hs; subst hs; simp at ha
    | s + 2 => simp at hs

/-- The arc of posterior 1/10 is removed; an arc with the posterior 3/10 is at the threshold and stays. -/
example : pruneOnArcPostPy 4 0 (fun w : Nat => (w : ℚ)) (fun x y => (x + y) / 2) (3 / 10) (flat pruneExample) =
    some (flat [[[⟨0, 1, 1, 3⟩], [⟨1, 2, 3, 2⟩, ⟨1, 2, 4, 1⟩], [⟨2, 3, -1, 1⟩], []],
      [[⟨0, 1, -1, 1⟩, ⟨0, 1, -1, 1⟩], []]], [0, 2, 3, 4, 5, 6]) := by decide +kernel

/-- With the threshold 11/20 no path is left in the second FSA. -/
example : pruneOnArcPostPy 4 0 (fun w : Nat => (w : ℚ)) (fun x y => (x + y) / 2) (11 / 20) (flat pruneExample) =
    some (flat [[[⟨0, 1, 1, 3⟩], [⟨1, 2, 3, 2⟩], [⟨2, 3, -1, 1⟩], []], [[], []]], [0, 2, 4]) := by decide +kernel

example (thr : ℚ) (h0 : 0 < thr) (h1 : thr < 1) := prune_on_arc_post_paths (fun w : Nat => (w : ℚ))
  (fun w => Nat.cast_nonneg w) (fun x y => (x + y) / 2) (by intro x; ring) thr h0 h1 pruneExample pruneExample_ok
  (by decide) (by decide)

end Verif.Fsa
