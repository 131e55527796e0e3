import Verif.Fsa.Grad.Sweep

/-!
# The loops over the batches on one FSA
-/

namespace Verif.Fsa.Grd
open Verif.Ragged Verif.Util Verif.Fsa.Top Verif.Fsa.Bat Verif.Fsa.Sco
variable {W K : Type}

/-- The batches of leaving arcs. -/
theorem leaving_setup (T : List (List (List (Arc W)))) (hT : VecOk T) (hn : T.flatten.length ≤ intMax)
    (hfw : ∀ f ∈ T, ∀ a ∈ f.flatten, a.src < a.dst) :
    ∃ (B C : List (List (List Nat))) (dest : List Nat) (dst : Nat → Nat) (R : List (List Nat)),
      BatchSchedule T B ∧ Exchanged B C ∧
      (∀ lp0, stateBatchesT lp0 (flat T) = some (fullLayers 2 (C : List (Nest Nat 2)), C.flatten.flatten)) ∧
      destStates (flat T) = some dest ∧
      (∀ j < T.flatten.flatten.length, dest[j]? = some (dst j) ∧ dst j < T.flatten.length) ∧
      leavingBatches (flat T) C.flatten.flatten =
        some (psum ((rowsOf R C.flatten.flatten).map List.length), (rowsOf R C.flatten.flatten).flatten) ∧
      (∀ g < T.flatten.length, (R.getD g []).Nodup) ∧
      (∀ (r s : Nat) (f : List (List (Arc W))), T[r]? = some f → s < f.length → ∀ j,
        j ∈ R.getD (off T r + s) [] ↔
        ∃ k a, f.flatten[k]? = some a ∧ decide (a.src = s) = true ∧ j = base T r + k) ∧
      (∀ g < T.flatten.length, ∀ j ∈ R.getD g [], j < T.flatten.flatten.length) ∧
      (∀ g < T.flatten.length, ∀ j ∈ R.getD g [], ∀ k k', InBatch B k g → InBatch B k' (dst j) → k < k') := by
  obtain ⟨B, C, hB, hC, hsb⟩ := stateBatchesT_spec T hT hn hfw
  obtain ⟨dest, dst, hde, hd, hA⟩ := arcsOk_of_dest T hT
  set R := (List.range T.flatten.length).map (fun g => List.range' (apos T g) (T.flatten.getD g []).length) with hR
  have hRl : R.length = T.flatten.length := by simp [hR]
  have hRget : ∀ g < T.flatten.length, R.getD g [] = List.range' (apos T g) (T.flatten.getD g []).length := by
    intro g hg
    rw [List.getD_eq_getElem?_getD, hR, List.getElem?_map, List.getElem?_range hg]; rfl
  have hRlen : R.map List.length = T.flatten.map List.length := by
    apply List.ext_getElem?
    intro g
    by_cases hg : g < T.flatten.length
    · rw [hR, List.getElem?_map, List.getElem?_map, List.getElem?_range hg, List.getElem?_map,
        Option.map_some, Option.map_some, List.length_range', List.getD_eq_getElem?_getD,
        List.getElem?_eq_getElem hg]
      rfl
    · rw [List.getElem?_eq_none (by rw [List.length_map, hRl]; omega),
        List.getElem?_eq_none (by rw [List.length_map]; omega)]
  have hRfl : R.flatten = List.range T.flatten.flatten.length := by
    rw [← rows_range T.flatten, hR]
    congr 1
    apply List.map_congr_left
    intro g _
    have : apos T g = (T.flatten.take g).flatten.length := by
      rw [apos, sum_take]
    rw [this]
  have hlea : leavingBatches (flat T) C.flatten.flatten =
      some (psum ((rowsOf R C.flatten.flatten).map List.length), (rowsOf R C.flatten.flatten).flatten) := by
    unfold leavingBatches
    have e1 : (flat T).sp2 = psum (R.map List.length) := by rw [hRlen]; rfl
    rw [e1]
    apply arcBatches_eq
    · intro s hs
      rw [hRl]
      exact (mem_states hB hC s).mp hs
    · intro k hk
      rw [hRfl] at hk ⊢
      rw [List.length_range] at hk
      rw [List.getElem?_range hk]
    · rw [rowsOf_perm R _ (by rw [hRl]; exact states_perm hB hC), hRfl, List.length_range]
      rfl
  have hrowm : ∀ (r s : Nat) (f : List (List (Arc W))), T[r]? = some f → s < f.length → ∀ j,
      j ∈ R.getD (off T r + s) [] ↔
      ∃ k a, f.flatten[k]? = some a ∧ decide (a.src = s) = true ∧ j = base T r + k := by
    intro r s f hf hs j
    have hg := off_lt T r s f hf hs
    have e := state_at T r s f hf hs
    rw [hRget _ hg, List.getD_eq_getElem?_getD, e, List.getElem?_eq_getElem hs]
    exact leaving_mem T hT r s f hf _ (List.getElem?_eq_getElem hs) j
  refine ⟨B, C, dest, dst, R, hB, hC, hsb, hde, fun j hj => ⟨hd.get j hj, hd.lt j hj⟩, hlea, ?_, hrowm, ?_, ?_⟩
  · intro g hg
    rw [hRget g hg]
    exact List.nodup_range' ..
  · intro g hg j hj
    obtain ⟨r, f, s, hf, hs, rfl⟩ := state_pos T g hg
    obtain ⟨k, a, ha, _, rfl⟩ := (hrowm r s f hf hs j).mp hj
    exact (arc_local T hT dest hde r k f a hf ha).1
  · intro g hg j hj k k' hk hk'
    obtain ⟨r, f, s, hf, hs, rfl⟩ := state_pos T g hg
    obtain ⟨i, a, ha, hsrc, rfl⟩ := (hrowm r s f hf hs j).mp hj
    obtain ⟨h4, h5, h6, h7, h8, h9⟩ := arc_local T hT dest hde r i f a hf ha
    exact batch_lt hB hT hfw dest hde _ h4 k k' (by rw [h6, of_decide_eq_true hsrc]; exact hk) (hd.get _ h4) hk'

theorem row_perm (T : List (List (List (Arc W)))) (r : Nat) (f : List (List (Arc W)))
    (row : List Nat) (hnd : row.Nodup) (p : Arc W → Bool)
    (hmem : ∀ j, j ∈ row ↔ ∃ k a, f.flatten[k]? = some a ∧ p a = true ∧ j = base T r + k) :
    row.Perm ((f.flatten.zipIdx.filter (fun x => p x.1)).map (fun x => base T r + x.2)) := by
  refine (List.perm_ext_iff_of_nodup hnd ?_).mpr ?_
  · have h : ((f.flatten.zipIdx.filter (fun x => p x.1)).map Prod.snd).Nodup := by
      have h : (f.flatten.zipIdx.map Prod.snd).Nodup := by
        rw [List.zipIdx_map_snd]; exact List.nodup_range' ..
      exact h.sublist (List.filter_sublist.map _)
    have e : (f.flatten.zipIdx.filter (fun x => p x.1)).map (fun x => base T r + x.2) =
        ((f.flatten.zipIdx.filter (fun x => p x.1)).map Prod.snd).map (base T r + ·) := by
      rw [List.map_map]; rfl
    rw [e]
    exact h.map (fun a b h => by simpa using h)
  · intro j
    rw [hmem, List.mem_map]
    constructor
    · rintro ⟨k, a, h1, h2, rfl⟩
      exact ⟨(a, k), List.mem_filter.mpr ⟨List.mk_mem_zipIdx_iff_getElem?.mpr h1, h2⟩, rfl⟩
    · rintro ⟨x, hx, rfl⟩
      obtain ⟨h1, h2⟩ := List.mem_filter.mp hx
      exact ⟨x.2, x.1, List.mk_mem_zipIdx_iff_getElem?.mp h1, h2, rfl⟩

/-- The recursion on one FSA: the derivative of a state is the given one plus the values of its arcs. -/
def GradEq [AddCommMonoid K] (f : List (List (Arc W))) (own oth : Arc W → Nat) (m : Nat → Arc W → K → K)
    (g D : Nat → K) : Prop :=
  ∀ s < f.length, D s = g s + ((f.flatten.zipIdx.filter (fun x => decide (own x.1 = s))).map
    (fun x => m x.2 x.1 (D (oth x.1)))).sum

section
variable [AddCommMonoid K] [DecidableEq K]
  (T : List (List (List (Arc W)))) (hT : VecOk T) (hn : T.flatten.length ≤ intMax)
  (hfw : ∀ f ∈ T, ∀ a ∈ f.flatten, a.src < a.dst)
  (arcGrad : List K → Nat → Option K) (m : Nat → Nat → Arc W → K → K) (init : List K)
  (hil : init.length = T.flatten.length)
include hT hn hfw hil

/-- The loop over the batches of leaving arcs, from the last one to the first one. -/
theorem grad_leaving (hgrad : ∀ (r k : Nat) (f : List (List (Arc W))) (a : Arc W), T[r]? = some f →
      f.flatten[k]? = some a → ∀ cur : List K, cur.length = T.flatten.length →
      arcGrad cur (base T r + k) = some (m r k a (cur.getD (off T r + a.dst) 0))) :
    ∃ (D : Nat → Nat → K) (ans : List K),
      (∀ lp0, (do
        let sb ← stateBatchesT lp0 (flat T)
        let ab ← leavingBatches (flat T) sb.2
        let st ← (List.range (numBatches sb.1)).reverse.foldlM
          (gradBatch arcGrad sb.1 sb.2 ab) (init, List.replicate (flat T).arcs.length none)
        st.2.mapM id) = some ans) ∧
      ans.length = T.flatten.flatten.length ∧
      ∀ (r : Nat) (f : List (List (Arc W))), T[r]? = some f →
        GradEq f Arc.src Arc.dst (m r) (fun s => init.getD (off T r + s) 0) (D r) ∧
        ∀ (k : Nat) (a : Arc W), f.flatten[k]? = some a → ans[base T r + k]? = some (m r k a (D r a.dst)) := by
  obtain ⟨B, C, dest, dst, R, hB, hC, hsb, hde, hd, hlea, hrn, hrowm, hjl, hdep⟩ := leaving_setup T hT hn hfw
  have hloc := arc_local T hT dest hde
  -- the value of an arc by its global index
  obtain ⟨mm, hmm⟩ : ∃ mm : Nat → K → K, ∀ (r k : Nat) (f : List (List (Arc W))) (a : Arc W), T[r]? = some f →
      f.flatten[k]? = some a → mm (base T r + k) = m r k a := by
    have : ∀ j, ∃ q : K → K, ∀ (r k : Nat) (f : List (List (Arc W))) (a : Arc W), T[r]? = some f →
        f.flatten[k]? = some a → j = base T r + k → q = m r k a := by
      intro j
      by_cases hj : j < T.flatten.flatten.length
      · obtain ⟨r, f, k, a, h1, h2, rfl⟩ := arc_global T j hj
        refine ⟨m r k a, ?_⟩
        intro r' k' f' a' h1' h2' e
        have e1 := (hloc r k f a h1 h2).2.2.1
        have e1' := (hloc r' k' f' a' h1' h2').2.2.1
        rw [← e, e1] at e1'
        obtain ⟨rfl, _⟩ := off_inj T r r' _ _ f f' h1 h1' (hloc r k f a h1 h2).2.2.2.2.1
          (hloc r' k' f' a' h1' h2').2.2.2.2.1 e1'
        rw [h1] at h1'
        obtain rfl := Option.some.inj h1'
        obtain rfl : k = k' := by omega
        rw [h2] at h2'
        obtain rfl := Option.some.inj h2'
        rfl
      · refine ⟨id, fun r k f a h1 h2 e => absurd (hloc r k f a h1 h2).1 (by rw [← e]; exact hj)⟩
    choose mm h using this
    exact ⟨mm, fun r k f a h1 h2 => h _ r k f a h1 h2 rfl⟩
  obtain ⟨D, st, ans, h1, h2, h3, h4, h5⟩ := grad_all arcGrad T hB hC R dst mm init hil (by
      intro g hg g' hg' j hj hj'
      obtain ⟨r, f, s, hf, hs, rfl⟩ := state_pos T g hg
      obtain ⟨r', f', s', hf', hs', rfl⟩ := state_pos T g' hg'
      obtain ⟨k, a, e1, e2, rfl⟩ := (hrowm r s f hf hs j).mp hj
      obtain ⟨k', a', e1', e2', e3⟩ := (hrowm r' s' f' hf' hs' _).mp hj'
      have q := (hloc r k f a hf e1).2.2.1
      have q' := (hloc r' k' f' a' hf' e1').2.2.1
      rw [e3, q'] at q
      rw [of_decide_eq_true e2, of_decide_eq_true e2'] at q
      exact q.symm) hrn (by
      intro j hj
      obtain ⟨r, f, k, a, e1, e2, rfl⟩ := arc_global T j hj
      have q := hloc r k f a e1 e2
      exact ⟨off T r + a.src, off_lt T r _ f e1 q.2.2.2.2.1, (hrowm r _ f e1 q.2.2.2.2.1 _).mpr
        ⟨k, a, e2, by simp, rfl⟩⟩) (by
      intro g hg j hj
      refine ⟨hjl g hg j hj, (hd j (hjl g hg j hj)).2, ?_⟩
      obtain ⟨r, f, k, a, e1, e2, rfl⟩ := arc_global T j (hjl g hg j hj)
      intro cur hc
      have q := hloc r k f a e1 e2
      have q1 := (hd _ q.1).1
      rw [q.2.2.2.1] at q1
      rw [hgrad r k f a e1 e2 cur hc, hmm r k f a e1 e2, ← Option.some.inj q1])
    (List.range C.length).reverse (List.reverse_perm _) (· > ·)
    (fun a b h => by omega) (by rw [List.pairwise_reverse]; exact List.pairwise_lt_range) hdep
  have hdst : ∀ (r k : Nat) (f : List (List (Arc W))) (a : Arc W), T[r]? = some f →
      f.flatten[k]? = some a → dst (base T r + k) = off T r + a.dst := by
    intro r k f a e1 e2
    have q := hloc r k f a e1 e2
    have q1 := (hd _ q.1).1
    rw [q.2.2.2.1] at q1
    exact (Option.some.inj q1).symm
  refine ⟨fun r s => D (off T r + s), ans, ?_, h3, ?_⟩
  · intro lp0
    simp only [hsb lp0, hlea, Option.bind_eq_bind, Option.bind_some, numBatches_eq C]
    have e0 : (flat T).arcs.length = T.flatten.flatten.length := rfl
    rw [e0, h1]
    exact h2
  · intro r f hf
    constructor
    · intro s hs
      have hg := off_lt T r s f hf hs
      show D (off T r + s) = _
      rw [h4 _ hg]
      congr 1
      have hp := row_perm T r f (R.getD (off T r + s) []) (hrn _ hg) (fun a => decide (a.src = s)) (hrowm r s f hf hs)
      rw [(hp.map (fun j => mm j (D (dst j)))).sum_eq, List.map_map]
      congr 1
      apply List.map_congr_left
      intro x hx
      have hx1 := List.mk_mem_zipIdx_iff_getElem?.mp (List.mem_filter.mp hx).1
      show mm (base T r + x.2) (D (dst (base T r + x.2))) = _
      rw [hmm r x.2 f x.1 hf hx1, hdst r x.2 f x.1 hf hx1]
    · intro k a ha
      rw [h5 _ (hloc r k f a hf ha).1, hmm r k f a hf ha, hdst r k f a hf ha]

/-- The loop over the batches of entering arcs, from the first one to the last one. -/
theorem grad_entering (hgrad : ∀ (r k : Nat) (f : List (List (Arc W))) (a : Arc W), T[r]? = some f →
      f.flatten[k]? = some a → ∀ cur : List K, cur.length = T.flatten.length →
      arcGrad cur (base T r + k) = some (m r k a (cur.getD (off T r + a.src) 0))) :
    ∃ (D : Nat → Nat → K) (ans : List K),
      (∀ lp0, (do
        let sb ← stateBatchesT lp0 (flat T)
        let ab ← enteringBatches (flat T) sb.2
        let st ← (List.range (numBatches sb.1)).foldlM
          (gradBatch arcGrad sb.1 sb.2 ab) (init, List.replicate (flat T).arcs.length none)
        st.2.mapM id) = some ans) ∧
      ans.length = T.flatten.flatten.length ∧
      ∀ (r : Nat) (f : List (List (Arc W))), T[r]? = some f →
        GradEq f Arc.dst Arc.src (m r) (fun s => init.getD (off T r + s) 0) (D r) ∧
        ∀ (k : Nat) (a : Arc W), f.flatten[k]? = some a → ans[base T r + k]? = some (m r k a (D r a.src)) := by
  obtain ⟨B, C, dest, R, hB, hC, hsb, hde, hent, hRget, harc, hdep⟩ := entering_setup T hT hn hfw
  have hloc := arc_local T hT dest hde
  have hrowm : ∀ (r s : Nat) (f : List (List (Arc W))), T[r]? = some f → s < f.length → ∀ j,
      j ∈ R.getD (off T r + s) [] ↔
      ∃ k a, f.flatten[k]? = some a ∧ decide (a.dst = s) = true ∧ j = base T r + k := by
    intro r s f hf hs j
    rw [hRget _ (off_lt T r s f hf hs)]
    exact entering_mem T hT dest hde r s f hf hs j
  have hrn : ∀ g < T.flatten.length, (R.getD g []).Nodup := by
    intro g hg
    rw [hRget g hg]
    exact positions_nodup _ _
  obtain ⟨mm, hmm⟩ : ∃ mm : Nat → K → K, ∀ (r k : Nat) (f : List (List (Arc W))) (a : Arc W), T[r]? = some f →
      f.flatten[k]? = some a → mm (base T r + k) = m r k a := by
    have : ∀ j, ∃ q : K → K, ∀ (r k : Nat) (f : List (List (Arc W))) (a : Arc W), T[r]? = some f →
        f.flatten[k]? = some a → j = base T r + k → q = m r k a := by
      intro j
      by_cases hj : j < T.flatten.flatten.length
      · obtain ⟨r, f, k, a, h1, h2, rfl⟩ := arc_global T j hj
        refine ⟨m r k a, ?_⟩
        intro r' k' f' a' h1' h2' e
        have e1 := (hloc r k f a h1 h2).2.2.1
        have e1' := (hloc r' k' f' a' h1' h2').2.2.1
        rw [← e, e1] at e1'
        obtain ⟨rfl, _⟩ := off_inj T r r' _ _ f f' h1 h1' (hloc r k f a h1 h2).2.2.2.2.1
          (hloc r' k' f' a' h1' h2').2.2.2.2.1 e1'
        rw [h1] at h1'
        obtain rfl := Option.some.inj h1'
        obtain rfl : k = k' := by omega
        rw [h2] at h2'
        obtain rfl := Option.some.inj h2'
        rfl
      · refine ⟨id, fun r k f a h1 h2 e => absurd (hloc r k f a h1 h2).1 (by rw [← e]; exact hj)⟩
    choose mm h using this
    exact ⟨mm, fun r k f a h1 h2 => h _ r k f a h1 h2 rfl⟩
  have hsrc : ∀ (r k : Nat) (f : List (List (Arc W))) (a : Arc W), T[r]? = some f →
      f.flatten[k]? = some a → srcOf T (base T r + k) = off T r + a.src := by
    intro r k f a e1 e2
    exact (hloc r k f a e1 e2).2.2.1
  obtain ⟨D, st, ans, h1, h2, h3, h4, h5⟩ := grad_all arcGrad T hB hC R (srcOf T) mm init hil (by
      intro g hg g' hg' j hj hj'
      rw [hRget g hg, positions_mem] at hj
      rw [hRget g' hg', positions_mem, hj] at hj'
      exact Option.some.inj hj') hrn (by
      intro j hj
      obtain ⟨r, f, k, a, e1, e2, rfl⟩ := arc_global T j hj
      have q := hloc r k f a e1 e2
      exact ⟨off T r + a.dst, off_lt T r _ f e1 q.2.2.2.2.2, (hrowm r _ f e1 q.2.2.2.2.2 _).mpr
        ⟨k, a, e2, by simp, rfl⟩⟩) (by
      intro g hg j hj
      obtain ⟨q1, q2, q3⟩ := harc g hg j hj
      refine ⟨q1, q3, ?_⟩
      obtain ⟨r, f, k, a, e1, e2, rfl⟩ := arc_global T j q1
      intro cur hc
      rw [hgrad r k f a e1 e2 cur hc, hmm r k f a e1 e2, hsrc r k f a e1 e2])
    (List.range C.length) (List.Perm.refl _) (· < ·)
    (fun a b h => by omega) List.pairwise_lt_range hdep
  refine ⟨fun r s => D (off T r + s), ans, ?_, h3, ?_⟩
  · intro lp0
    simp only [hsb lp0, hent, Option.bind_eq_bind, Option.bind_some, numBatches_eq C]
    have e0 : (flat T).arcs.length = T.flatten.flatten.length := rfl
    rw [e0, h1]
    exact h2
  · intro r f hf
    constructor
    · intro s hs
      have hg := off_lt T r s f hf hs
      show D (off T r + s) = _
      rw [h4 _ hg]
      congr 1
      have hp := row_perm T r f (R.getD (off T r + s) []) (hrn _ hg) (fun a => decide (a.dst = s)) (hrowm r s f hf hs)
      rw [(hp.map (fun j => mm j (D (srcOf T j)))).sum_eq, List.map_map]
      congr 1
      apply List.map_congr_left
      intro x hx
      have hx1 := List.mk_mem_zipIdx_iff_getElem?.mp (List.mem_filter.mp hx).1
      show mm (base T r + x.2) (D (srcOf T (base T r + x.2))) = _
      rw [hmm r x.2 f x.1 hf hx1, hsrc r x.2 f x.1 hf hx1]
    · intro k a ha
      rw [h5 _ (hloc r k f a hf ha).1, hmm r k f a hf ha, hsrc r k f a hf ha]
end

end Verif.Fsa.Grd
