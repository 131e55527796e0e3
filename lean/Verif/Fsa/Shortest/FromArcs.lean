import Verif.Fsa.Shortest.Gather

/-!
# FsaVecFromArcIndexes makes the linear FSAs of the paths
-/

namespace Verif.Fsa
variable {W : Type}

/-- The linear FSA of a path: the empty FSA for the empty path, else one state per arc and a final state. -/
def linearRows (p : List (Arc W)) : List (List (Arc W)) :=
  if p = [] then [] else p.mapIdx (fun i a => [⟨i, i + 1, a.label, a.score⟩]) ++ [[]]

namespace Best
open Verif.Ragged Verif.Util Verif.Fsa.Bat Verif.Fsa.Sco Verif.Fsa.Top

theorem linearRows_length (p : List (Arc W)) : (linearRows p).length = if p.length = 0 then 0 else p.length + 1 := by
  unfold linearRows
  by_cases h : p = []
  · rw [if_pos h, if_pos (by rw [h]; rfl)]; rfl
  · rw [if_neg h, if_neg (by simpa using h)]; simp

theorem linearRows_get (p : List (Arc W)) (i : Nat) (a : Arc W) (h : p[i]? = some a) :
    (linearRows p)[i]? = some [⟨i, i + 1, a.label, a.score⟩] := by
  have hlt := (List.getElem?_eq_some_iff.mp h).1
  have hne : p ≠ [] := by rintro rfl; simp at h
  unfold linearRows
  rw [if_neg hne, List.getElem?_append_left (by simpa using hlt), List.getElem?_mapIdx, h]
  rfl

theorem linearRows_last (p : List (Arc W)) (h : p ≠ []) : (linearRows p)[p.length]? = some [] := by
  unfold linearRows
  rw [if_neg h, List.getElem?_append_right (by simp)]
  simp

theorem linearRows_sizes (p : List (Arc W)) (h : p ≠ []) :
    (linearRows p).map List.length = List.replicate p.length 1 ++ [0] := by
  unfold linearRows
  rw [if_neg h, List.map_append]
  congr 1
  apply List.ext_getElem?
  intro i
  rw [List.getElem?_map, List.getElem?_mapIdx, List.getElem?_replicate]
  by_cases hi : i < p.length
  · rw [List.getElem?_eq_getElem hi, if_pos hi]; rfl
  · rw [List.getElem?_eq_none (by omega), if_neg hi]; rfl

theorem linearRows_flatten_length (p : List (Arc W)) : (linearRows p).flatten.length = p.length := by
  by_cases h : p = []
  · subst h; rfl
  · rw [List.length_flatten, linearRows_sizes p h]; simp

theorem lpos_linear (p : List (Arc W)) (i : Nat) (hi : i ≤ p.length) : lpos (linearRows p) i = i := by
  by_cases h : p = []
  · subst h
    obtain rfl : i = 0 := by simpa using hi
    rfl
  · rw [lpos, linearRows_sizes p h, List.take_append_of_le_length (by simpa using hi), List.take_replicate]
    simp [Nat.min_eq_left hi]

theorem lpos_linear_end (p : List (Arc W)) : lpos (linearRows p) (p.length + 1) = p.length := by
  by_cases h : p = []
  · subst h; rfl
  · rw [lpos, linearRows_sizes p h, List.take_of_length_le (by simp)]; simp

theorem fsaVecFromArcIndexes_eq (v : FsaVec W) (Q : List (List Nat)) (P : List (List (Arc W)))
    (hv : v.sp1.length = Q.length + 1) (hPQ : P.length = Q.length)
    (hP : ∀ (r : Nat) (row : List Nat) (p : List (Arc W)), Q[r]? = some row → P[r]? = some p →
      row.map (v.arcs[·]?) = p.map some) :
    fsaVecFromArcIndexes v (psum (Q.map List.length), Q.flatten.map some) = some (flat (P.map linearRows)) := by
  have hrowlen : ∀ (r : Nat) (row : List Nat) (p : List (Arc W)), Q[r]? = some row → P[r]? = some p →
      row.length = p.length := by
    intro r row p h1 h2
    have := congrArg List.length (hP r row p h1 h2)
    simpa using this
  have hlens : Q.map List.length = P.map List.length := by
    apply List.ext_getElem?
    intro r
    by_cases hr : r < Q.length
    · have h1 := List.getElem?_eq_getElem hr
      have h2 := List.getElem?_eq_getElem (hPQ ▸ hr)
      rw [List.getElem?_map, List.getElem?_map, h1, h2, Option.map_some, Option.map_some, hrowlen r _ _ h1 h2]
    · rw [List.getElem?_eq_none (by simpa using hr), List.getElem?_eq_none (by simp; omega)]
  set ns := P.map List.length with hns
  set T' := P.map linearRows with hT'
  have hsum : (Q.flatten.map some).length = ns.sum := by
    rw [List.length_map, List.length_flatten, hlens]
  have hpin : pinned ns 1 = T'.map List.length := by
    rw [pinned, hns, hT', List.map_map, List.map_map]
    apply List.map_congr_left
    intro p _
    simp only [Function.comp, linearRows_length]
    split <;> simp
  have hTl : T'.length = P.length := by simp [hT']
  have hT'get : ∀ (r : Nat) (p : List (Arc W)), P[r]? = some p → T'[r]? = some (linearRows p) := by
    intro r p h
    rw [hT', List.getElem?_map, h]; rfl
  have hsizes : T'.map (fun f => f.flatten.length) = ns := by
    rw [hT', hns, List.map_map]
    apply List.map_congr_left
    intro p _
    exact linearRows_flatten_length p
  have hapos : ∀ (r : Nat) (p : List (Arc W)) (i : Nat), P[r]? = some p → i ≤ p.length → apos T' (off T' r + i) = (ns.take r).sum + i := by
    intro r p i hp hi
    have hlen := linearRows_length p
    rw [apos_local T' r i _ (hT'get r p hp) (by rw [hlen]; split <;> omega), hsizes, lpos_linear p i hi]
  have haposE : ∀ (r : Nat) (p : List (Arc W)), P[r]? = some p → p ≠ [] → apos T' (off T' r + (p.length + 1)) = (ns.take r).sum + p.length := by
    intro r p hp hne
    have hlen := linearRows_length p
    rw [if_neg (by simpa using hne)] at hlen
    rw [apos_local T' r _ _ (hT'get r p hp) (by rw [hlen]), hsizes, lpos_linear_end p]
  unfold fsaVecFromArcIndexes
  rw [if_neg (by simp [psum_length, hv])]
  rw [hlens]
  rw [hsum]
  simp only [rowSplitsToRowIds_psum, Option.bind_eq_bind, Option.bind_some]
  have hch := changeSublistSizePinned_spec [] ns (idsFrom 0 ns) 1
  rw [List.nil_append, List.nil_append] at hch
  simp only [hch, Option.bind_some, List.getElem?_cons_zero]
  by_cases h0 : ns.sum = 0
  · rw [if_pos h0]
    have hall : ∀ n ∈ ns, n = 0 := List.sum_eq_zero_iff_forall_eq_nat.mp h0
    have hT0 : T' = List.replicate P.length [] := by
      rw [List.eq_replicate_iff]
      refine ⟨hTl, ?_⟩
      intro f hf
      obtain ⟨p, hp, rfl⟩ := List.mem_map.mp hf
      have := hall p.length (List.mem_map.mpr ⟨p, hp, rfl⟩)
      rw [List.eq_nil_of_length_eq_zero this]
      rfl
    rw [hT0, hv, Nat.add_sub_cancel, ← hPQ]
    congr 1
    have hz : ∀ n, psum (List.replicate n 0) = List.replicate (n + 1) 0 := by
      intro n
      apply List.ext_getElem?
      intro i
      by_cases hi : i ≤ n
      · rw [psum_get _ _ (by simpa using hi), List.take_replicate, List.getElem?_replicate, if_pos (by omega)]
        simp
      · rw [List.getElem?_eq_none (by simp [psum_length]; omega), List.getElem?_eq_none (by simp; omega)]
    have hi : ∀ (n r : Nat), idsFrom r (List.replicate n 0) = [] := by
      intro n r
      apply List.eq_nil_of_length_eq_zero
      rw [idsFrom_length]; simp
    unfold flat
    have hfl : (List.replicate P.length ([] : List (List (Arc W)))).flatten = [] := by simp
    rw [hfl, List.map_replicate, List.length_nil, hz, hi]
    rfl
  · rw [if_neg h0]
    unfold fromArcIndexes
    -- the position of each element
    have hpos : ∀ k < ns.sum, ∃ (r : Nat) (p : List (Arc W)) (i : Nat) (a : Arc W), P[r]? = some p ∧ p[i]? = some a ∧ k = (ns.take r).sum + i ∧
        (idsFrom 0 ns)[k]? = some r ∧ (psum ns)[r]? = some (ns.take r).sum ∧
        (psum ns)[r + 1]? = some ((ns.take r).sum + p.length) ∧ (psum (pinned ns 1))[r]? = some (off T' r) ∧
        (Q.flatten.map some)[k]?.bind (fun j => j.bind (v.arcs[·]?)) = some a := by
      intro k hk
      obtain ⟨r, n, i, hr, hi, rfl⟩ := ids_pos ns k hk
      have hrl : r < P.length := by
        have := (List.getElem?_eq_some_iff.mp hr).1
        rwa [hns, List.length_map] at this
      have hp := List.getElem?_eq_getElem hrl
      generalize P[r] = p at hp
      have hn : n = p.length := by
        rw [hns, List.getElem?_map, hp] at hr
        exact (Option.some.inj hr).symm
      subst hn
      refine ⟨r, p, i, p[i], hp, List.getElem?_eq_getElem hi, rfl, ids_at ns r _ i hr hi, ?_, ?_, ?_, ?_⟩
      · exact psum_get ns r (by simp [hns]; omega)
      · rw [psum_get ns (r + 1) (by simp [hns]; omega), take_succ_sum ns r _ hr]
      · rw [hpin]
        exact flat_sp1 T' r (by omega)
      · have hq := List.getElem?_eq_getElem (hPQ ▸ hrl)
        generalize Q[r]'(hPQ ▸ hrl) = row at hq
        have hl := hrowlen r row p hq hp
        have e1 := row_at Q r i row hq (by omega)
        rw [hlens] at e1
        have hi' : i < row.length := by omega
        rw [List.getElem?_map, e1, List.getElem?_eq_getElem hi', Option.map_some, Option.bind_some, Option.bind_some]
        have := congrArg (·[i]?) (hP r row p hq hp)
        simp only [List.getElem?_map, List.getElem?_eq_getElem hi', List.getElem?_eq_getElem hi, Option.map_some,
          Option.some.injEq] at this
        exact this
    have harcs : T'.flatten.flatten.length = ns.sum := by
      rw [List.length_flatten]
      have : (T'.flatten.map List.length).sum = (T'.map (fun f => f.flatten.length)).sum := by
        rw [List.map_flatten, List.sum_flatten, List.map_map]
        congr 1
        apply List.map_congr_left
        intro f _
        simp [List.length_flatten]
      rw [this, hsizes]
    -- the arcs
    have hA : (List.range (Q.flatten.map some).length).mapM
        (pathArc v (psum ns) (idsFrom 0 ns) (psum (pinned ns 1)) (Q.flatten.map some)) =
        some ((flat T').id2.zip (flat T').arcs) := by
      apply mapM_some_of
      · rw [List.length_zip, List.length_range, hsum]
        have h1 : (flat T').id2.length = ns.sum := by
          simp only [flat, idsFrom_length]
          rw [← harcs, List.length_flatten]
        have h2 : (flat T').arcs.length = ns.sum := harcs
        omega
      · intro k b hb
        obtain ⟨hlt, hb⟩ := List.getElem?_eq_some_iff.mp hb
        rw [List.getElem_range] at hb; subst hb
        rw [List.length_range, hsum] at hlt
        obtain ⟨r, p, i, a, hp, ha, rfl, e1, e2, e3, e4, e5⟩ := hpos k hlt
        have hi := (List.getElem?_eq_some_iff.mp ha).1
        unfold pathArc
        obtain ⟨x, hx, e5⟩ := Option.bind_eq_some_iff.mp e5
        simp only [e1, e2, e4, hx, e5, Option.bind_eq_bind, Option.bind_some, Nat.add_sub_cancel_left]
        have hlen := linearRows_length p
        rw [if_neg (by omega)] at hlen
        have hst := state_at T' r i _ (hT'get r p hp) (by omega)
        rw [linearRows_get p i a ha] at hst
        have f1 := flat_id2 T' _ 0 _ hst (by simp)
        have f2 := flat_arc T' _ 0 _ hst (by simp)
        rw [hapos r p i hp (by omega), Nat.add_zero] at f1 f2
        symm
        rw [List.getElem?_zip_eq_some]
        exact ⟨f1, f2⟩
    -- the row splits
    have hWs : ∀ k < ns.sum, ∃ (r : Nat) (p : List (Arc W)) (i : Nat), P[r]? = some p ∧ i < p.length ∧ k = (ns.take r).sum + i ∧
        pathSplits (psum ns) (idsFrom 0 ns) (psum (pinned ns 1)) k =
          some ((off T' r + i + 1, some (k + 1)) :: (if k = 0 then [(0, some 0)] else []) ++
            (if i + 1 = p.length then [(off T' r + i + 2, some (k + 1))] else [])) := by
      intro k hk
      obtain ⟨r, p, i, a, hp, ha, rfl, e1, e2, e3, e4, e5⟩ := hpos k hk
      refine ⟨r, p, i, hp, (List.getElem?_eq_some_iff.mp ha).1, rfl, ?_⟩
      unfold pathSplits
      simp only [e1, e2, e3, e4, Option.bind_eq_bind, Option.bind_some, Nat.add_sub_cancel_left]
    obtain ⟨ws, hws⟩ : ∃ ws, (List.range (Q.flatten.map some).length).mapM
        (pathSplits (psum ns) (idsFrom 0 ns) (psum (pinned ns 1))) = some ws := by
      apply mapM_exists
      intro k hk
      rw [List.mem_range, hsum] at hk
      obtain ⟨r, p, i, _, _, _, h⟩ := hWs k hk
      exact ⟨_, h⟩
    have hg := mapM_get hws
    rw [List.length_range, hsum] at hg
    have hwk : ∀ k < ns.sum, ∃ (r : Nat) (p : List (Arc W)) (i : Nat) (w : List (Nat × Option Nat)), P[r]? = some p ∧ i < p.length ∧ k = (ns.take r).sum + i ∧ ws[k]? = some w ∧
        w = (off T' r + i + 1, some (k + 1)) :: (if k = 0 then [(0, some 0)] else []) ++
            (if i + 1 = p.length then [(off T' r + i + 2, some (k + 1))] else []) := by
      intro k hk
      obtain ⟨r, p, i, h1, h2, h3, h4⟩ := hWs k hk
      refine ⟨r, p, i, _, h1, h2, h3, ?_, rfl⟩
      rw [hg.2 k k (List.getElem?_range hk), h4]
    have hmemw : ∀ (k : Nat) (r : Nat) (i : Nat) (p : List (Arc W)) (x : Nat × Option Nat),
        x ∈ ((off T' r + i + 1, some (k + 1)) :: (if k = 0 then [(0, some 0)] else []) ++
            (if i + 1 = p.length then [(off T' r + i + 2, some (k + 1))] else [])) ↔
        x = (off T' r + i + 1, some (k + 1)) ∨ (k = 0 ∧ x = (0, some 0)) ∨
          (i + 1 = p.length ∧ x = (off T' r + i + 2, some (k + 1))) := by
      intro k r i p x
      rw [List.mem_append, List.mem_cons]
      by_cases h1 : k = 0 <;> by_cases h2 : i + 1 = p.length
      · rw [if_pos h1, if_pos h2]; simp only [List.mem_singleton]; tauto
      · rw [if_pos h1, if_neg h2]; simp only [List.mem_singleton, List.not_mem_nil]; tauto
      · rw [if_neg h1, if_pos h2]; simp only [List.mem_singleton, List.not_mem_nil]; tauto
      · rw [if_neg h1, if_neg h2]; simp only [List.not_mem_nil]; tauto
    -- positions grow
    have hgrow : ∀ (r : Nat) (p : List (Arc W)) (i r' : Nat) (p' : List (Arc W)) (i' : Nat), P[r]? = some p → P[r']? = some p' → i < p.length → i' < p'.length →
        (ns.take r).sum + i < (ns.take r').sum + i' →
        off T' r + i + 1 < off T' r' + i' + 1 ∧ (i + 1 = p.length → off T' r + i + 2 < off T' r' + i' + 1) := by
      intro r p i r' p' i' hp hp' hi hi' hlt
      have hnr : ns[r]? = some p.length := by rw [hns, List.getElem?_map, hp]; rfl
      have hnr' : ns[r']? = some p'.length := by rw [hns, List.getElem?_map, hp']; rfl
      have s1 := take_succ_sum ns r _ hnr
      have s2 := take_succ_sum ns r' _ hnr'
      have o1 := off_succ T' r _ (hT'get r p hp)
      rw [linearRows_length, if_neg (by omega)] at o1
      rcases Nat.lt_trichotomy r r' with h | h | h
      · have := off_mono T' (show r + 1 ≤ r' by omega)
        omega
      · subst h
        rw [hp] at hp'
        obtain rfl := Option.some.inj hp'
        omega
      · have := take_sum_mono ns (show r' + 1 ≤ r by omega)
        omega
    have hN : (idsFrom 0 (pinned ns 1)).length = T'.flatten.length := by
      rw [hpin]; exact flat_id1_length T'
    obtain ⟨arr, a1, a2, a3, _⟩ := writeAll_eq (List.replicate ((idsFrom 0 (pinned ns 1)).length + 1) (none : Option Nat))
      ws.flatten (by
        rw [List.map_flatten, List.nodup_flatten]
        constructor
        · intro w hw
          obtain ⟨w', hw', rfl⟩ := List.mem_map.mp hw
          obtain ⟨k, hk⟩ := List.getElem?_of_mem hw'
          have hkl := (List.getElem?_eq_some_iff.mp hk).1
          obtain ⟨r, p, i, w, _, _, _, h4, h5⟩ := hwk k (by omega)
          rw [hk] at h4
          obtain rfl := Option.some.inj h4
          rw [h5]
          split <;> split <;> simp <;> omega
        · rw [List.pairwise_map, List.pairwise_iff_getElem]
          intro k k' hkl hkl' hlt x hx hx'
          obtain ⟨y, hy, rfl⟩ := List.mem_map.mp hx
          obtain ⟨y', hy', he⟩ := List.mem_map.mp hx'
          obtain ⟨r, p, i, w, h1, h2, h3, h4, h5⟩ := hwk k (by omega)
          obtain ⟨r', p', i', w', h1', h2', h3', h4', h5'⟩ := hwk k' (by omega)
          rw [List.getElem?_eq_getElem hkl] at h4
          rw [List.getElem?_eq_getElem hkl'] at h4'
          rw [Option.some.inj h4, h5, hmemw] at hy
          rw [Option.some.inj h4', h5', hmemw] at hy'
          have hgr := hgrow r p i r' p' i' h1 h1' h2 h2' (by omega)
          rcases hy with rfl | ⟨hz, rfl⟩ | ⟨hz, rfl⟩ <;> rcases hy' with rfl | ⟨hz', rfl⟩ | ⟨hz', rfl⟩ <;>
            simp only at he <;> omega)
      (by
        intro x hx
        obtain ⟨w, hw, hxw⟩ := List.mem_flatten.mp hx
        obtain ⟨k, hk⟩ := List.getElem?_of_mem hw
        have hkl := (List.getElem?_eq_some_iff.mp hk).1
        obtain ⟨r, p, i, w', h1, h2, h3, h4, h5⟩ := hwk k (by omega)
        rw [hk] at h4
        obtain rfl := Option.some.inj h4
        rw [h5, hmemw] at hxw
        have hrl := (List.getElem?_eq_some_iff.mp h1).1
        have o1 := off_succ T' r _ (hT'get r p h1)
        rw [linearRows_length, if_neg (by omega)] at o1
        have := off_mono T' (show r + 1 ≤ T'.length by omega)
        rw [off_length] at this
        rw [List.length_replicate, hN]
        rcases hxw with rfl | ⟨_, rfl⟩ | ⟨_, rfl⟩ <;> simp only <;> omega)
    have hwrite : ∀ g ≤ T'.flatten.length, arr[g]? = some (some (apos T' g)) := by
      intro g hg'
      apply a3
      by_cases hg0 : g = 0
      · subst hg0
        obtain ⟨r, p, i, w, h1, h2, h3, h4, h5⟩ := hwk 0 (by omega)
        refine List.mem_flatten.mpr ⟨w, List.mem_of_getElem? h4, ?_⟩
        rw [h5, hmemw]
        right; left
        exact ⟨rfl, rfl⟩
      · obtain ⟨r, f, s, hf, hs, hgs⟩ := state_pos T' (g - 1) (by omega)
        obtain ⟨p, hp, rfl⟩ : ∃ p, P[r]? = some p ∧ linearRows p = f := by
          rw [hT', List.getElem?_map] at hf
          exact Option.map_eq_some_iff.mp hf
        have hlen := linearRows_length p
        have hp0 : p.length ≠ 0 := by
          intro h0
          rw [if_pos h0] at hlen
          omega
        rw [if_neg hp0] at hlen
        have hnr : ns[r]? = some p.length := by rw [hns, List.getElem?_map, hp]; rfl
        have hsl : (ns.take r).sum + p.length ≤ ns.sum := by
          rw [← take_succ_sum ns r _ hnr]
          have hmax := take_sum_mono ns (Nat.le_max_left (r + 1) ns.length)
          have hfull : ns.take (max (r + 1) ns.length) = ns := List.take_of_length_le (Nat.le_max_right _ _)
          rw [hfull] at hmax
          exact hmax
        -- the writing thread
        have huniq : ∀ (r' : Nat) (p' : List (Arc W)) (i' i : Nat), P[r']? = some p' → i < p.length → i' < p'.length →
            (ns.take r).sum + i = (ns.take r').sum + i' → r = r' ∧ i = i' := by
          intro r' p' i' i hp' hi hi' he
          have hnr' : ns[r']? = some p'.length := by rw [hns, List.getElem?_map, hp']; rfl
          exact state_unique ns r r' i i' _ _ hnr hnr' hi hi' he
        by_cases hsp : s = p.length
        · obtain ⟨r', p', i', w, h1, h2, h3, h4, h5⟩ := hwk ((ns.take r).sum + (p.length - 1)) (by omega)
          obtain ⟨rfl, hii⟩ := huniq r' p' i' _ h1 (by omega) h2 h3
          rw [hp] at h1
          obtain rfl := Option.some.inj h1
          refine List.mem_flatten.mpr ⟨w, List.mem_of_getElem? h4, ?_⟩
          rw [h5, hmemw]
          right; right
          refine ⟨by omega, ?_⟩
          have e1 := haposE r p hp (by rintro rfl; simp at hp0)
          rw [show off T' r + (p.length + 1) = g by omega] at e1
          rw [e1, Prod.mk.injEq]
          exact ⟨by omega, by congr 1; omega⟩
        · obtain ⟨r', p', i', w, h1, h2, h3, h4, h5⟩ := hwk ((ns.take r).sum + s) (by omega)
          obtain ⟨rfl, hii⟩ := huniq r' p' i' _ h1 (by omega) h2 h3
          rw [hp] at h1
          obtain rfl := Option.some.inj h1
          refine List.mem_flatten.mpr ⟨w, List.mem_of_getElem? h4, ?_⟩
          rw [h5, hmemw]
          left
          have e1 := hapos r p (s + 1) hp (by omega)
          rw [show off T' r + (s + 1) = g by omega] at e1
          rw [e1, Prod.mk.injEq]
          exact ⟨by omega, by congr 1⟩
    have hsp2 : arr.mapM id = some (flat T').sp2 := by
      have hal : arr.length = T'.flatten.length + 1 := by rw [a2, List.length_replicate, hN]
      have hsl : (flat T').sp2.length = arr.length := by
        rw [hal]
        show (psum (T'.flatten.map List.length)).length = _
        rw [psum_length, List.length_map]
      refine mapM_some_of arr id _ hsl ?_
      intro g x hx
      have hgl := (List.getElem?_eq_some_iff.mp hx).1
      rw [hwrite g (by omega)] at hx
      obtain rfl := Option.some.inj hx
      rw [flat_sp2 T' g (by omega)]
      rfl
    rw [hsum] at hA hws
    simp only [hsum, hA, hws, a1, hsp2, Option.bind_eq_bind, Option.bind_some]
    have hzl : (flat T').id2.length = (flat T').arcs.length := by
      simp only [flat, idsFrom_length]
      rw [← List.length_flatten]
    rw [List.map_fst_zip (by omega), List.map_snd_zip (by omega), hpin]
    rfl

end Best
end Verif.Fsa
