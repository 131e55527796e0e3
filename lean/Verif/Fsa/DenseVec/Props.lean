import Verif.Fsa.DenseVec.Lemmas
import Verif.Fsa.Core

/-!
# C103: `ConvertDenseToFsaVec`
-/

namespace Verif.Fsa
variable {W : Type}

namespace Dv
open Verif.Ragged Verif.Util

section
variable (n : Nat) (hn : 0 < n) (S : List (List (List W)))
  (hS : ∀ seg ∈ S, seg ≠ [] ∧ ∀ row ∈ seg, row.length = n + 1)
include hn hS

/-- **C103.** `ConvertDenseToFsaVec` returns the FSAs of the sequences of score rows. -/
theorem convert_dense (h0 : S ≠ []) :
    convertDense (psum (S.map List.length), idsFrom 0 (S.map List.length)) (n + 1) S.flatten =
      some (flat (S.map denseFsa)) := by
  have hid1 : (flat (S.map denseFsa)).id1 = idsFrom 0 (resized (S.map List.length) 1) ∧
      (flat (S.map denseFsa)).sp1 = psum (resized (S.map List.length) 1) := by
    have : (S.map denseFsa).map List.length = resized (S.map List.length) 1 := by
      rw [resized, List.map_map, List.map_map]
      apply List.map_congr_left
      intro seg _
      simp only [Function.comp_apply, denseFsa_length]
      omega
    unfold flat
    exact ⟨by rw [this], by rw [this]⟩
  have hchg := changeSublistSize_spec [] (S.map List.length) 1 (by intro n _; omega)
  rw [List.nil_append, List.nil_append, ← hid1.1, ← hid1.2] at hchg
  have hel : (idsFrom 0 (S.map List.length)).length = S.flatten.length := by
    simp [List.length_flatten]
  have hfs : (psum (S.map List.length)).length - 1 = S.length := by simp
  have htot := arcs_total n hn S hS
  have hst := states_total S
  -- the positions
  have hpos : ∀ i, i < S.flatten.length → ∃ (r : Nat) (seg : List (List W)) (t : Nat) (row : List W),
      S[r]? = some seg ∧ seg[t]? = some row ∧ row.length = n + 1 ∧ i = off S r + t := by
    intro i hi
    obtain ⟨r, seg, t, h1, h2, h3⟩ := state_pos S i hi
    exact ⟨r, seg, t, seg[t], h1, List.getElem?_eq_getElem h2,
      (hS seg (List.mem_of_getElem? h1)).2 _ (List.getElem_mem h2), h3⟩
  -- the threads
  let T := S.map denseFsa
  let job : Nat × Nat → Option (Writes W) := fun p => thread (psum (S.map List.length)) (idsFrom 0 (S.map List.length))
    (flat T).id1 S.flatten n T.flatten.length T.flatten.flatten.length p.1 p.2
  let pairs := (List.range S.flatten.length).flatMap (fun i => (List.range n).map (fun s => (i, s)))
  have hpairs : ∀ p, p ∈ pairs ↔ p.1 < S.flatten.length ∧ p.2 < n := by
    intro p
    simp only [pairs, List.mem_flatMap, List.mem_map, List.mem_range]
    constructor
    · rintro ⟨i, h1, s, h2, rfl⟩; exact ⟨h1, h2⟩
    · rintro ⟨h1, h2⟩; exact ⟨p.1, h1, p.2, h2, rfl⟩
  have hjob : ∀ (r t s : Nat) (seg : List (List W)) (row : List W), S[r]? = some seg → seg[t]? = some row →
      row.length = n + 1 → s < n →
      (decide (t + 1 = seg.length) = true ∧ 0 < s ∧ job (off S r + t, s) = some ⟨[], [], []⟩) ∨
      (¬ (decide (t + 1 = seg.length) = true ∧ 0 < s) ∧ ∃ a, (frameArcs (decide (t + 1 = seg.length)) t row)[s]? = some a ∧
        job (off S r + t, s) = some ⟨[(apos T (off T r + t) + s, a)], [(apos T (off T r + t) + s, off T r + t)],
          (if decide (t + 1 = seg.length) then [(off T r + t + 1, apos T (off T r + t) + s + 1)] else []) ++
            (if s = 0 then [(off T r + t, apos T (off T r + t) + s)] ++
              (if off S r + t = 0 then [(T.flatten.length, T.flatten.flatten.length)] else []) else [])⟩) := by
    intro r t s seg row h1 h2 h3 h4
    have := thread_eq n hn S hS r t s seg row h1 h2
    by_cases hc : decide (t + 1 = seg.length) = true ∧ 0 < s
    · left
      rw [if_pos hc] at this
      exact ⟨hc.1, hc.2, this⟩
    · right
      rw [if_neg hc] at this
      obtain ⟨x, k1, k2, k3⟩ := frameArcs_get (decide (t + 1 = seg.length)) t n s row h3 h4 hc
      rw [k1, Option.map_some, expected, if_neg hc] at this
      exact ⟨hc, _, k3, this⟩
  have hall : pairs.mapM job = some (pairs.map (fun p => (job p).getD ⟨[], [], []⟩)) := by
    apply mapM_some_of
    · simp
    · intro k p hp
      rw [List.getElem?_map, hp, Option.map_some]
      obtain ⟨m1, m2⟩ := (hpairs p).mp (List.mem_of_getElem? hp)
      obtain ⟨r, seg, t, row, h1, h2, h3, h4⟩ := hpos p.1 m1
      have hp' : p = (off S r + t, p.2) := by rw [← h4]
      rcases hjob r t p.2 seg row h1 h2 h3 m2 with ⟨_, _, hj⟩ | ⟨_, a, _, hj⟩
      · rw [← hp'] at hj; rw [hj]; rfl
      · rw [← hp'] at hj; rw [hj]; rfl
  -- a write comes from a thread
  have hfrom : ∀ {X : Type} (sel : Writes W → List X) (hnil : sel ⟨[], [], []⟩ = []) (w : X),
      w ∈ (pairs.map (fun p => (job p).getD ⟨[], [], []⟩)).flatMap sel ↔
      ∃ (r t s : Nat) (seg : List (List W)) (row : List W) (ws : Writes W), S[r]? = some seg ∧ seg[t]? = some row ∧
        row.length = n + 1 ∧ s < n ∧ job (off S r + t, s) = some ws ∧ w ∈ sel ws := by
    intro X sel hnil w
    rw [List.mem_flatMap]
    constructor
    · rintro ⟨ws, h1, h2⟩
      obtain ⟨p, hp, rfl⟩ := List.mem_map.mp h1
      obtain ⟨m1, m2⟩ := (hpairs p).mp hp
      obtain ⟨r, seg, t, row, g1, g2, g3, g4⟩ := hpos p.1 m1
      have hp' : p = (off S r + t, p.2) := by rw [← g4]
      cases hj : job p with
      | none => rw [hj] at h2; simp [hnil] at h2
      | some ws => rw [hj] at h2; exact ⟨r, t, p.2, seg, row, ws, g1, g2, g3, m2, by rw [← hp']; exact hj, h2⟩
    · rintro ⟨r, t, s, seg, row, ws, g1, g2, g3, g4, g5, g6⟩
      refine ⟨ws, List.mem_map.mpr ⟨(off S r + t, s), ?_, by rw [g5]; rfl⟩, g6⟩
      rw [hpairs]
      exact ⟨off_lt S r t seg g1 (List.getElem?_eq_some_iff.mp g2).1, g4⟩
  have hT : ∀ (r : Nat) (seg : List (List W)), S[r]? = some seg → T[r]? = some (denseFsa seg) := by
    intro r seg h; show (S.map denseFsa)[r]? = _; rw [List.getElem?_map, h]; rfl
  have hstate : ∀ (r t : Nat) (seg : List (List W)) (row : List W), S[r]? = some seg → seg[t]? = some row →
      T.flatten[off T r + t]? = some (frameArcs (decide (t + 1 = seg.length)) t row) := by
    intro r t seg row h1 h2
    have htl := (List.getElem?_eq_some_iff.mp h2).1
    rw [state_at T r t _ (hT r seg h1) (by rw [denseFsa_length]; omega), denseFsa_get seg t row h2]
  -- every arc position belongs to a thread
  have harc : ∀ j, j < T.flatten.flatten.length → ∃ (r t s : Nat) (seg : List (List W)) (row : List W), S[r]? = some seg ∧
      seg[t]? = some row ∧ row.length = n + 1 ∧ s < n ∧ ¬ (decide (t + 1 = seg.length) = true ∧ 0 < s) ∧
      j = apos T (off T r + t) + s := by
    intro j hj
    obtain ⟨g, arow, k, h1, h2, h3⟩ := arc_pos2 T j hj
    obtain ⟨r, f, t, h4, h5, h6⟩ := state_pos T g (List.getElem?_eq_some_iff.mp h1).1
    have hr : r < S.length := by have := (List.getElem?_eq_some_iff.mp h4).1; simpa [T] using this
    have hseg := List.getElem?_eq_getElem hr
    rw [hT r _ hseg] at h4
    obtain rfl := Option.some.inj h4
    rw [denseFsa_length] at h5
    subst h6
    by_cases ht : t < S[r].length
    · have hrow := List.getElem?_eq_getElem ht
      have hlen := (hS _ (List.mem_of_getElem? hseg)).2 _ (List.getElem_mem ht)
      rw [hstate r t _ _ hseg hrow] at h1
      obtain rfl := Option.some.inj h1
      rw [frameArcs_length _ _ n _ hlen] at h2
      refine ⟨r, t, k, _, _, hseg, hrow, hlen, ?_, ?_, h3⟩
      · split at h2 <;> omega
      · rintro ⟨c1, c2⟩
        rw [if_pos c1] at h2
        omega
    · obtain rfl : t = S[r].length := by omega
      rw [state_at T r _ _ (hT r _ hseg) (by rw [denseFsa_length]; omega), denseFsa_end] at h1
      obtain rfl := Option.some.inj h1
      simp at h2
  have hsp2len : (flat T).sp2.length = T.flatten.length + 1 := by
    show (psum (T.flatten.map List.length)).length = _
    rw [psum_length, List.length_map]
  have hs2 : scatter (T.flatten.length + 1) ((pairs.map (fun p => (job p).getD ⟨[], [], []⟩)).flatMap Writes.splits) =
      some (flat T).sp2 := by
    apply scatter_eq _ _ _ hsp2len
    · intro w hw
      obtain ⟨r, t, s, seg, row, ws, g1, g2, g3, g4, g5, g6⟩ := (hfrom Writes.splits rfl w).mp hw
      have htl := (List.getElem?_eq_some_iff.mp g2).1
      have hlt := off_lt T r t _ (hT r seg g1) (by rw [denseFsa_length]; omega)
      rcases hjob r t s seg row g1 g2 g3 g4 with ⟨_, _, hj⟩ | ⟨hc, a, _, hj⟩
      · rw [hj] at g5; obtain rfl := Option.some.inj g5; simp at g6
      · rw [hj] at g5
        obtain rfl := Option.some.inj g5
        simp only [] at g6
        rcases List.mem_append.mp g6 with g | g
        · by_cases hl : decide (t + 1 = seg.length) = true
          · rw [if_pos hl] at g
            rw [List.mem_singleton.mp g]
            have hs0 : s = 0 := by by_contra hs0; exact hc ⟨hl, by omega⟩
            have := flat_sp2_succ T _ _ (hstate r t seg row g1 g2)
            rw [frameArcs_length _ _ n _ g3, if_pos hl] at this
            simp only [this, hs0, Nat.add_zero]
          · rw [if_neg hl] at g; simp at g
        · by_cases hs0 : s = 0
          · rw [if_pos hs0] at g
            rcases List.mem_append.mp g with g | g
            · rw [List.mem_singleton.mp g]
              simp only [hs0, Nat.add_zero]
              exact flat_sp2 T _ (by omega)
            · by_cases hi : off S r + t = 0
              · rw [if_pos hi] at g
                rw [List.mem_singleton.mp g]
                show (flat T).sp2[T.flatten.length]? = _
                rw [flat_sp2 T _ (le_refl _), apos, List.take_of_length_le (by rw [List.length_map]),
                  List.length_flatten (L := T.flatten)]
              · rw [if_neg hi] at g; simp at g
          · rw [if_neg hs0] at g; simp at g
    · intro j hj
      -- the thread that writes entry j
      by_cases hj' : j < T.flatten.length
      · obtain ⟨r, f, t, h4, h5, h6⟩ := state_pos T j hj'
        have hr : r < S.length := by have := (List.getElem?_eq_some_iff.mp h4).1; simpa [T] using this
        have hseg := List.getElem?_eq_getElem hr
        rw [hT r _ hseg] at h4
        obtain rfl := Option.some.inj h4
        rw [denseFsa_length] at h5
        obtain ⟨hne, hrows⟩ := hS _ (List.mem_of_getElem? hseg)
        have hp0 : 0 < S[r].length := List.length_pos_iff.mpr hne
        by_cases ht : t < S[r].length
        · have hrow := List.getElem?_eq_getElem ht
          have hlen := hrows _ (List.getElem_mem ht)
          rcases hjob r t 0 _ _ hseg hrow hlen hn with ⟨_, h, _⟩ | ⟨_, a, _, hjb⟩
          · omega
          · refine ⟨(off T r + t, apos T (off T r + t) + 0), (hfrom Writes.splits rfl _).mpr
              ⟨r, t, 0, _, _, _, hseg, hrow, hlen, hn, hjb, ?_⟩, h6.symm⟩
            simp
        · obtain ⟨t', ht'⟩ : ∃ t', S[r].length = t' + 1 := ⟨S[r].length - 1, by omega⟩
          have htl : t' < S[r].length := by omega
          have hrow := List.getElem?_eq_getElem htl
          have hlen := hrows _ (List.getElem_mem htl)
          rcases hjob r t' 0 _ _ hseg hrow hlen hn with ⟨_, h, _⟩ | ⟨_, a, _, hjb⟩
          · omega
          · refine ⟨(off T r + t' + 1, apos T (off T r + t') + 0 + 1), (hfrom Writes.splits rfl _).mpr
              ⟨r, t', 0, _, _, _, hseg, hrow, hlen, hn, hjb, ?_⟩, ?_⟩
            · simp [ht']
            · show off T r + t' + 1 = j
              omega
      · obtain rfl : j = T.flatten.length := by omega
        have hr : 0 < S.length := List.length_pos_iff.mpr h0
        have hseg := List.getElem?_eq_getElem hr
        obtain ⟨hne, hrows⟩ := hS _ (List.mem_of_getElem? hseg)
        have hp0 : 0 < S[0].length := List.length_pos_iff.mpr hne
        have hrow := List.getElem?_eq_getElem hp0
        have hlen := hrows _ (List.getElem_mem hp0)
        rcases hjob 0 0 0 _ _ hseg hrow hlen hn with ⟨_, h, _⟩ | ⟨_, a, _, hjb⟩
        · omega
        · refine ⟨(T.flatten.length, T.flatten.flatten.length), (hfrom Writes.splits rfl _).mpr
              ⟨0, 0, 0, _, _, _, hseg, hrow, hlen, hn, hjb, ?_⟩, rfl⟩
          have : off S 0 + 0 = 0 := by simp [off]
          rw [this]
          refine List.mem_append_right _ ?_
          rw [if_pos rfl, if_pos rfl]
          exact List.mem_append_right _ (List.mem_singleton.mpr rfl)
  have hi2 : scatter T.flatten.flatten.length ((pairs.map (fun p => (job p).getD ⟨[], [], []⟩)).flatMap Writes.ids) =
      some (flat T).id2 := by
    apply scatter_eq
    · simp only [flat, idsFrom_length]
      rw [List.length_flatten (L := T.flatten)]
    · intro w hw
      obtain ⟨r, t, s, seg, row, ws, g1, g2, g3, g4, g5, g6⟩ := (hfrom Writes.ids rfl w).mp hw
      rcases hjob r t s seg row g1 g2 g3 g4 with ⟨_, _, hj⟩ | ⟨hc, a, ha, hj⟩
      · rw [hj] at g5; obtain rfl := Option.some.inj g5; simp at g6
      · rw [hj] at g5
        obtain rfl := Option.some.inj g5
        rw [List.mem_singleton.mp g6]
        exact flat_id2 T _ s _ (hstate r t seg row g1 g2) (List.getElem?_eq_some_iff.mp ha).1
    · intro j hj
      obtain ⟨r, t, s, seg, row, g1, g2, g3, g4, g5, g6⟩ := harc j hj
      rcases hjob r t s seg row g1 g2 g3 g4 with ⟨c1, c2, _⟩ | ⟨_, a, _, hjb⟩
      · exact absurd ⟨c1, c2⟩ g5
      · exact ⟨_, (hfrom Writes.ids rfl _).mpr ⟨r, t, s, seg, row, _, g1, g2, g3, g4, hjb, List.mem_singleton.mpr rfl⟩, g6.symm⟩
  have ha2 : scatter T.flatten.flatten.length ((pairs.map (fun p => (job p).getD ⟨[], [], []⟩)).flatMap Writes.arcs) =
      some T.flatten.flatten := by
    apply scatter_eq _ _ _ rfl
    · intro w hw
      obtain ⟨r, t, s, seg, row, ws, g1, g2, g3, g4, g5, g6⟩ := (hfrom Writes.arcs rfl w).mp hw
      rcases hjob r t s seg row g1 g2 g3 g4 with ⟨_, _, hj⟩ | ⟨hc, a, ha, hj⟩
      · rw [hj] at g5; obtain rfl := Option.some.inj g5; simp at g6
      · rw [hj] at g5
        obtain rfl := Option.some.inj g5
        rw [List.mem_singleton.mp g6]
        show T.flatten.flatten[_]? = _
        rw [flat_arc T _ s _ (hstate r t seg row g1 g2) (List.getElem?_eq_some_iff.mp ha).1, ha]
    · intro j hj
      obtain ⟨r, t, s, seg, row, g1, g2, g3, g4, g5, g6⟩ := harc j hj
      rcases hjob r t s seg row g1 g2 g3 g4 with ⟨c1, c2, _⟩ | ⟨_, a, _, hjb⟩
      · exact absurd ⟨c1, c2⟩ g5
      · exact ⟨_, (hfrom Writes.arcs rfl _).mpr ⟨r, t, s, seg, row, _, g1, g2, g3, g4, hjb, List.mem_singleton.mpr rfl⟩, g6.symm⟩
  -- the function
  have htn : ((S.flatten.length : Int) * n - ((n : Int) - 1) * S.length).toNat = T.flatten.flatten.length := by
    rw [← htot, Int.toNat_natCast]
  have hlast : (flat T).sp2.getLastD 0 = T.flatten.flatten.length := by
    rw [show (flat T).sp2 = psum (T.flatten.map List.length) from rfl, psum_getLastD, List.length_flatten (L := T.flatten)]
  have hall' : pairs.mapM (fun p => thread (psum (S.map List.length)) (idsFrom 0 (S.map List.length))
    (flat (S.map denseFsa)).id1 S.flatten n (S.flatten.length + S.length) T.flatten.flatten.length p.1 p.2) =
      some (pairs.map (fun p => (job p).getD ⟨[], [], []⟩)) := by
    rw [← hst]; exact hall
  unfold convertDense
  simp only [Nat.add_sub_cancel, hchg, hel, hfs, Option.bind_eq_bind, Option.bind_some, List.getElem?_cons_zero, htn]
  rw [if_neg (by rw [← htot]; omega), hall', Option.bind_some, ← hst, hs2, Option.bind_some, hi2, Option.bind_some, ha2,
    Option.bind_some, if_neg (by rw [hlast]; simp)]
  have hcomp : composeShapes [((flat (S.map denseFsa)).sp1, (flat (S.map denseFsa)).id1)] [((flat T).sp2, (flat T).id2)] =
      some [((flat T).sp1, (flat T).id1), ((flat T).sp2, (flat T).id2)] := by
    unfold composeShapes
    rw [if_pos]
    · rfl
    · refine ⟨by simp, by simp, ?_⟩
      unfold totSize
      simp only [List.length_cons, List.length_nil, Nat.zero_add, Nat.reduceAdd, if_neg (Nat.one_ne_zero), Nat.sub_self,
        List.getElem?_cons_zero, Option.map_some, if_true, hsp2len, Nat.add_sub_cancel]
      rw [show (flat (S.map denseFsa)).sp1 = psum ((S.map denseFsa).map List.length) from rfl, psum_getLastD,
        List.length_flatten (L := T)]
  rw [hcomp, Option.bind_some]
  rfl

end

/-- With no sequence, the last entry of `row_splits2` is never written. -/
theorem convert_dense_empty (cols : Nat) : convertDense (W := W) ([0], []) cols [] = none := by
  unfold convertDense
  have : changeSublistSize [([0], [])] 1 = some [([0], [])] := changeSublistSize_spec [] [] 1 (by simp)
  simp [this, scatter]

theorem mem_frameArcs (last : Bool) (t : Nat) (row : List W) (a : Arc W) :
    a ∈ frameArcs last t row ↔ a.src = t ∧ a.dst = t + 1 ∧
      (if last then a.label = -1 ∧ row[0]? = some a.score else ∃ s : Nat, a.label = s ∧ row[s + 1]? = some a.score) := by
  unfold frameArcs
  cases last with
  | true =>
    simp only [if_true]
    cases row with
    | nil => simp
    | cons x row =>
      obtain ⟨s, d, l, y⟩ := a
      simp only [List.take_succ_cons, List.take_zero, List.map_cons, List.map_nil, List.mem_singleton,
        List.getElem?_cons_zero, Option.some.injEq, Arc.mk.injEq]
      constructor
      · rintro ⟨rfl, rfl, rfl, rfl⟩; exact ⟨rfl, rfl, rfl, rfl⟩
      · rintro ⟨rfl, rfl, rfl, rfl⟩; exact ⟨rfl, rfl, rfl, rfl⟩
  | false =>
    simp only [Bool.false_eq_true, if_false]
    rw [List.mem_iff_getElem?]
    simp only [List.getElem?_mapIdx, List.getElem?_drop, Option.map_eq_some_iff]
    constructor
    · rintro ⟨s, x, h1, rfl⟩
      exact ⟨rfl, rfl, s, rfl, by rw [Nat.add_comm s 1]; exact h1⟩
    · rintro ⟨h1, h2, s, h3, h4⟩
      refine ⟨s, a.score, by rw [Nat.add_comm 1 s]; exact h4, ?_⟩
      obtain ⟨a1, a2, a3, a4⟩ := a
      simp only at h1 h2 h3
      subst h1 h2 h3
      rfl

theorem mem_denseFsa (seg : List (List W)) (a : Arc W) :
    a ∈ (denseFsa seg).flatten ↔ ∃ (t : Nat) (row : List W), seg[t]? = some row ∧
      a ∈ frameArcs (decide (t + 1 = seg.length)) t row := by
  rw [List.mem_flatten]
  constructor
  · rintro ⟨l, h1, h2⟩
    unfold denseFsa at h1
    rcases List.mem_append.mp h1 with h | h
    · obtain ⟨t, ht⟩ := List.mem_iff_getElem?.mp h
      rw [List.getElem?_mapIdx, Option.map_eq_some_iff] at ht
      obtain ⟨row, g1, rfl⟩ := ht
      exact ⟨t, row, g1, h2⟩
    · rw [List.mem_singleton.mp h] at h2; simp at h2
  · rintro ⟨t, row, h1, h2⟩
    exact ⟨_, List.mem_of_getElem? (denseFsa_get seg t row h1), h2⟩

theorem chain_steps (p : List (Arc W)) (hp : ∀ a ∈ p, a.dst = a.src + 1) :
    ∀ s e, Chain s p e ↔ e = s + p.length ∧ ∀ (t : Nat) (a : Arc W), p[t]? = some a → a.src = s + t := by
  induction p with
  | nil => intro s e; simp [Chain, eq_comm]
  | cons b p ih =>
    intro s e
    have hb := hp b (by simp)
    rw [Chain, ih (fun a ha => hp a (List.mem_cons_of_mem _ ha)), hb]
    constructor
    · rintro ⟨rfl, rfl, h⟩
      refine ⟨by simp; omega, ?_⟩
      intro t a ha
      cases t with
      | zero => simp at ha; subst ha; simp
      | succ t => have := h t a (by simpa using ha); omega
    · rintro ⟨rfl, h⟩
      have h0 := h 0 b (by simp)
      refine ⟨by omega, by simp; omega, ?_⟩
      intro t a ha
      have := h (t + 1) a (by simpa using ha)
      omega

/-- **C103.** The accepting paths of the FSA of a sequence of score rows choose one symbol for each row except the
last, and the final symbol there; each arc has the score that its row gives to its symbol. -/
theorem dense_accepting (seg : List (List W)) (hne : seg ≠ []) (p : List (Arc W)) :
    Accepting (rowsFsa (denseFsa seg)) p ↔ p.length = seg.length ∧
      ∀ (t : Nat) (row : List W), seg[t]? = some row → ∃ a, p[t]? = some a ∧ a.src = t ∧ a.dst = t + 1 ∧
        (if t + 1 = seg.length then a.label = -1 ∧ row[0]? = some a.score
          else ∃ s : Nat, a.label = s ∧ row[s + 1]? = some a.score) := by
  have hfin : (rowsFsa (denseFsa seg)).final = seg.length := by
    show (denseFsa seg).length - 1 = _
    rw [denseFsa_length]; omega
  have hif : ∀ (t : Nat) (a : Arc W) (row : List W), (if decide (t + 1 = seg.length) = true then a.label = -1 ∧ row[0]? = some a.score
      else ∃ s : Nat, a.label = s ∧ row[s + 1]? = some a.score) ↔ (if t + 1 = seg.length then a.label = -1 ∧ row[0]? = some a.score
      else ∃ s : Nat, a.label = s ∧ row[s + 1]? = some a.score) := by
    intro t a row; simp only [decide_eq_true_eq]
  constructor
  · rintro ⟨_, hc, hm⟩
    have hstep : ∀ a ∈ p, a.dst = a.src + 1 := by
      intro a ha
      obtain ⟨t, row, h1, h2⟩ := (mem_denseFsa seg a).mp (hm a ha)
      obtain ⟨h3, h4, _⟩ := (mem_frameArcs _ t row a).mp h2
      omega
    rw [hfin, chain_steps p hstep] at hc
    refine ⟨by omega, ?_⟩
    intro t row ht
    have htl := (List.getElem?_eq_some_iff.mp ht).1
    have hpt : t < p.length := by omega
    have hg := List.getElem?_eq_getElem hpt
    obtain ⟨t', row', h1, h2⟩ := (mem_denseFsa seg p[t]).mp (hm _ (List.getElem_mem hpt))
    obtain ⟨h3, h4, h5⟩ := (mem_frameArcs _ t' row' p[t]).mp h2
    have := hc.2 t _ hg
    obtain rfl : t' = t := by omega
    rw [ht] at h1
    obtain rfl := Option.some.inj h1
    exact ⟨_, hg, h3, h4, (hif _ _ _).mp h5⟩
  · rintro ⟨hl, h⟩
    have hat : ∀ (t : Nat) (a : Arc W), p[t]? = some a → ∃ row, seg[t]? = some row ∧ a.src = t ∧ a.dst = t + 1 ∧
        a ∈ frameArcs (decide (t + 1 = seg.length)) t row := by
      intro t a ha
      have hts : t < seg.length := by have := (List.getElem?_eq_some_iff.mp ha).1; omega
      obtain ⟨b, h1, h2, h3, h4⟩ := h t _ (List.getElem?_eq_getElem hts)
      rw [ha] at h1
      obtain rfl := Option.some.inj h1
      exact ⟨_, List.getElem?_eq_getElem hts, h2, h3, (mem_frameArcs _ _ _ _).mpr ⟨h2, h3, (hif _ _ _).mpr h4⟩⟩
    refine ⟨?_, ?_, ?_⟩
    · show 2 ≤ (denseFsa seg).length
      have := List.length_pos_iff.mpr hne
      rw [denseFsa_length]; omega
    · rw [hfin, chain_steps p]
      · refine ⟨by omega, fun t a ha => ?_⟩
        obtain ⟨_, _, h2, _⟩ := hat t a ha
        omega
      · intro a ha
        obtain ⟨t, ht⟩ := List.mem_iff_getElem?.mp ha
        obtain ⟨_, _, h2, h3, _⟩ := hat t a ht
        omega
    · intro a ha
      obtain ⟨t, ht⟩ := List.mem_iff_getElem?.mp ha
      obtain ⟨row, h1, _, _, h4⟩ := hat t a ht
      exact (mem_denseFsa seg a).mpr ⟨t, row, h1, h4⟩

/-- Two sequences of one frame and none, with two symbols. -/
def denseExample : List (List (List Int)) := [[[-100, 5, 6], [0, -100, -100]], [[7, -100, -100]]]

example : denseExample ≠ [] ∧ ∀ seg ∈ denseExample, seg ≠ [] ∧ ∀ row ∈ seg, row.length = 2 + 1 := by decide

example : convertDense ([0, 2, 3], [0, 0, 1]) 3 denseExample.flatten =
    some ⟨[0, 3, 5], [0, 0, 0, 1, 1], [0, 2, 3, 3, 4, 4], [0, 0, 1, 3],
      [⟨0, 1, 0, 5⟩, ⟨0, 1, 1, 6⟩, ⟨1, 2, -1, 0⟩, ⟨0, 1, -1, 7⟩]⟩ := by decide +kernel

end Dv
end Verif.Fsa
