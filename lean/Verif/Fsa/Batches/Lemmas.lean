import Verif.Fsa.Batches.Chase
import Verif.Fsa.TopSort.Props

/-!
# The batches of a vector of FSAs
-/

namespace Verif.Fsa.Bat
open Verif.Ragged Verif.Util Verif.Fsa.Top
variable {W X : Type}

theorem maxSize_psum (ns : List Nat) : maxSize (psum ns) = some (ns.foldr max 0) := by
  unfold maxSize
  have : (List.range ((psum ns).length - 1)).mapM (fun i => (do
      let a : Nat ← (psum ns)[i]?
      let b : Nat ← (psum ns)[i + 1]?
      some (b - a))) = some ns := by
    apply mapM_some_of
    · simp
    · intro i b hb
      obtain ⟨hlt, hb⟩ := List.getElem?_eq_some_iff.mp hb
      rw [List.getElem_range] at hb; subst hb
      rw [List.length_range, psum_length] at hlt
      rw [psum_get _ _ (by omega), psum_get _ _ (by omega)]
      simp only [Option.bind_eq_bind, Option.bind_some]
      have hi : i < ns.length := by omega
      rw [List.getElem?_eq_getElem hi, take_succ_sum ns i _ (List.getElem?_eq_getElem hi)]
      congr 1; omega
  rw [this]; rfl

theorem lowerBoundLoop_spec (l : List Nat) : (lowerBoundLoop l).1.length = l.length ∧
    (∀ d ∈ l, (lowerBoundLoop l).2 ≤ d) ∧ ((lowerBoundLoop l).2 = intMax ∨ (lowerBoundLoop l).2 ∈ l) ∧
    ∀ a < l.length, (lowerBoundLoop l).1[a]? = some (lowerBoundLoop (l.drop a)).2 := by
  induction l with
  | nil => exact ⟨rfl, by simp, Or.inl rfl, by simp⟩
  | cons x xs ih =>
    obtain ⟨h1, h2, h3, h4⟩ := ih
    refine ⟨by simp [lowerBoundLoop, h1], ?_, ?_, ?_⟩
    · intro d hd
      rw [lowerBoundLoop]
      rcases List.mem_cons.mp hd with rfl | hd
      · exact Nat.min_le_left _ _
      · exact Nat.le_trans (Nat.min_le_right _ _) (h2 d hd)
    · rw [lowerBoundLoop]
      simp only
      rcases Nat.le_total x (lowerBoundLoop xs).2 with h | h
      · rw [Nat.min_eq_left h]; right; simp
      · rw [Nat.min_eq_right h]
        rcases h3 with h3 | h3
        · exact Or.inl h3
        · right; simp [h3]
    · intro a ha
      cases a with
      | zero => simp [lowerBoundLoop]
      | succ a =>
        rw [lowerBoundLoop]
        simpa using h4 a (by simpa using ha)

theorem apos_mono (T : List (List (List X))) {a b : Nat} (h : a ≤ b) : apos T a ≤ apos T b := take_sum_mono _ h

theorem off_mono (T : List (List (List X))) {a b : Nat} (h : a ≤ b) : off T a ≤ off T b := take_sum_mono _ h

theorem off_length (T : List (List (List X))) : off T T.length = T.flatten.length := by
  rw [off, List.take_of_length_le (by simp), List.length_flatten]

theorem apos_le_iff (T : List (List (List X))) (s j : Nat) (hj : j < T.flatten.flatten.length) :
    apos T s ≤ j ↔ s ≤ srcOf T j := by
  obtain ⟨g, row, k, hg, hk, rfl⟩ := arc_pos2 T j hj
  rw [srcOf_apos T g k row hg hk]
  constructor
  · intro h
    by_contra hc
    have h1 := apos_mono T (show g + 1 ≤ s by omega)
    rw [apos_succ T g row hg] at h1
    omega
  · intro h
    have := apos_mono T h
    omega

/-- All arcs go to a later state. -/
def Forward (T : List (List (List X))) (dst : Nat → Nat) : Prop :=
  ∀ j < T.flatten.flatten.length, srcOf T j < dst j

/-- The jump of a state is the first destination of an arc that leaves it or a later state. -/
structure Lowest (T : List (List (List X))) (dst : Nat → Nat) (J : Nat → Nat) : Prop where
  le : ∀ j < T.flatten.flatten.length, ∀ s ≤ srcOf T j, J s ≤ dst j
  hit : ∀ s < T.flatten.length, J s = intMax ∨ ∃ j < T.flatten.flatten.length, s ≤ srcOf T j ∧ J s = dst j

section
variable (T : List (List (List (Arc W)))) (dest : List Nat) (dst : Nat → Nat) (hd : DestOk T dest dst)
include hd

theorem srcOf_lt (j : Nat) (hj : j < T.flatten.flatten.length) : srcOf T j < T.flatten.length := by
  obtain ⟨g, row, k, hg, hk, rfl⟩ := arc_pos2 T j hj
  rw [srcOf_apos T g k row hg hk]
  exact (List.getElem?_eq_some_iff.mp hg).1

/-- The jump that the kernel finds, before the check. -/
theorem jump_value (s : Nat) (hs : s < T.flatten.length) :
    ∃ a v, (flat T).sp2[s]? = some a ∧
      firstDest (flat T) (monotonicLowerBound dest) a = some v ∧
      (∀ j < T.flatten.flatten.length, s ≤ srcOf T j → v ≤ dst j) ∧
      (v = intMax ∨ ∃ j < T.flatten.flatten.length, s ≤ srcOf T j ∧ v = dst j) := by
  have ha : (flat T).arcs.length = T.flatten.flatten.length := rfl
  refine ⟨_, if apos T s < T.flatten.flatten.length then (lowerBoundLoop (dest.drop (apos T s))).2 else intMax,
    flat_sp2 T s (by omega), ?_, ?_, ?_⟩
  · unfold firstDest
    show (if apos T s < _ then _ else _) = _
    rw [ha]
    split
    · next h =>
      rw [monotonicLowerBound, (lowerBoundLoop_spec dest).2.2.2 _ (by rw [hd.length]; exact h)]
    · rfl
  · intro j hj hsj
    have h1 := (apos_le_iff T s j hj).mpr hsj
    rw [if_pos (by omega)]
    apply (lowerBoundLoop_spec (dest.drop (apos T s))).2.1
    apply List.mem_of_getElem? (i := j - apos T s)
    rw [List.getElem?_drop, show apos T s + (j - apos T s) = j by omega]
    exact hd.get j hj
  · split
    · next h =>
      rcases (lowerBoundLoop_spec (dest.drop (apos T s))).2.2.1 with h1 | h1
      · exact Or.inl h1
      · right
        obtain ⟨k, hk⟩ := List.getElem?_of_mem h1
        rw [List.getElem?_drop] at hk
        have hlt := (List.getElem?_eq_some_iff.mp hk).1
        rw [hd.length] at hlt
        refine ⟨_, hlt, (apos_le_iff T s _ hlt).mp (by omega), ?_⟩
        rw [hd.get _ hlt] at hk
        exact (Option.some.inj hk).symm
    · exact Or.inl rfl

theorem jumps_iff (hn : T.flatten.length ≤ intMax) :
    (∃ row0, jumps (flat T) (monotonicLowerBound dest) = some row0) ↔ Forward T dst := by
  constructor
  · rintro ⟨row0, h⟩ j hj
    have hs := srcOf_lt T dest dst hd j hj
    have h1 := (mapM_get h).2 (srcOf T j) (srcOf T j) (List.getElem?_range (by rw [flat_id1_length]; exact hs))
    obtain ⟨a, v, e1, e2, e3, _⟩ := jump_value T dest dst hd _ hs
    have hlen := (mapM_get h).1
    rw [List.length_range, flat_id1_length] at hlen
    rw [List.getElem?_eq_getElem (by omega)] at h1
    simp only [e1, e2, Option.bind_eq_bind, Option.bind_some] at h1
    split at h1
    · next hc => have := e3 j hj (Nat.le_refl _); omega
    · exact absurd h1 (by simp)
  · intro hF
    refine mapM_exists ?_
    intro s hs
    have hs' : s < T.flatten.length := by rw [← flat_id1_length]; exact List.mem_range.mp hs
    obtain ⟨a, v, e1, e2, e3, e4⟩ := jump_value T dest dst hd s hs'
    refine ⟨v, ?_⟩
    simp only [e1, e2, Option.bind_eq_bind, Option.bind_some]
    rw [if_pos]
    rcases e4 with rfl | ⟨j, hj, hsj, rfl⟩
    · omega
    · have := hF j hj; omega

theorem jumps_spec (hn : T.flatten.length ≤ intMax) (row0 : List Nat)
    (h : jumps (flat T) (monotonicLowerBound dest) = some row0) :
    Jumps T.flatten.length (fun s => row0.getD s intMax) ∧
    IsRow T.flatten.length (fun s => row0.getD s intMax) 1 row0 ∧ Lowest T dst (fun s => row0.getD s intMax) := by
  have hlen := (mapM_get h).1
  rw [List.length_range, flat_id1_length] at hlen
  have key : ∀ s < T.flatten.length, ∃ v, row0[s]? = some v ∧ row0.getD s intMax = v ∧ s < v ∧
      (∀ j < T.flatten.flatten.length, s ≤ srcOf T j → v ≤ dst j) ∧
      (v = intMax ∨ ∃ j < T.flatten.flatten.length, s ≤ srcOf T j ∧ v = dst j) := by
    intro s hs
    have h1 := (mapM_get h).2 s s (List.getElem?_range (by rw [flat_id1_length]; exact hs))
    obtain ⟨a, v, e1, e2, e3, e4⟩ := jump_value T dest dst hd s hs
    simp only [e1, e2, Option.bind_eq_bind, Option.bind_some] at h1
    split at h1
    · next hc => exact ⟨v, h1, by rw [List.getD_eq_getElem?_getD, h1]; rfl, hc, e3, e4⟩
    · rw [List.getElem?_eq_getElem (by omega)] at h1
      exact absurd h1 (by simp)
  refine ⟨⟨hn, ?_, ?_⟩, ⟨hlen, ?_⟩, ⟨?_, ?_⟩⟩
  · intro s hs
    obtain ⟨v, _, h2, h3, _⟩ := key s hs
    show s < row0.getD s intMax
    rw [h2]; exact h3
  · intro s hs
    show row0.getD s intMax = intMax
    rw [List.getD_eq_getElem?_getD, List.getElem?_eq_none (by omega)]; rfl
  · intro s hs
    obtain ⟨v, h1, h2, _⟩ := key s hs
    rw [h1]
    show some v = some (row0.getD s intMax)
    rw [h2]
  · intro j hj s hsj
    have := srcOf_lt T dest dst hd j hj
    obtain ⟨v, h1, h2, _, h4, _⟩ := key s (by omega)
    show row0.getD s intMax ≤ _
    rw [h2]; exact h4 j hj hsj
  · intro s hs
    obtain ⟨v, h1, h2, _, _, h5⟩ := key s hs
    show row0.getD s intMax = _ ∨ ∃ j < _, _ ∧ row0.getD s intMax = _
    rw [h2]; exact h5

end

/-! ## The batches -/

/-- Consecutive ranges. -/
theorem ranges_flatten (c : Nat → Nat) (m : Nat) (hc : ∀ k < m, c k ≤ c (k + 1)) :
    c 0 ≤ c m ∧ ((List.range m).map (fun k => List.range' (c k) (c (k + 1) - c k))).flatten =
      List.range' (c 0) (c m - c 0) := by
  induction m with
  | zero => simp
  | succ m ih =>
    obtain ⟨h1, h2⟩ := ih (fun k hk => hc k (by omega))
    have h3 := hc m (by omega)
    refine ⟨by omega, ?_⟩
    rw [List.range_succ, List.map_append, List.flatten_append, h2]
    simp only [List.map_cons, List.map_nil, List.flatten_cons, List.flatten_nil, List.append_nil]
    have e : c m = c 0 + 1 * (c m - c 0) := by omega
    conv_lhs => rw [show List.range' (c m) (c (m + 1) - c m) =
      List.range' (c 0 + 1 * (c m - c 0)) (c (m + 1) - c m) by rw [← e]]
    rw [List.range'_append]
    congr 1; omega

/-- The batches of one FSA with states `b .. e-1`. -/
noncomputable def fsaBatches (J : Nat → Nat) (b e : Nat) : List (List Nat) :=
  (List.range (numJumps J b e)).map (fun k =>
    List.range' (min e (J^[k] b)) (min e (J^[k + 1] b) - min e (J^[k] b)))

/-- The batches of all FSAs. -/
noncomputable def allBatches (T : List (List (List X))) (J : Nat → Nat) : List (List (List Nat)) :=
  (List.range T.length).map (fun r => fsaBatches J (off T r) (off T (r + 1)))

variable {n : Nat} {J : Nat → Nat}

theorem fsaBatches_get (h : Jumps n J) {b e : Nat} (he : e ≤ n) (k : Nat) (hk : k < numJumps J b e) :
    (fsaBatches J b e)[k]? = some (List.range' (J^[k] b) (min e (J^[k + 1] b) - J^[k] b)) ∧
      J^[k] b < min e (J^[k + 1] b) := by
  have h1 := (h.lt_numJumps he k).mp hk
  have h2 : J^[k] b < J^[k + 1] b := by
    rw [Function.iterate_succ_apply']; exact h.forward _ (by omega)
  refine ⟨?_, by omega⟩
  rw [fsaBatches, List.getElem?_map, List.getElem?_range hk, Option.map_some, Nat.min_eq_right (by omega)]

theorem fsaBatches_flatten (h : Jumps n J) {b e : Nat} (he : e ≤ n) (hb : b ≤ e) :
    (fsaBatches J b e).flatten = List.range' b (e - b) := by
  have h1 := (ranges_flatten (fun k => min e (J^[k] b)) (numJumps J b e) (by
    intro k hk
    have h1 := (h.lt_numJumps he k).mp hk
    have h2 : J^[k] b < J^[k + 1] b := by
      rw [Function.iterate_succ_apply']; exact h.forward _ (by omega)
    omega)).2
  have h2 : ¬ J^[numJumps J b e] b < e := by
    rw [← h.lt_numJumps he]; omega
  simp only [Function.iterate_zero, id_eq] at h1
  rw [Nat.min_eq_right hb, Nat.min_eq_left (Nat.not_lt.mp h2)] at h1
  exact h1

theorem allBatches_flatten (T : List (List (List X))) (h : Jumps T.flatten.length J) :
    (allBatches T J).flatten.flatten = List.range T.flatten.length := by
  have key : ∀ B : List (List (List Nat)), B.flatten.flatten = (B.map List.flatten).flatten := by
    intro B
    induction B with
    | nil => rfl
    | cons b B ih => rw [List.flatten_cons, List.flatten_append, ih, List.map_cons, List.flatten_cons]
  rw [key, allBatches, List.map_map]
  have e1 : (List.range T.length).map (List.flatten ∘ fun r => fsaBatches J (off T r) (off T (r + 1))) =
      (List.range T.length).map (fun r => List.range' (off T r) (off T (r + 1) - off T r)) := by
    refine List.map_congr_left (fun r hr => ?_)
    have hr' : r < T.length := List.mem_range.mp hr
    exact fsaBatches_flatten h (by rw [← off_length]; exact off_mono T (by omega)) (off_mono T (by omega))
  rw [e1, (ranges_flatten (off T) T.length (fun k _ => off_mono T (by omega))).2, off_length]
  have : off T 0 = 0 := by simp [off]
  rw [this, List.range_eq_range', Nat.sub_zero]

theorem allBatches_get (T : List (List (List X))) (r : Nat) (hr : r < T.length) :
    (allBatches T J)[r]? = some (fsaBatches J (off T r) (off T (r + 1))) := by
  rw [allBatches, List.getElem?_map, List.getElem?_range hr]; rfl

theorem allBatches_lengths (T : List (List (List X))) : (allBatches T J).map List.length =
    (List.range T.length).map (fun r => numJumps J (off T r) (off T (r + 1))) := by
  rw [allBatches, List.map_map]
  refine List.map_congr_left (fun r _ => ?_)
  simp [fsaBatches]

/-! ## The kernels on a vector of FSAs -/

section
variable (T : List (List (List (Arc W)))) (h : Jumps T.flatten.length J)
include h

theorem off_le (r : Nat) (hr : r ≤ T.length) : off T r ≤ T.flatten.length := by
  rw [← off_length]; exact off_mono T hr

theorem batchTask_eq (lp : Nat) (rows : List (List Nat)) (hR : Rows T.flatten.length J lp rows) (r t : Nat)
    (hr : r < T.length) (ht : t < 2 ^ lp) :
    batchTask (flat T) lp rows r t =
      some (trail J (off T r) (numJumps J (off T r) (off T (r + 1))) (2 ^ lp) t,
        trailCount (numJumps J (off T r) (off T (r + 1))) (2 ^ lp) t) := by
  have he := off_le T h (r + 1) (by omega)
  have hj : 0 < 2 ^ lp := Nat.two_pow_pos lp
  have e1 := flat_sp1 T r (by omega)
  have e2 := flat_sp1 T (r + 1) (by omega)
  have hN := h.numJumps_le he (b := off T r)
  unfold batchTask
  simp only [e1, e2, Option.bind_eq_bind, Option.bind_some]
  have hnil : numJumps J (off T r) (off T (r + 1)) ≤ t →
      (some ([], []) : Option (List (Nat × Nat) × List Nat)) =
      some (trail J (off T r) (numJumps J (off T r) (off T (r + 1))) (2 ^ lp) t,
        trailCount (numJumps J (off T r) (off T (r + 1))) (2 ^ lp) t) := by
    intro hle
    rw [trail_nil _ _ _ _ _ hj hle, trailCount, if_neg (by omega)]
  split
  · next hle => exact hnil (by omega)
  · next hle =>
    have hadv := advance_eq h hR (off T r) (off T (r + 1)) t he lp 0 (by omega) (by
      rw [Nat.pow_zero, Nat.mod_one]
      show off T r < off T (r + 1)
      omega)
    rw [Nat.pow_zero, Nat.mod_one, Nat.zero_add, Nat.mod_eq_of_lt ht, ← List.range_eq_range'] at hadv
    have hadv' : advance rows (off T (r + 1)) t (List.range lp) (0, off T r) = _ := hadv
    rw [hadv']
    simp only [Option.bind_some]
    by_cases hlt : J^[t] (off T r) < off T (r + 1)
    · rw [if_pos hlt]
      obtain ⟨row0, h1, h2⟩ := hR.get 0 (by omega)
      obtain ⟨rowL, h3, h4⟩ := hR.get lp (by omega)
      simp only [ne_eq, not_true_eq_false, if_false, h1, h3, Option.bind_some]
      exact chase_eq h h2 h4 hj he _ t (by omega) hlt
    · rw [if_neg hlt]
      refine hnil ?_
      by_contra hc
      exact hlt ((h.lt_numJumps he t).mp (by omega))

/-- The writes to `batch_starts`. -/
noncomputable def startWrites (T : List (List (List X))) (J : Nat → Nat) (jobs : Nat) : List (Nat × Nat) :=
  (List.range T.length).flatMap (fun r =>
    (List.range jobs).flatMap (trail J (off T r) (numJumps J (off T r) (off T (r + 1))) jobs))

theorem batchInfo_eq (lp : Nat) (rows : List (List Nat)) (hR : Rows T.flatten.length J lp rows) :
    batchInfo (flat T) lp rows = some (startWrites T J (2 ^ lp), (allBatches T J).map List.length) := by
  have hj : 0 < 2 ^ lp := Nat.two_pow_pos lp
  unfold batchInfo
  have key : (List.range ((flat T).sp1.length - 1)).mapM (fun r => (do
      let l ← (List.range (2 ^ lp)).mapM (fun t => batchTask (flat T) lp rows r t)
      let c ← readCount (l.flatMap Prod.snd)
      some (l.flatMap Prod.fst, c))) = some ((List.range T.length).map (fun r =>
        ((List.range (2 ^ lp)).flatMap (trail J (off T r) (numJumps J (off T r) (off T (r + 1))) (2 ^ lp)),
          numJumps J (off T r) (off T (r + 1))))) := by
    apply mapM_some_of
    · simp [flat_sp1_length]
    · intro i b hb
      obtain ⟨hlt, hb⟩ := List.getElem?_eq_some_iff.mp hb
      rw [List.getElem_range] at hb; subst hb
      rw [List.length_range, flat_sp1_length, Nat.add_sub_cancel] at hlt
      have hm : (List.range (2 ^ lp)).mapM (fun t => batchTask (flat T) lp rows i t) =
          some ((List.range (2 ^ lp)).map (fun t =>
            (trail J (off T i) (numJumps J (off T i) (off T (i + 1))) (2 ^ lp) t,
              trailCount (numJumps J (off T i) (off T (i + 1))) (2 ^ lp) t))) := by
        apply mapM_some_of
        · simp
        · intro t b hb
          obtain ⟨hlt', hb⟩ := List.getElem?_eq_some_iff.mp hb
          rw [List.getElem_range] at hb; subst hb
          rw [List.length_range] at hlt'
          rw [batchTask_eq T h lp rows hR i t hlt hlt', List.getElem?_map, List.getElem?_range hlt']
          rfl
      have hc := counts_eq (numJumps J (off T i) (off T (i + 1))) (2 ^ lp) hj
      rw [hm, List.getElem?_map, List.getElem?_range hlt]
      simp only [Option.bind_eq_bind, Option.bind_some, List.flatMap_map, Option.map_some]
      rw [hc]
      rfl
  rw [key]
  simp only [Option.bind_eq_bind, Option.bind_some, allBatches_lengths, List.flatMap_map, List.map_map]
  rfl

theorem startWrites_mem (jobs : Nat) (hj : 0 < jobs) (w : Nat × Nat) : w ∈ startWrites T J jobs ↔
    ∃ r k, r < T.length ∧ k < numJumps J (off T r) (off T (r + 1)) ∧ w = (off T r + k, J^[k] (off T r)) := by
  unfold startWrites
  rw [List.mem_flatMap]
  constructor
  · rintro ⟨r, hr, hw⟩
    obtain ⟨k, hk, rfl⟩ := (trails_mem J _ _ jobs hj w).mp hw
    exact ⟨r, k, List.mem_range.mp hr, hk, rfl⟩
  · rintro ⟨r, k, hr, hk, rfl⟩
    exact ⟨r, List.mem_range.mpr hr, (trails_mem J _ _ jobs hj _).mpr ⟨k, hk, rfl⟩⟩

/-- No two threads write the same element. -/
theorem startWrites_nodup (jobs : Nat) (hj : 0 < jobs) : ((startWrites T J jobs).map Prod.fst).Nodup := by
  unfold startWrites
  rw [List.map_flatMap, List.nodup_flatMap]
  refine ⟨fun r _ => trails_nodup J _ _ jobs hj, ?_⟩
  have hp : (List.range T.length).Pairwise (fun a c => a < T.length ∧ c < T.length ∧ a < c) := by
    rw [List.pairwise_iff_getElem]
    intro i j hi hj' hij
    rw [List.length_range] at hi hj'
    simp only [List.getElem_range]
    omega
  refine hp.imp ?_
  rintro a c ⟨ha, hc, hac⟩ p hp1 hp2
  obtain ⟨w1, hw1, rfl⟩ := List.mem_map.mp hp1
  obtain ⟨w2, hw2, he⟩ := List.mem_map.mp hp2
  obtain ⟨k1, hk1, rfl⟩ := (trails_mem J _ _ jobs hj w1).mp hw1
  obtain ⟨k2, hk2, rfl⟩ := (trails_mem J _ _ jobs hj w2).mp hw2
  have h1 := h.numJumps_le (off_le T h (a + 1) (by omega)) (b := off T a)
  have h2 := off_mono T (show a + 1 ≤ c by omega)
  simp only at he
  omega

theorem batchSplits_eq (jobs : Nat) (hj : 0 < jobs) :
    batchSplits (flat T) (startWrites T J jobs) (psum ((allBatches T J).map List.length))
      (idsFrom 0 ((allBatches T J).map List.length)) =
      some (psum ((allBatches T J).flatten.map List.length)) := by
  have hfl := allBatches_flatten T h
  have hBl : (allBatches T J).length = T.length := by simp [allBatches]
  have hsum : ((allBatches T J).map List.length).sum = (allBatches T J).flatten.length := by
    rw [List.length_flatten]
  have hml : ((allBatches T J).flatten.map List.length).length = (allBatches T J).flatten.length := List.length_map _
  unfold batchSplits
  have key : (List.range (idsFrom 0 ((allBatches T J).map List.length)).length).mapM (fun i => (do
      let r ← (idsFrom 0 ((allBatches T J).map List.length))[i]?
      let x ← (psum ((allBatches T J).map List.length))[r]?
      let b ← (flat T).sp1[r]?
      readWritten (startWrites T J jobs) (b + (i - x)))) =
      some ((List.range (allBatches T J).flatten.length).map (fun i =>
        (((allBatches T J).flatten.map List.length).take i).sum)) := by
    apply mapM_some_of
    · rw [List.length_map, List.length_range, List.length_range, idsFrom_length, hsum]
    · intro i b hb
      obtain ⟨hlt, hb⟩ := List.getElem?_eq_some_iff.mp hb
      rw [List.getElem_range] at hb; subst hb
      rw [List.length_range, idsFrom_length] at hlt
      obtain ⟨r, m, k, h1, h2, h3⟩ := ids_pos _ i hlt
      have hr : r < T.length := by
        have := (List.getElem?_eq_some_iff.mp h1).1; rw [List.length_map, hBl] at this; exact this
      have hB := allBatches_get (J := J) T r hr
      have hm : m = numJumps J (off T r) (off T (r + 1)) := by
        rw [List.getElem?_map, hB, Option.map_some] at h1
        have := Option.some.inj h1
        rw [← this]; simp [fsaBatches]
      have he := off_le T h (r + 1) (by omega)
      have e1 := ids_at _ r m k h1 h2
      rw [← h3] at e1
      have e2 := psum_get ((allBatches T J).map List.length) r (by simp; omega)
      have e3 := flat_sp1 T r (by omega)
      have e4 : off T r + (i - (((allBatches T J).map List.length).take r).sum) = off T r + k := by omega
      have e5 := readWritten_eq _ (startWrites_nodup T h jobs hj) (off T r + k) (J^[k] (off T r))
        ((startWrites_mem T h jobs hj _).mpr ⟨r, k, hr, by omega, rfl⟩)
      simp only [e1, e2, e3, Option.bind_eq_bind, Option.bind_some, e4, e5]
      rw [List.getElem?_map, List.getElem?_range (by omega), Option.map_some]
      -- the batch at position i starts with its number
      obtain ⟨g1, g2⟩ := fsaBatches_get h he k (by omega : k < numJumps J (off T r) (off T (r + 1)))
      have hkl : k < (fsaBatches J (off T r) (off T (r + 1))).length := by
        rw [fsaBatches, List.length_map, List.length_range]; omega
      have g3 := row_at (allBatches T J) r k _ hB hkl
      rw [← h3, g1] at g3
      have g4 := row_at (allBatches T J).flatten i 0 _ g3 (by rw [List.length_range']; omega)
      rw [hfl, Nat.add_zero, List.getElem?_range' (by omega)] at g4
      have g5 : (((allBatches T J).flatten.map List.length).take i).sum < T.flatten.length := by
        have := (List.getElem?_eq_some_iff.mp g4).1; simpa using this
      rw [List.getElem?_range g5] at g4
      have := Option.some.inj g4
      rw [this]; simp
  rw [key]
  simp only [Option.bind_eq_bind, Option.bind_some]
  congr 1
  apply List.ext_getElem?
  intro k
  rcases Nat.lt_trichotomy k (allBatches T J).flatten.length with hk | hk | hk
  · rw [List.getElem?_append_left (by simpa using hk), List.getElem?_map, List.getElem?_range hk,
      psum_get _ _ (by rw [hml]; omega)]
    rfl
  · rw [List.getElem?_append_right (by simp; omega), psum_get _ _ (by rw [hml]; omega), List.take_of_length_le (by rw [hml]; omega),
      ← List.length_flatten, hfl]
    simp [hk, flat_id1_length]
  · rw [List.getElem?_eq_none (by rw [List.length_append, List.length_map, List.length_range, List.length_singleton]; omega), List.getElem?_eq_none (by rw [psum_length, hml]; omega)]

end

end Verif.Fsa.Bat
