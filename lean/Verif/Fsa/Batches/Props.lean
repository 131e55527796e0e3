import Verif.Fsa.Batches.Pad

/-!
# C37: the batches of states are a valid schedule
-/

namespace Verif.Fsa
open Verif.Ragged Verif.Util
variable {W X : Type}

/-! ## Specification -/

/-- `B[r]` is a list of batches of states of FSA `r` that can be processed one after the other.  States are
numbered through the whole vector: state `s` of FSA `r` is `off T r + s`. -/
structure BatchSchedule (T : List (List (List (Arc W)))) (B : List (List (List Nat))) : Prop where
  length : B.length = T.length
  /-- Every state of the FSA is in exactly one batch, and the states are in order. -/
  part : ∀ (r : Nat) (f : List (List (Arc W))) (bs : List (List Nat)), T[r]? = some f → B[r]? = some bs →
    bs.flatten = List.range' (off T r) f.length
  nonempty : ∀ bs ∈ B, ∀ b ∈ bs, b ≠ []
  /-- An arc leads to a later batch. -/
  arcs : ∀ (r : Nat) (f : List (List (Arc W))) (bs : List (List Nat)), T[r]? = some f → B[r]? = some bs →
    ∀ a ∈ f.flatten, ∀ (k k' : Nat) (b b' : List Nat), bs[k]? = some b → bs[k']? = some b' →
      off T r + a.src ∈ b → off T r + a.dst ∈ b' → k < k'
  /-- No batch is shorter than it has to be: the state after it is the destination of one of its arcs. -/
  greedy : ∀ (r : Nat) (f : List (List (Arc W))) (bs : List (List Nat)), T[r]? = some f → B[r]? = some bs →
    ∀ (k : Nat) (b b' : List Nat), bs[k]? = some b → bs[k + 1]? = some b' →
      ∃ a ∈ f.flatten, off T r + a.src ∈ b ∧ b'.head? = some (off T r + a.dst)

/-- `C` is `B` with its first two axes exchanged; missing batches are empty. -/
structure Exchanged (B C : List (List (List Nat))) : Prop where
  width : ∀ row ∈ C, row.length = B.length
  entry : ∀ (r k : Nat) (bs : List (List Nat)) (row : List (List Nat)), B[r]? = some bs → C[k]? = some row →
    row[r]? = some (bs[k]?.getD [])
  /-- No batch is lost. -/
  all : ∀ bs ∈ B, bs.length ≤ C.length

namespace Bat

theorem schedule_of_jumps (T : List (List (List (Arc W)))) (dst J : Nat → Nat)
    (hA : Top.ArcsOk T dst) (hf : Forward T dst) (h : Jumps T.flatten.length J) (hl : Lowest T dst J) :
    BatchSchedule T (allBatches T J) := by
  have hlen : (allBatches T J).length = T.length := by simp [allBatches]
  have hget : ∀ (r : Nat) (f : List (List (Arc W))) (bs : List (List Nat)), T[r]? = some f →
      (allBatches T J)[r]? = some bs → bs = fsaBatches J (off T r) (off T (r + 1)) ∧ r < T.length := by
    intro r f bs hr hb
    have hr' := (List.getElem?_eq_some_iff.mp hr).1
    rw [allBatches_get T r hr'] at hb
    exact ⟨(Option.some.inj hb).symm, hr'⟩
  have hrow : ∀ r < T.length, ∀ (k : Nat) (b : List Nat),
      (fsaBatches J (off T r) (off T (r + 1)))[k]? = some b →
      k < numJumps J (off T r) (off T (r + 1)) ∧
      b = List.range' (J^[k] (off T r)) (min (off T (r + 1)) (J^[k + 1] (off T r)) - J^[k] (off T r)) ∧
      J^[k] (off T r) < min (off T (r + 1)) (J^[k + 1] (off T r)) := by
    intro r hr k b hb
    have hk : k < numJumps J (off T r) (off T (r + 1)) := by
      have := (List.getElem?_eq_some_iff.mp hb).1
      rw [fsaBatches, List.length_map, List.length_range] at this
      exact this
    obtain ⟨h1, h2⟩ := fsaBatches_get h (off_le T h (r + 1) (by omega)) k hk
    rw [hb] at h1
    exact ⟨hk, Option.some.inj h1, h2⟩
  refine ⟨hlen, ?_, ?_, ?_, ?_⟩
  · intro r f bs hr hb
    obtain ⟨rfl, hr'⟩ := hget r f bs hr hb
    rw [fsaBatches_flatten h (off_le T h (r + 1) (by omega)) (off_mono T (by omega)), off_succ T r f hr,
      Nat.add_sub_cancel_left]
  · intro bs hbs b hb
    obtain ⟨r, hr⟩ := List.getElem?_of_mem hbs
    obtain ⟨k, hk⟩ := List.getElem?_of_mem hb
    have hr' : r < T.length := by have := (List.getElem?_eq_some_iff.mp hr).1; omega
    rw [allBatches_get T r hr'] at hr
    rw [← Option.some.inj hr] at hk
    obtain ⟨_, h2, h3⟩ := hrow r hr' k b hk
    rw [h2]
    intro hc
    have := congrArg List.length hc
    rw [List.length_range', List.length_nil] at this
    omega
  · intro r f bs hr hb a ha k k' b b' hk hk' hs hd
    obtain ⟨rfl, hr'⟩ := hget r f bs hr hb
    obtain ⟨h1, h2, h3⟩ := hrow r hr' k b hk
    obtain ⟨h4, h5, h6⟩ := hrow r hr' k' b' hk'
    obtain ⟨_, _, j, hj, hsrc, hdst⟩ := hA.out r f a hr ha
    rw [h2, List.mem_range'_1] at hs
    rw [h5, List.mem_range'_1] at hd
    have h7 := hl.le j hj (J^[k] (off T r)) (by omega)
    rw [← Function.iterate_succ_apply' J k] at h7
    by_contra hc
    -- then J^[k'+1] ≤ J^[k+1]
    have h8 : J^[k' + 1] (off T r) ≤ J^[k + 1] (off T r) := by
      have hmono : ∀ m, J^[k'] (off T r) < off T (r + 1) → k' ≤ m → m ≤ k →
          J^[k' + 1] (off T r) ≤ J^[m + 1] (off T r) := by
        intro m h0 hm
        induction m, hm using Nat.le_induction with
        | base => intro _; exact le_refl _
        | succ m hm ih =>
          intro hmk
          have h10 := (h.lt_numJumps (off_le T h (r + 1) (by omega)) (b := off T r) (m + 1)).mp (by omega)
          have h11 := off_le T h (r + 1) (by omega)
          have h9 : J^[m + 1] (off T r) < J^[m + 1 + 1] (off T r) := by
            rw [Function.iterate_succ_apply' J (m + 1)]
            exact h.forward _ (by omega)
          have := ih (by omega)
          omega
      exact hmono k (by omega) (by omega) (le_refl _)
    have h7' : J^[k + 1] (off T r) ≤ dst j := h7
    omega
  · intro r f bs hr hb k b b' hk hk'
    obtain ⟨rfl, hr'⟩ := hget r f bs hr hb
    obtain ⟨h1, h2, h3⟩ := hrow r hr' k b hk
    obtain ⟨h4, h5, h6⟩ := hrow r hr' (k + 1) b' hk'
    have hle := off_le T h (r + 1) (by omega)
    rcases hl.hit (J^[k] (off T r)) (by omega) with hc | ⟨j, hj, hs, hd⟩
    · rw [← Function.iterate_succ_apply' J k] at hc
      have hc' : J^[k + 1] (off T r) = intMax := hc
      have := h.bound
      omega
    · have hd' : J^[k + 1] (off T r) = dst j := by rw [Function.iterate_succ_apply']; exact hd
      have hfj := hf j hj
      obtain ⟨r', f', a, hr2, ha, h7, h8⟩ := hA.back j hj
      obtain ⟨h9, h10, _⟩ := hA.out r' f' a hr2 ha
      have hrr : r' = r := by
        obtain ⟨r1, f1, s1, hr1, hs1, he⟩ := state_pos T (dst j) (by omega)
        have hb1 : off T r ≤ dst j := by
          have hge : off T r ≤ J^[k] (off T r) := by
            rcases Nat.eq_zero_or_pos k with rfl | hk0
            · exact le_refl _
            · exact Nat.le_trans (by omega) (h.iter_add_le hle (by omega : J^[k] (off T r) < off T (r + 1)))
          omega
        have h11 : dst j < off T (r + 1) := by omega
        rw [off_succ T r f hr] at h11
        exact (off_inj T r' r a.dst (dst j - off T r) f' f hr2 hr h10 (by omega) (by omega)).1
      subst hrr
      rw [hr] at hr2
      obtain rfl := Option.some.inj hr2
      refine ⟨a, ha, ?_, ?_⟩
      · rw [h2, List.mem_range'_1]; omega
      · rw [h5, ← h8, ← hd']
        have : min (off T (r' + 1)) (J^[k + 1 + 1] (off T r')) - J^[k + 1] (off T r') ≠ 0 := by omega
        obtain ⟨m, hm⟩ := Nat.exists_eq_succ_of_ne_zero this
        rw [hm]
        rfl

/-- The result in terms of the jumps. -/
theorem stateBatches_eq (T : List (List (List (Arc W)))) (hn : T.flatten.length ≤ intMax) (dest : List Nat)
    (dst : Nat → Nat) (hde : destStates (flat T) = some dest) (hd : Top.DestOk T dest dst) :
    ((∀ lp0, stateBatches lp0 (flat T) = none) ∧ ¬ Forward T dst) ∨
    ∃ J, Jumps T.flatten.length J ∧ Lowest T dst J ∧ Forward T dst ∧
      ∀ lp0, stateBatches lp0 (flat T) =
        some (fullLayers 2 (allBatches T J : List (Nest Nat 2))) := by
  by_cases hf : Forward T dst
  · refine Or.inr ?_
    obtain ⟨row0, h0⟩ := (jumps_iff T dest dst hd hn).mpr hf
    obtain ⟨h1, h2, h3⟩ := jumps_spec T dest dst hd hn row0 h0
    refine ⟨_, h1, h3, hf, ?_⟩
    intro lp0
    generalize (fun s => row0.getD s intMax) = J at h1 h2 h3
    obtain ⟨rows, h4, _, h5⟩ := powers_eq h1 (logPower ((T.map List.length).foldr max 0) lp0) 1 row0 (by omega) h2
    have hR : Rows T.flatten.length J (logPower ((T.map List.length).foldr max 0) lp0) rows :=
      ⟨fun m hm => by simpa using h5 m hm⟩
    have h6 := batchInfo_eq T h1 _ rows hR
    have h7 := batchSplits_eq T h1 (2 ^ logPower ((T.map List.length).foldr max 0) lp0) (Nat.two_pow_pos _)
    have h8 : maxSize (flat T).sp1 = some ((T.map List.length).foldr max 0) := maxSize_psum _
    have h9 := rowSplitsToRowIds_psum ((allBatches T J).map List.length)
    have h10 := rowSplitsToRowIds_psum ((allBatches T J).flatten.map List.length)
    have h11 : ((allBatches T J).flatten.map List.length).sum = T.flatten.length := by
      rw [← List.length_flatten, allBatches_flatten T h1, List.length_range]
    rw [h11] at h10
    have h12 := flat_id1_length T
    unfold stateBatches
    simp only [hde, h0, h8, h4, h6, h7, h9, h10, h12, Option.bind_eq_bind, Option.bind_some]
    have a1 := fullLayers_succ 1 (allBatches T J : List (List (Nest Nat 1)))
    have a2 := fullLayers_succ 0 ((allBatches T J).flatten : List (List (Nest Nat 0)))
    congr 1
    refine Eq.trans ?_ a1.symm
    refine congrArg (List.cons _) ?_
    exact a2.symm
  · refine Or.inl ⟨fun lp0 => ?_, hf⟩
    have h0 : jumps (flat T) (monotonicLowerBound dest) = none := by
      cases hj : jumps (flat T) (monotonicLowerBound dest) with
      | none => rfl
      | some row0 => exact absurd ((jumps_iff T dest dst hd hn).mp ⟨row0, hj⟩) hf
    unfold stateBatches
    simp only [hde, h0, Option.bind_eq_bind, Option.bind_some, Option.bind_none]

theorem forward_iff (T : List (List (List (Arc W)))) (dst : Nat → Nat) (hA : Top.ArcsOk T dst) :
    Forward T dst ↔ ∀ f ∈ T, ∀ a ∈ f.flatten, a.src < a.dst := by
  constructor
  · intro h f hf a ha
    obtain ⟨r, hr⟩ := List.getElem?_of_mem hf
    obtain ⟨_, _, j, hj, h1, h2⟩ := hA.out r f a hr ha
    have := h j hj
    omega
  · intro h j hj
    obtain ⟨r, f, a, hr, ha, h1, h2⟩ := hA.back j hj
    have := h f (List.mem_of_getElem? hr) a ha
    omega

theorem exchanged_spec (B : List (List (List Nat))) :
    Exchanged B (swapAxes (longest B) (padRows (longest B) B)) := by
  have hreg := padRows_regular _ B (fun row hr => le_longest B row hr)
  have hlen : (padRows (longest B) B).length = B.length := by simp [padRows]
  obtain ⟨h1, h2⟩ := swapAxes_regular _ _ hreg
  refine ⟨fun row hrow => by rw [h1 row hrow, hlen], ?_, ?_⟩
  · intro r k bs row hr hk
    have hkl : k < longest B := by have := (List.getElem?_eq_some_iff.mp hk).1; omega
    have hp : (padRows (longest B) B)[r]? = some (bs ++ List.replicate (longest B - bs.length) []) := by
      rw [padRows, List.getElem?_map, hr]; rfl
    obtain ⟨row', h3, h4, _⟩ := swapAxes_get _ _ hreg r k _ hp hkl
    rw [hk] at h3
    obtain rfl := Option.some.inj h3
    rw [h4]
    by_cases hc : k < bs.length
    · rw [List.getElem?_append_left hc, List.getElem?_eq_getElem hc]; rfl
    · have := le_longest B bs (List.mem_of_getElem? hr)
      rw [List.getElem?_append_right (by omega), List.getElem?_replicate, if_pos (by omega),
        List.getElem?_eq_none (by omega)]
      rfl
  · intro bs hbs
    rw [h2]
    exact le_longest B bs hbs

theorem transposed_eq (B : List (List (List Nat))) (n : Nat) (hB : B.flatten.flatten = List.range n) :
    (do let p ← makeTransposable (fullLayers 2 (B : List (Nest Nat 2)))
        transpose p) =
      some (fullLayers 2 (swapAxes (longest B) (padRows (longest B) B) : List (Nest Nat 2)),
        (swapAxes (longest B) (padRows (longest B) B)).flatten.flatten) := by
  have h1 : makeTransposable (fullLayers 2 (B : List (Nest Nat 2))) = _ := makeTransposable_spec 0 B
  rw [h1]
  simp only [Option.bind_eq_bind, Option.bind_some]
  have hreg := padRows_regular _ B (fun row hr => le_longest B row hr)
  by_cases hne : B = []
  · subst hne
    decide
  · have hne' : padRows (longest B) B ≠ [] := by
      intro hc
      have := congrArg List.length hc
      rw [padRows, List.length_map, List.length_nil] at this
      exact hne (List.length_eq_zero_iff.mp this)
    obtain ⟨elems, h2, h3⟩ := transpose_spec 0 (α := Nat) (padRows (longest B) B) _ hreg hne'
    refine h2.trans ?_
    congr 2
    have h4 : valuesOf (0 + 2) (padRows (longest B) B : List (Nest Nat 2)) = List.range n :=
      (padRows_flatten _ B).trans hB
    have h5 : valuesOf (0 + 2) (swapAxes (longest B) (padRows (longest B) B) : List (Nest Nat 2)) =
      (swapAxes (longest B) (padRows (longest B) B)).flatten.flatten := rfl
    rw [h4, h5] at h3
    generalize (swapAxes (longest B) (padRows (longest B) B)).flatten.flatten = vs at h3
    apply List.ext_getElem?
    intro i
    have h6 := congrArg (fun l => l[i]?) h3
    simp only [List.getElem?_map] at h6
    cases he : elems[i]? with
    | none =>
      cases hv : vs[i]? with
      | none => rfl
      | some v => rw [he, hv] at h6; simp at h6
    | some e =>
      cases hv : vs[i]? with
      | none => rw [he, hv] at h6; simp at h6
      | some v =>
        rw [he, hv] at h6
        simp only [Option.map_some, Option.some.injEq] at h6
        have := List.getElem?_eq_some_iff.mp h6
        obtain ⟨h7, h8⟩ := this
        rw [List.getElem_range] at h8
        rw [h8]

end Bat
open Bat

/-! ## The theorems -/

/-- `GetStateBatches` succeeds exactly on FSAs whose arcs go forward. -/
theorem stateBatches_succeeds_iff (lp0 : Nat) (T : List (List (List (Arc W)))) (hT : VecOk T)
    (hn : T.flatten.length ≤ intMax) :
    stateBatches lp0 (flat T) ≠ none ↔ ∀ f ∈ T, ∀ a ∈ f.flatten, a.src < a.dst := by
  obtain ⟨dest, dst, h1, h2, h3⟩ := Top.arcsOk_of_dest T hT
  rw [← forward_iff T dst h3]
  rcases stateBatches_eq T hn dest dst h1 h2 with ⟨h4, h5⟩ | ⟨J, _, _, h4, h5⟩
  · simp [h4 lp0, h5]
  · simp [h5 lp0, h4]

/-- The batches of `GetStateBatches(fsas, false)` are a valid schedule, and the same one on every device
(for all initial values of `log_power`). -/
theorem stateBatches_spec (T : List (List (List (Arc W)))) (hT : VecOk T)
    (hn : T.flatten.length ≤ intMax) (hf : ∀ f ∈ T, ∀ a ∈ f.flatten, a.src < a.dst) :
    ∃ B, BatchSchedule T B ∧ B.flatten.flatten = List.range T.flatten.length ∧
      ∀ lp0, stateBatches lp0 (flat T) = some (fullLayers 2 (B : List (Nest Nat 2))) := by
  obtain ⟨dest, dst, h1, h2, h3⟩ := Top.arcsOk_of_dest T hT
  rcases stateBatches_eq T hn dest dst h1 h2 with ⟨h4, h5⟩ | ⟨J, h6, h7, h4, h5⟩
  · exact absurd ((forward_iff T dst h3).mpr hf) h5
  · exact ⟨allBatches T J, schedule_of_jumps T dst J h3 h4 h6 h7, allBatches_flatten T h6, h5⟩

/-- The batches of `GetStateBatches(fsas, true)` are the same, with the batch as the first axis. -/
theorem stateBatchesT_spec (T : List (List (List (Arc W)))) (hT : VecOk T)
    (hn : T.flatten.length ≤ intMax) (hf : ∀ f ∈ T, ∀ a ∈ f.flatten, a.src < a.dst) :
    ∃ B C, BatchSchedule T B ∧ Exchanged B C ∧
      ∀ lp0, stateBatchesT lp0 (flat T) = some (fullLayers 2 (C : List (Nest Nat 2)), C.flatten.flatten) := by
  obtain ⟨B, h1, h2, h3⟩ := stateBatches_spec T hT hn hf
  refine ⟨B, _, h1, exchanged_spec B, fun lp0 => ?_⟩
  unfold stateBatchesT
  rw [h3 lp0]
  exact transposed_eq B _ h2

/-! ## Examples -/

/-- Two FSAs: a diamond with a bridge, and an FSA with one arc. -/
def batchExample : List (List (List (Arc Nat))) :=
  [[[⟨0, 1, 1, 1⟩, ⟨0, 2, 2, 1⟩], [⟨1, 3, 1, 1⟩], [⟨2, 3, 1, 1⟩], [⟨3, 4, -1, 0⟩], []],
   [[⟨0, 1, -1, 0⟩], []]]

theorem batchExample_ok : VecOk batchExample := by
  intro f hf
  rcases List.mem_cons.mp hf with rfl | hf
  · intro s row hs a ha
    match s with
    | 0 => simp at hs; subst hs; simp at ha; rcases ha with rfl | rfl <;> decide
    | 1 => simp at hs; subst hs; simp at ha; subst ha; decide
    | 2 => simp at hs; subst hs; simp at ha; subst ha; decide
    | 3 => simp at hs; subst hs; simp at ha; subst ha; decide
    | 4 => simp at hs; subst hs; simp at ha
    | s + 5 => simp at hs
  · simp at hf; subst hf
    intro s row hs a ha
    match s with
    | 0 => simp at hs; subst hs; simp at ha; subst ha; decide
    | 1 => simp at hs; subst hs; simp at ha
    | s + 2 => simp at hs

example : ∀ f ∈ batchExample, ∀ a ∈ f.flatten, a.src < a.dst := by decide

/-- The batches of the first FSA are [0], [1, 2], [3], [4], of the second [5], [6]. -/
example : stateBatches 4 (flat batchExample) =
    some [([0, 4, 6], [0, 0, 0, 0, 1, 1]), ([0, 1, 3, 4, 5, 6, 7], [0, 1, 1, 2, 3, 4, 5])] := by decide +kernel

example : stateBatchesT 0 (flat batchExample) =
    some ([([0, 2, 4, 6, 8], [0, 0, 1, 1, 2, 2, 3, 3]),
      ([0, 1, 2, 4, 5, 6, 6, 7, 7], [0, 1, 2, 2, 3, 4, 6])], [0, 5, 1, 2, 6, 3, 4]) := by decide +kernel

/-- An FSA with a self-loop is rejected. -/
example : stateBatches 0 (flat [[[(⟨0, 1, -1, 0⟩ : Arc Nat)], [⟨1, 1, 1, 0⟩]]]) = none := by decide +kernel

end Verif.Fsa
