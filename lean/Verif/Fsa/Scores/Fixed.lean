import Verif.Fsa.Scores.Vec

/-!
# Forward and backward scores satisfy their recursions
-/

namespace Verif.Fsa.Sco
open Verif.Ragged Verif.Util Verif.Fsa.Bat Verif.Fsa.Top
variable {W K X : Type}

theorem initScores_eq (T : List (List (List (Arc W)))) (bot one : K) (pos : Nat → Nat → Nat)
    (hpos : ∀ b e, b < e → b ≤ pos b e ∧ pos b e < e) :
    ∃ init, initScores (flat T) bot one pos = some init ∧ init.length = T.flatten.length ∧
      ∀ (r s : Nat) (f : List (List (Arc W))), T[r]? = some f → s < f.length →
        init[off T r + s]? = some (if off T r + s = pos (off T r) (off T r + f.length) then one else bot) := by
  set P : Nat → Nat := fun r => pos (off T r) (off T (r + 1)) with hP
  have h1 : (List.range ((flat T).sp1.length - 1)).mapM (fun r => (do
      let b ← (flat T).sp1[r]?
      let e ← (flat T).sp1[r + 1]?
      some (if b < e then [(pos b e, one)] else []))) =
      some ((List.range T.length).map (fun r => if off T r < off T (r + 1) then [(P r, one)] else [])) := by
    apply mapM_some_of
    · simp [flat_sp1_length]
    · intro i b hb
      obtain ⟨hlt, hb⟩ := List.getElem?_eq_some_iff.mp hb
      rw [List.getElem_range] at hb; subst hb
      rw [List.length_range, flat_sp1_length, Nat.add_sub_cancel] at hlt
      have e1 := flat_sp1 T i (by omega)
      have e2 := flat_sp1 T (i + 1) (by omega)
      simp only [e1, e2, Option.bind_eq_bind, Option.bind_some]
      rw [List.getElem?_map, List.getElem?_range hlt]
      rfl
  have hfilt : ∀ l : List Nat, ((l.map (fun r => if off T r < off T (r + 1) then [(P r, one)] else [])).flatten).map Prod.fst =
      (l.filter (fun r => decide (off T r < off T (r + 1)))).map P := by
    intro l
    induction l with
    | nil => rfl
    | cons r l ih =>
      rw [List.map_cons, List.flatten_cons, List.map_append, ih, List.filter_cons]
      by_cases h : off T r < off T (r + 1)
      · rw [if_pos h, if_pos (by simpa using h)]; rfl
      · rw [if_neg h, if_neg (by simpa using h)]; rfl
  have hmemw : ∀ (g : Nat) (x : K), (g, x) ∈ ((List.range T.length).map (fun r =>
      if off T r < off T (r + 1) then [(P r, one)] else [])).flatten ↔
      x = one ∧ ∃ r < T.length, off T r < off T (r + 1) ∧ g = P r := by
    intro g x
    rw [List.mem_flatten]
    constructor
    · rintro ⟨l, hl, hx⟩
      obtain ⟨r, hr, rfl⟩ := List.mem_map.mp hl
      split at hx
      · next h0 =>
        simp only [List.mem_singleton, Prod.mk.injEq] at hx
        exact ⟨hx.2, r, List.mem_range.mp hr, h0, hx.1⟩
      · simp at hx
    · rintro ⟨rfl, r, hr, h0, rfl⟩
      exact ⟨_, List.mem_map.mpr ⟨r, List.mem_range.mpr hr, rfl⟩, by rw [if_pos h0]; simp⟩
  obtain ⟨init, g1, g2, g3, g4⟩ := writeAll_eq (List.replicate (flat T).id1.length bot)
    ((List.range T.length).map (fun r => if off T r < off T (r + 1) then [(P r, one)] else [])).flatten (by
      rw [hfilt, List.nodup_map_iff_inj_on (List.nodup_range.filter _)]
      intro a ha c hc hac
      simp only [List.mem_filter, List.mem_range, decide_eq_true_eq] at ha hc
      have h2 := hpos _ _ ha.2
      have h3 := hpos _ _ hc.2
      by_contra hne
      rcases Nat.lt_or_gt_of_ne hne with h | h
      · have := off_mono T (show a + 1 ≤ c by omega)
        simp only [hP] at hac
        omega
      · have := off_mono T (show c + 1 ≤ a by omega)
        simp only [hP] at hac
        omega) (by
      rintro ⟨g, x⟩ hw
      obtain ⟨_, r, hr, h0, rfl⟩ := (hmemw g x).mp hw
      have h2 := hpos _ _ h0
      have h3 := off_mono T (show r + 1 ≤ T.length by omega)
      rw [off_length] at h3
      rw [List.length_replicate, flat_id1_length]
      show pos (off T r) (off T (r + 1)) < _
      omega)
  refine ⟨init, ?_, ?_, ?_⟩
  · unfold initScores
    rw [h1]
    exact g1
  · rw [g2, List.length_replicate, flat_id1_length]
  · intro r s f hf hs
    have hrl := (List.getElem?_eq_some_iff.mp hf).1
    have ho := off_succ T r f hf
    split
    · next h0 =>
      refine g3 _ _ ((hmemw _ _).mpr ⟨rfl, r, hrl, by omega, ?_⟩)
      rw [h0]
      show _ = pos (off T r) (off T (r + 1))
      rw [ho]
    · next h0 =>
      rw [g4, List.getElem?_replicate, if_pos (by rw [flat_id1_length]; exact off_lt T r s f hf hs)]
      rw [hfilt]
      intro hc
      obtain ⟨r', hr', he⟩ := List.mem_map.mp hc
      obtain ⟨h5, h6⟩ := List.mem_filter.mp hr'
      have h6' : off T r' < off T (r' + 1) := by simpa using h6
      have h7 := hpos _ _ h6'
      have hr'l := List.mem_range.mp h5
      have hf' := List.getElem?_eq_getElem hr'l
      have ho' := off_succ T r' _ hf'
      have he' : pos (off T r') (off T (r' + 1)) = off T r + s := he
      obtain ⟨rfl, _⟩ := off_inj T r' r (pos (off T r') (off T (r' + 1)) - off T r') s _ f hf' hf (by omega) hs (by omega)
      apply h0
      rw [← ho, he']

theorem isStart_eq (T : List (List (List (Arc W)))) (r s : Nat) (f : List (List (Arc W))) (hf : T[r]? = some f)
    (hs : s < f.length) : isStart (flat T) (off T r + s) = some (decide (s = 0)) := by
  have hrl := (List.getElem?_eq_some_iff.mp hf).1
  have e1 := flat_id1 T r s f hf hs
  have e2 := flat_sp1 T r (by omega)
  unfold isStart
  simp only [e1, e2, Option.bind_eq_bind, Option.bind_some, Option.some.injEq]
  rw [Bool.eq_iff_iff]
  simp

theorem isFinal_eq (T : List (List (List (Arc W)))) (r s : Nat) (f : List (List (Arc W))) (hf : T[r]? = some f)
    (hs : s < f.length) : isFinal (flat T) (off T r + s) = some (decide (s + 1 = f.length)) := by
  have hrl := (List.getElem?_eq_some_iff.mp hf).1
  have e1 := flat_id1 T r s f hf hs
  have e2 := flat_sp1_succ T r f hf
  unfold isFinal
  simp only [e1, e2, Option.bind_eq_bind, Option.bind_some, Option.some.injEq]
  rw [Bool.eq_iff_iff]
  simp
  omega

theorem before_mem {is is1 is2 : List Nat} {i k : Nat} {rel : Nat → Nat → Prop} (hp : is.Pairwise rel)
    (hasym : ∀ a b, rel a b → ¬ rel b a) (he : is = is1 ++ i :: is2) (hk : k ∈ is) (hr : rel k i) : k ∈ is1 := by
  subst he
  rcases List.mem_append.mp hk with h | h
  · exact h
  · rw [List.pairwise_append, List.pairwise_cons] at hp
    rcases List.mem_cons.mp h with rfl | h
    · exact absurd hr (hasym _ _ hr)
    · exact absurd (hp.2.1.1 k h) (hasym _ _ hr)

/-- A score extended by arc `j`. -/
def arcExt (mul : K → W → K) (T : List (List (List (Arc W)))) (x : K) (j : Nat) : K :=
  match T.flatten.flatten[j]? with
  | some a => mul x a.score
  | none => x

theorem rows_range (L : List (List X)) :
    ((List.range L.length).map (fun g => List.range' ((L.take g).flatten.length) (L.getD g []).length)).flatten =
      List.range L.flatten.length := by
  induction L using List.reverseRecOn with
  | nil => rfl
  | append_singleton L row ih =>
    rw [List.length_append, List.length_singleton, List.range_succ, List.map_append, List.flatten_append,
      List.map_singleton, List.flatten_singleton, List.flatten_append, List.flatten_singleton, List.length_append]
    have e1 : (List.range L.length).map (fun g => List.range' (((L ++ [row]).take g).flatten.length)
        ((L ++ [row]).getD g []).length) =
        (List.range L.length).map (fun g => List.range' ((L.take g).flatten.length) (L.getD g []).length) := by
      apply List.map_congr_left
      intro g hg
      have hg := List.mem_range.mp hg
      rw [List.take_append_of_le_length (by omega), List.getD_eq_getElem?_getD, List.getD_eq_getElem?_getD,
        List.getElem?_append_left hg]
    rw [e1, ih, List.take_left, List.getD_eq_getElem?_getD, List.getElem?_append_right (by omega), Nat.sub_self]
    show _ ++ List.range' _ row.length = _
    rw [List.range_eq_range', List.range_eq_range', ← List.range'_append_1, Nat.zero_add]

theorem numBatches_eq (C : List (List (List Nat))) :
    numBatches (fullLayers 2 (C : List (Nest Nat 2))) = C.length := by
  rw [fullLayers_succ]
  simp only [numBatches]
  rw [psum_length, List.length_map]
  rfl

/-- The batch of the source of an arc comes before that of its destination. -/
theorem batch_lt {T : List (List (List (Arc W)))} {B : List (List (List Nat))} (hB : BatchSchedule T B)
    (hT : VecOk T) (hfw : ∀ f ∈ T, ∀ a ∈ f.flatten, a.src < a.dst) (dest : List Nat)
    (hde : destStates (flat T) = some dest) (j : Nat) (hj : j < T.flatten.flatten.length) (k k' : Nat) {g : Nat}
    (hk : InBatch B k (srcOf T j)) (hd : dest[j]? = some g) (hk' : InBatch B k' g) : k < k' := by
  obtain ⟨r, f, i, a, h1, h2, rfl⟩ := arc_global T j hj
  obtain ⟨_, _, h5, h6, h7, h8⟩ := arc_local T hT dest hde r i f a h1 h2
  rw [hd] at h6
  obtain rfl := Option.some.inj h6
  rw [h5] at hk
  obtain ⟨r1, bs1, b1, g1, g2, g3⟩ := hk
  obtain ⟨r2, bs2, b2, g4, g5, g6⟩ := hk'
  obtain ⟨f1, s1, i1, i2, i3⟩ := inBatch_fsa hB g1 g2 g3
  obtain ⟨f2, s2, i4, i5, i6⟩ := inBatch_fsa hB g4 g5 g6
  obtain ⟨rfl, _⟩ := off_inj T r r1 a.src s1 f f1 h1 i1 h7 i2 i3
  obtain ⟨rfl, _⟩ := off_inj T r r2 a.dst s2 f f2 h1 i4 h8 i5 i6
  rw [g1] at g4
  obtain rfl := Option.some.inj g4
  exact hB.arcs r f bs1 h1 g1 a (List.mem_of_getElem? h2) k k' b1 b2 g2 g5 g3 g6

/-- The arcs into each state. -/
theorem entering_mem (T : List (List (List (Arc W)))) (hT : VecOk T) (dest : List Nat)
    (hde : destStates (flat T) = some dest) (r s : Nat) (f : List (List (Arc W))) (hf : T[r]? = some f)
    (hs : s < f.length) (j : Nat) : j ∈ positions dest 0 (off T r + s) ↔
      ∃ k a, f.flatten[k]? = some a ∧ decide (a.dst = s) = true ∧ j = base T r + k := by
  rw [positions_mem]
  have hlen : dest.length = T.flatten.flatten.length := by
    obtain ⟨dest', h1, h2, _⟩ := destStates_spec T hT
    rw [hde] at h1
    obtain rfl := Option.some.inj h1
    exact h2
  constructor
  · intro h
    have hj := (List.getElem?_eq_some_iff.mp h).1
    obtain ⟨r', f', k, a, h1, h2, rfl⟩ := arc_global T j (by omega)
    obtain ⟨_, _, _, h6, _, h7⟩ := arc_local T hT dest hde r' k f' a h1 h2
    rw [h] at h6
    obtain ⟨rfl, rfl⟩ := off_inj T r r' s a.dst f f' hf h1 hs h7 (Option.some.inj h6)
    rw [hf] at h1
    obtain rfl := Option.some.inj h1
    exact ⟨k, a, h2, by simp, rfl⟩
  · rintro ⟨k, a, h1, h2, rfl⟩
    obtain ⟨_, _, _, h6, _, _⟩ := arc_local T hT dest hde r k f a hf h1
    rw [h6, of_decide_eq_true h2]

/-- The arcs out of each state. -/
theorem leaving_mem (T : List (List (List (Arc W)))) (hT : VecOk T) (r s : Nat) (f : List (List (Arc W)))
    (hf : T[r]? = some f) (row : List (Arc W)) (hrow : f[s]? = some row) (j : Nat) :
    j ∈ List.range' (apos T (off T r + s)) row.length ↔
      ∃ k a, f.flatten[k]? = some a ∧ decide (a.src = s) = true ∧ j = base T r + k := by
  obtain ⟨dest, hde, _, _⟩ := destStates_spec T hT
  have hs := (List.getElem?_eq_some_iff.mp hrow).1
  have hg := state_at T r s f hf hs
  rw [hrow] at hg
  rw [List.mem_range'_1]
  constructor
  · rintro ⟨h1, h2⟩
    obtain ⟨i, rfl⟩ := Nat.exists_eq_add_of_le h1
    have hi : i < row.length := by omega
    have e1 := srcOf_apos T _ i row hg hi
    have e2 := flat_arc T _ i row hg hi
    rw [List.getElem?_eq_getElem hi] at e2
    obtain ⟨r', f', k, a, h3, h4, h5⟩ := arc_global T _ (List.getElem?_eq_some_iff.mp e2).1
    obtain ⟨_, _, h6, _, h7, _⟩ := arc_local T hT dest hde r' k f' a h3 h4
    rw [← h5, e1] at h6
    obtain ⟨rfl, rfl⟩ := off_inj T r r' s a.src f f' hf h3 hs h7 h6
    rw [hf] at h3
    obtain rfl := Option.some.inj h3
    exact ⟨k, a, h4, by simp, h5⟩
  · rintro ⟨k, a, h1, h2, rfl⟩
    obtain ⟨h3, _, h4, _, _, _⟩ := arc_local T hT dest hde r k f a hf h1
    rw [of_decide_eq_true h2] at h4
    have e0 := apos_le_iff T (off T r + s) (base T r + k) h3
    have e1 := apos_succ T _ row hg
    have e2 := apos_le_iff T (off T r + s + 1) (base T r + k) h3
    rw [h4] at e0 e2
    omega

/-- The sweep over all batches. -/
theorem sweep_all [DecidableEq K] (mul : K → W → K) (op : K → K → K) (bot : K)
    (T : List (List (List (Arc W)))) {B C : List (List (List Nat))} (hB : BatchSchedule T B) (hC : Exchanged B C)
    (R : List (List Nat)) (oth : Nat → Nat) (keep : Nat → Option Bool) (other : Nat → Option Nat)
    (kp : Nat → Bool) (init : List K) (hil : init.length = T.flatten.length)
    (hkeep : ∀ g < T.flatten.length, keep g = some (kp g))
    (harc : ∀ g < T.flatten.length, ∀ j ∈ R.getD g [], j < T.flatten.flatten.length ∧ other j = some (oth j) ∧
      oth j < T.flatten.length)
    (is : List Nat) (his : is.Perm (List.range C.length)) (rel : Nat → Nat → Prop)
    (hasym : ∀ a b, rel a b → ¬ rel b a) (hpw : is.Pairwise rel)
    (hdep : ∀ g < T.flatten.length, ∀ j ∈ R.getD g [], ∀ k k', InBatch B k g → InBatch B k' (oth j) → rel k' k) :
    ∃ out, is.foldlM (fun cur i => sweepBatch (flat T) mul op bot other keep (fullLayers 2 (C : List (Nest Nat 2)))
          C.flatten.flatten (psum ((rowsOf R C.flatten.flatten).map List.length),
            (rowsOf R C.flatten.flatten).flatten) cur i) init = some out ∧ out.length = T.flatten.length ∧
        (∀ g < T.flatten.length,
          out.getD g bot = stepScore op bot R oth (arcExt mul T) kp (init.getD · bot) (out.getD · bot) g) := by
  have hmem : ∀ (l : List Nat) (g : Nat), g ∈ (l.map (fun i => (C.map List.flatten).getD i [])).flatten ↔
      ∃ i ∈ l, InBatch B i g := by
    intro l g
    rw [List.mem_flatten]
    constructor
    · rintro ⟨b, hb, hg⟩
      obtain ⟨i, hi, rfl⟩ := List.mem_map.mp hb
      exact ⟨i, hi, (mem_batch hC i g).mp hg⟩
    · rintro ⟨i, hi, hg⟩
      exact ⟨_, List.mem_map.mpr ⟨i, hi, rfl⟩, (mem_batch hC i g).mpr hg⟩
  have hin : ∀ k g, InBatch B k g → k ∈ is := by
    intro k g h
    exact his.mem_iff.mpr (List.mem_range.mpr (inBatch_lt_C hB hC h))
  obtain ⟨out, h1, h2, h3⟩ := sweep_eq (flat T) mul op bot other keep R C T.flatten.length oth (arcExt mul T) kp init
    hkeep (by
      intro g hg j hj
      obtain ⟨h1, h2, h3⟩ := harc g hg j hj
      have e : (flat T).arcs[j]? = some (T.flatten.flatten[j]) := List.getElem?_eq_getElem h1
      refine ⟨_, e, ?_, h2, h3⟩
      intro x
      unfold arcExt
      rw [List.getElem?_eq_getElem h1]) is [] init
    (fun i hi => List.mem_range.mp (his.mem_iff.mp hi))
    (by
      rw [List.nil_append]
      exact batches_nodup hB hC is (his.nodup_iff.mpr List.nodup_range))
    (by
      intro g hg
      obtain ⟨i, _, hg⟩ := (hmem is g).mp hg
      exact inBatch_lt hB hg)
    (by
      intro is1 is2 i he g hg j hj
      have hg' := (mem_batch hC i g).mp hg
      have hgl := inBatch_lt hB hg'
      obtain ⟨k', hk'⟩ := inBatch_exists hB (oth j) (harc g hgl j hj).2.2
      rw [List.nil_append, hmem]
      exact ⟨k', before_mem hpw hasym he (hin _ _ hk') (hdep g hgl j hj i k' hg' hk'), hk'⟩)
    hil (by simp) (by simp) (by simp)
  refine ⟨out, h1, h2, ?_⟩
  intro g hg
  apply h3
  rw [List.nil_append, hmem]
  obtain ⟨k, hk⟩ := inBatch_exists hB g hg
  exact ⟨k, hin _ _ hk, hk⟩

/-- The batches of entering arcs. -/
theorem entering_setup (T : List (List (List (Arc W)))) (hT : VecOk T) (hn : T.flatten.length ≤ intMax)
    (hfw : ∀ f ∈ T, ∀ a ∈ f.flatten, a.src < a.dst) :
    ∃ (B C : List (List (List Nat))) (dest : List Nat) (R : List (List Nat)), BatchSchedule T B ∧ Exchanged B C ∧
      (∀ lp0, stateBatchesT lp0 (flat T) = some (fullLayers 2 (C : List (Nest Nat 2)), C.flatten.flatten)) ∧
      destStates (flat T) = some dest ∧
      enteringBatches (flat T) C.flatten.flatten =
        some (psum ((rowsOf R C.flatten.flatten).map List.length), (rowsOf R C.flatten.flatten).flatten) ∧
      (∀ g < T.flatten.length, R.getD g [] = positions dest 0 g) ∧
      (∀ g < T.flatten.length, ∀ j ∈ R.getD g [], j < T.flatten.flatten.length ∧
        srcState (flat T) j = some (srcOf T j) ∧ srcOf T j < T.flatten.length) ∧
      (∀ g < T.flatten.length, ∀ j ∈ R.getD g [], ∀ k k', InBatch B k g → InBatch B k' (srcOf T j) → k' < k) := by
  obtain ⟨B, C, hB, hC, hsb⟩ := stateBatchesT_spec T hT hn hfw
  obtain ⟨dest, dst, hde, hd, hA⟩ := arcsOk_of_dest T hT
  have hvlt : ∀ v ∈ dest, v < T.flatten.length := by
    intro v hv
    obtain ⟨j, hj⟩ := List.getElem?_of_mem hv
    have hjl := (List.getElem?_eq_some_iff.mp hj).1
    rw [hd.length] at hjl
    rw [hd.get j hjl] at hj
    obtain rfl := Option.some.inj hj
    exact hd.lt j hjl
  have hinc := incomingArcs_eq dest T.flatten.length hvlt
  set R := buckets dest T.flatten.length with hR
  have hRl : R.length = T.flatten.length := by simp [hR, buckets]
  have hRget : ∀ g < T.flatten.length, R.getD g [] = positions dest 0 g := by
    intro g hg
    rw [List.getD_eq_getElem?_getD, hR, buckets_get _ _ _ hg]; rfl
  have hRM : R.flatten.length = T.flatten.flatten.length := by
    have h1 : R.flatten.Perm (List.range T.flatten.flatten.length) := by
      refine (List.perm_ext_iff_of_nodup ?_ List.nodup_range).mpr ?_
      · rw [List.nodup_flatten]
        constructor
        · intro l hl
          obtain ⟨g, hg, rfl⟩ := List.mem_map.mp (by rw [hR, buckets] at hl; exact hl)
          exact positions_nodup dest g
        · rw [hR, buckets, List.pairwise_map]
          refine List.Pairwise.imp ?_ List.nodup_range
          intro a b hab j hj1 hj2
          rw [positions_mem] at hj1 hj2
          rw [hj1] at hj2
          exact hab (Option.some.inj hj2)
      · intro j
        rw [List.mem_flatten, List.mem_range]
        constructor
        · rintro ⟨l, hl, hj⟩
          obtain ⟨g, hg, rfl⟩ := List.mem_map.mp (by rw [hR, buckets] at hl; exact hl)
          rw [positions_mem] at hj
          have := (List.getElem?_eq_some_iff.mp hj).1
          rwa [hd.length] at this
        · intro hj
          refine ⟨positions dest 0 (dst j), ?_, ?_⟩
          · rw [hR, buckets]
            exact List.mem_map.mpr ⟨dst j, List.mem_range.mpr (hd.lt j hj), rfl⟩
          · rw [positions_mem, hd.get j hj]
    rw [h1.length_eq, List.length_range]
  have hent : enteringBatches (flat T) C.flatten.flatten =
      some (psum ((rowsOf R C.flatten.flatten).map List.length), (rowsOf R C.flatten.flatten).flatten) := by
    unfold enteringBatches
    have e1 := flat_id1_length T
    simp only [hde, e1, hinc, Option.bind_eq_bind, Option.bind_some]
    apply arcBatches_eq
    · intro s hs
      rw [hRl]
      exact (mem_states hB hC s).mp hs
    · intro k hk
      rfl
    · rw [rowsOf_perm R _ (by rw [hRl]; exact states_perm hB hC), hRM]
      rfl
  refine ⟨B, C, dest, R, hB, hC, hsb, hde, hent, hRget, ?_, ?_⟩
  · intro g hg j hj
    rw [hRget g hg, positions_mem] at hj
    have hjl : j < T.flatten.flatten.length := by
      have := (List.getElem?_eq_some_iff.mp hj).1
      rwa [hd.length] at this
    obtain ⟨r, f, k, a, h1, h2, rfl⟩ := arc_global T j hjl
    obtain ⟨_, _, h5, h6, h7, h8⟩ := arc_local T hT dest hde r k f a h1 h2
    refine ⟨hjl, ?_, ?_⟩
    · exact id2_get T _ hjl
    · rw [h5]; exact off_lt T r _ f h1 h7
  · intro g hg j hj k k' hk hk'
    rw [hRget g hg, positions_mem] at hj
    have hjl : j < T.flatten.flatten.length := by
      have := (List.getElem?_eq_some_iff.mp hj).1
      rwa [hd.length] at this
    exact batch_lt hB hT hfw dest hde j hjl k' k hk' hj hk

section
variable [DecidableEq K] (mul : K → W → K) (op : K → K → K) (bot one : K)

/-- The forward recursion on one FSA. -/
def ForwardEq (f : List (List (Arc W))) (F : Nat → K) : Prop :=
  ∀ s < f.length, F s = if s = 0 then one else
    reduceRow op bot ((f.flatten.filter (fun a => decide (a.dst = s))).map (fun a => mul (F a.src) a.score))

/-- The backward recursion on one FSA. -/
def BackwardEq (f : List (List (Arc W))) (F : Nat → K) : Prop :=
  ∀ s < f.length, F s = if s + 1 = f.length then one else
    reduceRow op bot ((f.flatten.filter (fun a => decide (a.src = s))).map (fun a => mul (F a.dst) a.score))

variable (hop : ∀ l l' : List K, l.Perm l' → reduceRow op bot l = reduceRow op bot l')
  (T : List (List (List (Arc W)))) (hT : VecOk T) (hn : T.flatten.length ≤ intMax)
  (hfw : ∀ f ∈ T, ∀ a ∈ f.flatten, a.src < a.dst)
include hop hT hn hfw

theorem forward_fixed : ∃ out, (∀ lp0, forwardScores lp0 mul op bot one (flat T) = some out) ∧
    out.length = T.flatten.length ∧
    ∀ (r : Nat) (f : List (List (Arc W))), T[r]? = some f →
      ForwardEq mul op bot one f (fun s => out.getD (off T r + s) bot) := by
  obtain ⟨B, C, dest, R, hB, hC, hsb, hde, hent, hRget, harc, hdep⟩ := entering_setup T hT hn hfw
  obtain ⟨init, hi1, hi2, hi3⟩ := initScores_eq T bot one (fun b _ => b) (fun b e h => ⟨le_refl _, h⟩)
  obtain ⟨out, h1, h2, h3⟩ := sweep_all mul op bot T hB hC R (srcOf T) (isStart (flat T)) (srcState (flat T))
    (fun g => (isStart (flat T) g).getD false) init hi2 (by
      intro g hg
      obtain ⟨r, f, s, hf, hs, rfl⟩ := state_pos T g hg
      rw [isStart_eq T r s f hf hs]; rfl) harc (List.range C.length) (List.Perm.refl _) (· < ·)
      (fun a b h => by omega) List.pairwise_lt_range hdep
  refine ⟨out, ?_, h2, ?_⟩
  · intro lp0
    unfold forwardScores
    simp only [hsb lp0, hent, hi1, Option.bind_eq_bind, Option.bind_some]
    rw [numBatches_eq C]
    exact h1
  · intro r f hf s hs
    have hg := off_lt T r s f hf hs
    have e1 := h3 _ hg
    have hperm := arcs_perm T r f hf (R.getD (off T r + s) []) (by rw [hRget _ hg]; exact positions_nodup _ _)
      (fun a => decide (a.dst = s)) (by
        intro j; rw [hRget _ hg]; exact entering_mem T hT dest hde r s f hf hs j)
      (fun j => arcExt mul T (out.getD (srcOf T j) bot) j) (fun a => mul (out.getD (off T r + a.src) bot) a.score) (by
        intro k a ha
        obtain ⟨_, h4, h5, _⟩ := arc_local T hT dest hde r k f a hf ha
        show arcExt mul T _ _ = _
        rw [h5]
        unfold arcExt
        rw [h4])
    have e2 := hop _ _ hperm
    show out.getD (off T r + s) bot = _
    rw [e1]
    unfold stepScore
    have hk := isStart_eq T r s f hf hs
    simp only [hk]
    rw [e2]
    by_cases h0 : s = 0
    · subst h0
      have hnil : f.flatten.filter (fun a => decide (a.dst = 0)) = [] := by
        rw [List.filter_eq_nil_iff]
        intro a ha
        have := hfw f (List.mem_of_getElem? hf) a ha
        simp; omega
      rw [hnil, if_pos ⟨rfl, rfl⟩, if_pos rfl, List.getD_eq_getElem?_getD, hi3 r 0 f hf hs]
      simp
    · rw [if_neg (by simp [h0]), if_neg h0]

theorem backward_fixed : ∃ out, (∀ lp0, backwardScores lp0 mul op bot one (flat T) = some out) ∧
    out.length = T.flatten.length ∧
    ∀ (r : Nat) (f : List (List (Arc W))), T[r]? = some f →
      BackwardEq mul op bot one f (fun s => out.getD (off T r + s) bot) := by
  obtain ⟨B, C, hB, hC, hsb⟩ := stateBatchesT_spec T hT hn hfw
  obtain ⟨dest, dst, hde, hd, hA⟩ := arcsOk_of_dest T hT
  obtain ⟨init, hi1, hi2, hi3⟩ := initScores_eq T bot one (fun _ e => e - 1) (fun b e h => ⟨by omega, by omega⟩)
  set R := (List.range T.flatten.length).map (fun g => List.range' (apos T g) (T.flatten.getD g []).length) with hR
  have hRl : R.length = T.flatten.length := by simp [hR]
  have hRget : ∀ g < T.flatten.length, R.getD g [] = List.range' (apos T g) (T.flatten.getD g []).length := by
    intro g hg
    rw [List.getD_eq_getElem?_getD, hR, List.getElem?_map, List.getElem?_range hg]; rfl
  have hRlen : R.map List.length = T.flatten.map List.length := by
    apply List.ext_getElem?
    intro g
    by_cases hg : g < T.flatten.length
    · rw [hR, List.getElem?_map, List.getElem?_map, List.getElem?_range hg, List.getElem?_map,
        Option.map_some, Option.map_some, List.length_range', List.getD_eq_getElem?_getD,
        List.getElem?_eq_getElem hg]
      rfl
    · rw [List.getElem?_eq_none (by rw [List.length_map, hRl]; omega),
        List.getElem?_eq_none (by rw [List.length_map]; omega)]
  have hRfl : R.flatten = List.range T.flatten.flatten.length := by
    rw [← rows_range T.flatten, hR]
    congr 1
    apply List.map_congr_left
    intro g _
    have : apos T g = (T.flatten.take g).flatten.length := by
      rw [apos, sum_take]
    rw [this]
  have hlea : leavingBatches (flat T) C.flatten.flatten =
      some (psum ((rowsOf R C.flatten.flatten).map List.length), (rowsOf R C.flatten.flatten).flatten) := by
    unfold leavingBatches
    have e1 : (flat T).sp2 = psum (R.map List.length) := by rw [hRlen]; rfl
    rw [e1]
    apply arcBatches_eq
    · intro s hs
      rw [hRl]
      exact (mem_states hB hC s).mp hs
    · intro k hk
      rw [hRfl] at hk ⊢
      rw [List.length_range] at hk
      rw [List.getElem?_range hk]
    · rw [rowsOf_perm R _ (by rw [hRl]; exact states_perm hB hC), hRfl, List.length_range]
      rfl
  have hrowm : ∀ (r s : Nat) (f : List (List (Arc W))), T[r]? = some f → s < f.length → ∀ j,
      j ∈ R.getD (off T r + s) [] ↔
      ∃ k a, f.flatten[k]? = some a ∧ decide (a.src = s) = true ∧ j = base T r + k := by
    intro r s f hf hs j
    have hg := off_lt T r s f hf hs
    have e := state_at T r s f hf hs
    rw [hRget _ hg, List.getD_eq_getElem?_getD, e, List.getElem?_eq_getElem hs]
    exact leaving_mem T hT r s f hf _ (List.getElem?_eq_getElem hs) j
  obtain ⟨out, h1, h2, h3⟩ := sweep_all mul op bot T hB hC R dst (isFinal (flat T)) (destState (flat T))
    (fun g => (isFinal (flat T) g).getD false) init hi2 (by
      intro g hg
      obtain ⟨r, f, s, hf, hs, rfl⟩ := state_pos T g hg
      rw [isFinal_eq T r s f hf hs]; rfl) (by
      intro g hg j hj
      obtain ⟨r, f, s, hf, hs, rfl⟩ := state_pos T g hg
      obtain ⟨k, a, ha, _, rfl⟩ := (hrowm r s f hf hs j).mp hj
      obtain ⟨h4, h5, h6, h7, h8, h9⟩ := arc_local T hT dest hde r k f a hf ha
      refine ⟨h4, ?_, hd.lt _ h4⟩
      have e1 := id2_get T _ h4
      have e2 : (flat T).arcs[base T r + k]? = some a := h5
      unfold destState
      simp only [e1, e2, Option.bind_eq_bind, Option.bind_some]
      rw [← hd.get _ h4, h7, h6]
      congr 1; omega) (List.range C.length).reverse (List.reverse_perm _) (· > ·)
      (fun a b h => by omega) (by
        rw [List.pairwise_reverse]; exact List.pairwise_lt_range) (by
      intro g hg j hj k k' hk hk'
      obtain ⟨r, f, s, hf, hs, rfl⟩ := state_pos T g hg
      obtain ⟨i, a, ha, hsrc, rfl⟩ := (hrowm r s f hf hs j).mp hj
      obtain ⟨h4, h5, h6, h7, h8, h9⟩ := arc_local T hT dest hde r i f a hf ha
      exact batch_lt hB hT hfw dest hde _ h4 k k' (by rw [h6, of_decide_eq_true hsrc]; exact hk) (hd.get _ h4) hk')
  refine ⟨out, ?_, h2, ?_⟩
  · intro lp0
    unfold backwardScores
    simp only [hsb lp0, hlea, hi1, Option.bind_eq_bind, Option.bind_some]
    rw [numBatches_eq C]
    exact h1
  · intro r f hf s hs
    have hg := off_lt T r s f hf hs
    have e1 := h3 _ hg
    have hperm := arcs_perm T r f hf (R.getD (off T r + s) []) (by rw [hRget _ hg]; exact List.nodup_range' ..)
      (fun a => decide (a.src = s)) (hrowm r s f hf hs)
      (fun j => arcExt mul T (out.getD (dst j) bot) j) (fun a => mul (out.getD (off T r + a.dst) bot) a.score) (by
        intro k a ha
        obtain ⟨h4, h5, h6, h7, _⟩ := arc_local T hT dest hde r k f a hf ha
        rw [hd.get _ h4] at h7
        show arcExt mul T _ _ = _
        rw [Option.some.inj h7]
        unfold arcExt
        rw [h5])
    have e2 := hop _ _ hperm
    show out.getD (off T r + s) bot = _
    rw [e1]
    unfold stepScore
    have hk := isFinal_eq T r s f hf hs
    simp only [hk]
    rw [e2]
    by_cases h0 : s + 1 = f.length
    · have hnil : f.flatten.filter (fun a => decide (a.src = s)) = [] := by
        rw [List.filter_eq_nil_iff]
        intro a ha
        obtain ⟨i, hi⟩ := List.getElem?_of_mem ha
        obtain ⟨_, _, _, _, _, h9⟩ := arc_local T hT dest hde r i f a hf hi
        have := hfw f (List.mem_of_getElem? hf) a ha
        simp; omega
      rw [hnil, if_pos ⟨rfl, by simp [h0]⟩, if_pos h0, List.getD_eq_getElem?_getD, hi3 r s f hf hs, if_pos (by omega)]
      rfl
    · rw [if_neg (by simp [h0]), if_neg h0]

end

end Verif.Fsa.Sco
