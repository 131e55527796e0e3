import Verif.Fsa.TopSort.Steps

/-!
The initial degrees and batch, and the loop of `TopSort`.
-/

namespace Verif.Fsa.Top
open Verif.Ragged Verif.Util
variable {W X : Type}

/-! ## Initial degrees -/

theorem countLoop_eq (xs ans : List Nat) (h : ∀ x ∈ xs, x < ans.length) :
    ∃ out, countLoop xs ans = some out ∧ out.length = ans.length ∧
      ∀ d n, ans[d]? = some n → out[d]? = some (n + xs.count d) := by
  induction xs generalizing ans with
  | nil => exact ⟨ans, rfl, rfl, by simp⟩
  | cons x xs ih =>
    have hx := h x List.mem_cons_self
    obtain ⟨out, h1, h2, h3⟩ := ih (ans.set x (ans[x] + 1))
      (fun y hy => by rw [List.length_set]; exact h y (List.mem_cons_of_mem _ hy))
    refine ⟨out, ?_, by rw [h2, List.length_set], ?_⟩
    · rw [countLoop]
      simp only [List.getElem?_eq_getElem hx, Option.bind_eq_bind, Option.bind_some, h1]
    · intro d n hd
      by_cases he : d = x
      · subst he
        rw [List.getElem?_eq_getElem hx] at hd
        rw [h3 d _ (List.getElem?_set_self hx), List.count_cons_self, Option.some.inj hd]
        congr 1; omega
      · rw [h3 d n (by rw [List.getElem?_set_ne (Ne.symm he)]; exact hd),
          List.count_cons_of_ne (Ne.symm he)]

/-- The final states of the FSAs `rs`. -/
def finals (T : List (List (List X))) (rs : List Nat) : List Nat :=
  rs.flatMap (fun r => if off T r < off T (r + 1) then [off T (r + 1) - 1] else [])

theorem finals_lt (T : List (List (List X))) (r : Nat) (hr : r < T.length) (h : off T r < off T (r + 1)) :
    off T (r + 1) - 1 < T.flatten.length ∧ keyOf T (off T (r + 1) - 1) = r := by
  have hf := List.getElem?_eq_getElem hr
  rw [off_succ T r _ hf] at h ⊢
  have h1 := off_lt T r (T[r].length - 1) _ hf (by omega)
  have h2 := keyOf_off T r (T[r].length - 1) _ hf (by omega)
  rw [show off T r + (T[r].length - 1) = off T r + T[r].length - 1 from by omega] at h1 h2
  exact ⟨h1, h2⟩

theorem incFinals_eq (T : List (List (List (Arc W)))) (rs deg : List Nat) (hrs : ∀ r ∈ rs, r < T.length)
    (hl : deg.length = T.flatten.length) :
    incFinals (flat T).sp1 rs deg = countLoop (finals T rs) deg := by
  induction rs generalizing deg with
  | nil => rfl
  | cons r rs ih =>
    have hr := hrs r List.mem_cons_self
    have hrs' : ∀ r ∈ rs, r < T.length := fun x hx => hrs x (List.mem_cons_of_mem _ hx)
    rw [incFinals]
    simp only [flat_sp1 T r (by omega), flat_sp1 T (r + 1) (by omega), Option.bind_eq_bind, Option.bind_some]
    by_cases h : off T r < off T (r + 1)
    · have hlt := (finals_lt T r hr h).1
      rw [if_pos h, show finals T (r :: rs) = (off T (r + 1) - 1) :: finals T rs from by
        simp [finals, h], countLoop]
      simp only [List.getElem?_eq_getElem (show off T (r + 1) - 1 < deg.length by omega),
        Option.bind_eq_bind, Option.bind_some]
      exact ih _ hrs' (by rw [List.length_set, hl])
    · rw [if_neg h, show finals T (r :: rs) = finals T rs from by simp [finals, h]]
      exact ih _ hrs' hl

theorem finals_count (T : List (List (List X))) (d : Nat) (hd : d < T.flatten.length) :
    (finals T (List.range T.length)).count d = fin T d := by
  obtain ⟨r0, f, s, hf, hs, rfl⟩ := state_pos T d hd
  have hkey := keyOf_off T r0 s f hf hs
  have hr0 := (List.getElem?_eq_some_iff.mp hf).1
  have hsucc := off_succ T r0 f hf
  have key : ∀ rs : List Nat, rs.Nodup → (∀ r ∈ rs, r < T.length) →
      (finals T rs).count (off T r0 + s) = if r0 ∈ rs then fin T (off T r0 + s) else 0 := by
    intro rs hnd hrs
    induction rs with
    | nil => simp [finals]
    | cons r rs ih =>
      obtain ⟨hr, hnd⟩ := List.nodup_cons.mp hnd
      have ih := ih hnd (fun x hx => hrs x (List.mem_cons_of_mem _ hx))
      have hrl := hrs r List.mem_cons_self
      rw [show finals T (r :: rs) = (if off T r < off T (r + 1) then [off T (r + 1) - 1] else []) ++
        finals T rs from by simp [finals], List.count_append, ih]
      by_cases he : r = r0
      · subst he
        rw [if_neg hr, if_pos List.mem_cons_self, if_pos (by omega), fin, hkey, hsucc]
        by_cases h2 : s + 1 = f.length
        · rw [if_pos (by omega), show off T r + f.length - 1 = off T r + s from by omega]; simp
        · rw [if_neg (by omega), List.count_cons_of_ne (by omega)]; simp
      · have h0 : (if off T r < off T (r + 1) then [off T (r + 1) - 1] else []).count (off T r0 + s) = 0 := by
          split
          · next h =>
            rw [List.count_cons_of_ne, List.count_nil]
            intro hc
            have := (finals_lt T r hrl h).2
            rw [hc, hkey] at this
            exact he this.symm
          · rfl
        rw [h0, Nat.zero_add]
        have : (r0 ∈ r :: rs) ↔ r0 ∈ rs := by
          rw [List.mem_cons]; constructor
          · rintro (h | h)
            · exact absurd h.symm he
            · exact h
          · exact Or.inr
        simp only [this]
  rw [key _ List.nodup_range (fun r hr => List.mem_range.mp hr), if_pos (List.mem_range.mpr hr0)]

theorem initDegrees_eq (T : List (List (List (Arc W)))) (dest : List Nat) (dst : Nat → Nat)
    (hd : DestOk T dest dst) : initDegrees (flat T) dest = some (degs T dst []) := by
  set M := T.flatten.flatten.length with hM
  set keep := (List.range M).map (fun j => decide (dst j ≠ srcOf T j)) with hkeep
  have hkl : keep.length = M := by simp [hkeep]
  have f1 : keepNonLoop (flat T) dest = some keep := by
    unfold keepNonLoop
    apply mapM_some_of
    · simp [hkeep, hM, flat]
    · intro i b hb
      obtain ⟨hlt, hb⟩ := List.getElem?_eq_some_iff.mp hb
      rw [List.getElem_range] at hb; subst hb; rw [List.length_range] at hlt
      have hlt : i < M := hlt
      simp only [hd.get i hlt, id2_get T i hlt, Option.bind_eq_bind, Option.bind_some]
      rw [hkeep, List.getElem?_map, List.getElem?_range hlt]; rfl
  have hsel : sel keep (List.range keep.length) = (List.range M).filter (fun j => decide (dst j ≠ srcOf T j)) := by
    rw [hkl, hkeep]; exact sel_filter _ _
  set K := (List.range M).filter (fun j => decide (dst j ≠ srcOf T j)) with hK
  have f2 : new2old keep = some K := by rw [new2old_spec, hsel]
  have f3 : gather dest K = some (K.map dst) := by
    unfold gather
    apply mapM_some_of
    · simp
    · intro i j hj
      have : j < M := List.mem_range.mp (List.mem_of_mem_filter (List.mem_of_getElem? hj))
      rw [hd.get j this, List.getElem?_map, hj]; rfl
  have hin : ∀ x ∈ K.map dst, x < (List.replicate (flat T).id1.length 0).length := by
    intro x hx
    obtain ⟨j, hj, rfl⟩ := List.mem_map.mp hx
    rw [List.length_replicate, flat_id1_length]
    exact hd.lt j (List.mem_range.mp (List.mem_of_mem_filter hj))
  obtain ⟨deg, f4, l4, p4⟩ := countLoop_eq _ _ hin
  rw [List.length_replicate, flat_id1_length] at l4
  have hin2 : ∀ x ∈ finals T (List.range T.length), x < deg.length := by
    intro x hx
    obtain ⟨r, hr, hx⟩ := List.mem_flatMap.mp hx
    rw [l4]
    split at hx
    · next h => rw [List.mem_singleton.mp hx]; exact (finals_lt T r (List.mem_range.mp hr) h).1
    · simp at hx
  obtain ⟨deg2, f5, l5, p5⟩ := countLoop_eq _ _ hin2
  have f6 : incFinals (flat T).sp1 (List.range ((flat T).sp1.length - 1)) deg = some deg2 := by
    rw [flat_sp1_length, Nat.add_sub_cancel, incFinals_eq T _ _ (fun r hr => List.mem_range.mp hr) l4, f5]
  unfold initDegrees
  simp only [f1, f2, f3, f4, f6, Option.bind_eq_bind, Option.bind_some]
  congr 1
  apply degs_of_get
  · rw [l5, l4]
  · intro d hlt
    have h0 : (List.replicate (flat T).id1.length 0)[d]? = some 0 := by
      rw [List.getElem?_replicate, if_pos (by rw [flat_id1_length]; exact hlt)]
    rw [p5 d _ (p4 d 0 h0), finals_count T d hlt]
    congr 2
    rw [Nat.zero_add, List.count, List.countP_map, hK, List.countP_filter, into]
    apply List.countP_congr
    intro j _
    simp only [Function.comp_apply, List.not_mem_nil, not_false_eq_true, and_true, decide_eq_true_iff,
      Bool.and_eq_true, beq_iff_eq]
    constructor
    · rintro ⟨rfl, h⟩; exact ⟨rfl, Ne.symm h⟩
    · rintro ⟨rfl, h⟩; exact ⟨rfl, Ne.symm h⟩

/-- The states of the first batch. -/
def firstStates (T : List (List (List X))) (dst : Nat → Nat) : List Nat :=
  (List.range T.flatten.length).filter (fun d => decide (into T dst [] d + fin T d = 0))

theorem initialBatch_eq (T : List (List (List (Arc W)))) (dst : Nat → Nat) :
    initialBatch (flat T) (degs T dst []) = some (batchOf (keyOf T) T.length (firstStates T dst)) := by
  set B := firstStates T dst with hB
  have hasc : Asc T B := asc_filter T _
  have f1 : new2old ((degs T dst []).map (fun n => decide (n = 0))) = some B := by
    rw [new2old_spec, degs, List.map_map, List.length_map, List.length_range, hB, firstStates]
    congr 1
    exact sel_filter _ _
  have f2 : gather (flat T).id1 B = some (B.map (keyOf T)) := by
    unfold gather
    apply mapM_some_of
    · simp
    · intro i j hj
      rw [id1_get T j (hasc.mem j (List.mem_of_getElem? hj)), List.getElem?_map, hj]; rfl
  have hnf : (flat T).sp1.length - 1 = T.length := by rw [flat_sp1_length]; rfl
  unfold initialBatch
  simp only [f1, f2, hnf, Option.bind_eq_bind, Option.bind_some]
  exact mkBatch_eq _ _ _ hasc.keys hasc.key_lt

/-! ## The loop -/

theorem into_mono (T : List (List (List X))) (dst : Nat → Nat) (S S' : List Nat) (h : ∀ v ∈ S, v ∈ S') (d : Nat) :
    into T dst S' d ≤ into T dst S d := by
  unfold into
  apply List.countP_mono_left
  intro j _ hj
  rw [decide_eq_true_iff] at hj ⊢
  exact ⟨hj.1, hj.2.1, fun hc => hj.2.2 (h _ hc)⟩

/-- What the batches of the loop have in common. -/
structure Layers (T : List (List (List X))) (dst : Nat → Nat) (S : List Nat) (Bs : List (List Nat)) : Prop where
  asc : ∀ B ∈ Bs, Asc T B
  nodup : (S ++ Bs.flatten).Nodup
  /-- The loop stops when no further state can be processed. -/
  done : ∀ v < T.flatten.length, (into T dst (S ++ Bs.flatten) v + fin T v = 0 ↔ v ∈ S ++ Bs.flatten)
  /-- When a state is in a batch, the states before it are in earlier batches. -/
  earlier : ∀ Xs B Ys, Bs = Xs ++ B :: Ys → ∀ v ∈ B, into T dst (S ++ Xs.flatten) v + fin T v = 0

theorem topLoop_eq (T : List (List (List (Arc W)))) (dest : List Nat) (dst : Nat → Nat)
    (hd : DestOk T dest dst) (fuel : Nat) (S B : List Nat) (hB : Asc T B) (hdis : ∀ v ∈ B, v ∉ S) (hS : S.Nodup)
    (hSlt : ∀ v ∈ S, v < T.flatten.length)
    (hinv : ∀ v < T.flatten.length, (into T dst S v + fin T v = 0 ↔ v ∈ S ++ B))
    (hfuel : T.flatten.length < fuel + S.length + B.length) :
    ∃ Bs, (∀ sched : Nat → Nat → List Nat, (∀ k n, (sched k n).Perm (List.range n)) →
      topLoop (flat T) dest sched fuel (degs T dst S) (batchOf (keyOf T) T.length B) =
        some ((B :: Bs).map (batchOf (keyOf T) T.length))) ∧ Layers T dst S (B :: Bs) := by
  induction fuel generalizing S B with
  | zero =>
    exfalso
    have hnd : (S ++ B).Nodup := List.nodup_append.mpr ⟨hS, hB.nodup, fun a ha b hb h => hdis b hb (h ▸ ha)⟩
    have hsub : (S ++ B).Subperm (List.range T.flatten.length) := by
      apply List.subperm_of_subset hnd
      intro v hv
      rcases List.mem_append.mp hv with hv | hv
      · exact List.mem_range.mpr (hSlt v hv)
      · exact List.mem_range.mpr (hB.mem v hv)
    have := hsub.length_le
    rw [List.length_append, List.length_range] at this
    omega
  | succ fuel ih =>
    have hnd : (S ++ B).Nodup := List.nodup_append.mpr ⟨hS, hB.nodup, fun a ha b hb h => hdis b hb (h ▸ ha)⟩
    have hlt' : ∀ v ∈ S ++ B, v < T.flatten.length := by
      intro v hv
      rcases List.mem_append.mp hv with hv | hv
      · exact hSlt v hv
      · exact hB.mem v hv
    have hzero : ∀ v, into T dst S v + fin T v = 0 → into T dst (S ++ B) v + fin T v = 0 := by
      intro v h
      have := into_mono T dst S (S ++ B) (fun v hv => List.mem_append_left _ hv) v
      omega
    have hinv' : ∀ v < T.flatten.length, (into T dst (S ++ B) v + fin T v = 0 ↔
        v ∈ (S ++ B) ++ fresh T dst S B) := by
      intro v hv
      rw [List.mem_append, ← hinv v hv, fresh_mem]
      constructor
      · intro h
        by_cases h0 : into T dst S v + fin T v = 0
        · exact Or.inl h0
        · exact Or.inr ⟨hv, h0, h⟩
      · rintro (h | h)
        · exact hzero v h
        · exact h.2.2
    by_cases hf : fresh T dst S B = []
    · refine ⟨[], ?_, ?_⟩
      · intro sched hs
        rw [topLoop]
        simp only [nextBatch_eq T dest dst hd (sched fuel) (hs fuel) S B hB hdis, Option.bind_eq_bind,
          Option.bind_some]
        rw [if_pos hf]; rfl
      rw [hf, List.append_nil] at hinv'
      refine ⟨by simpa using hB, by simpa using hnd, by simpa using hinv', ?_⟩
      intro Xs B' Ys he v hv
      cases Xs with
      | nil =>
        obtain ⟨rfl, rfl⟩ : B = B' ∧ [] = Ys := by simpa using he
        rw [List.flatten_nil, List.append_nil]
        exact (hinv v (hB.mem v hv)).mpr (List.mem_append_right _ hv)
      | cons x Xs => simp at he
    · have hfa : Asc T (fresh T dst S B) := asc_filter T _
      have hfd : ∀ v ∈ fresh T dst S B, v ∉ S ++ B := by
        intro v hv hc
        rw [fresh_mem] at hv
        exact hv.2.1 ((hinv v hv.1).mpr hc)
      have hpos : 0 < (fresh T dst S B).length := List.length_pos_iff.mpr hf
      obtain ⟨Bs, h1, h2⟩ := ih (S ++ B) (fresh T dst S B) hfa hfd hnd hlt' hinv'
        (by rw [List.length_append]; omega)
      refine ⟨fresh T dst S B :: Bs, ?_, ?_⟩
      · intro sched hs
        rw [topLoop]
        simp only [nextBatch_eq T dest dst hd (sched fuel) (hs fuel) S B hB hdis, Option.bind_eq_bind,
          Option.bind_some]
        rw [if_neg hf]
        simp only [h1 sched hs, Option.bind_some]; rfl
      · have hfl : S ++ (B :: fresh T dst S B :: Bs).flatten = (S ++ B) ++ (fresh T dst S B :: Bs).flatten := by
          simp
        refine ⟨?_, by rw [hfl]; exact h2.nodup, by rw [hfl]; exact h2.done, ?_⟩
        · intro b hb
          rcases List.mem_cons.mp hb with rfl | hb
          · exact hB
          · exact h2.asc b hb
        · intro Xs B' Ys he v hv
          cases Xs with
          | nil =>
            obtain ⟨rfl, _⟩ : B = B' ∧ fresh T dst S B :: Bs = Ys := by simpa using he
            rw [List.flatten_nil, List.append_nil]
            exact (hinv v (hB.mem v hv)).mpr (List.mem_append_right _ hv)
          | cons x Xs =>
            obtain ⟨rfl, he'⟩ : B = x ∧ fresh T dst S B :: Bs = Xs ++ B' :: Ys := by simpa using he
            have := h2.earlier Xs B' Ys he' v hv
            rw [List.flatten_cons, ← List.append_assoc]
            exact this

/-- The whole loop: the batches do not depend on the orders of the threads. -/
theorem batches_eq (T : List (List (List (Arc W)))) (dest : List Nat) (dst : Nat → Nat)
    (hd : DestOk T dest dst) :
    ∃ Bs, (∀ sched : Nat → Nat → List Nat, (∀ k n, (sched k n).Perm (List.range n)) →
      topLoop (flat T) dest sched (T.flatten.length + 1) (degs T dst [])
        (batchOf (keyOf T) T.length (firstStates T dst)) =
        some (Bs.map (batchOf (keyOf T) T.length))) ∧ Layers T dst [] Bs ∧
      Bs.head? = some (firstStates T dst) := by
  obtain ⟨Bs, h1, h2⟩ := topLoop_eq T dest dst hd (T.flatten.length + 1) [] (firstStates T dst)
    (asc_filter T _) (by simp) (by simp) (by simp)
    (by
      intro v hv
      rw [List.nil_append, firstStates, List.mem_filter, List.mem_range, decide_eq_true_iff]
      exact ⟨fun h => ⟨hv, h⟩, fun h => h.2⟩)
    (by omega)
  exact ⟨_, h1, h2, rfl⟩

end Verif.Fsa.Top
