import Verif.BeamSearch.Mass
import Mathlib.Data.List.Sort
import Mathlib.Algebra.Order.Ring.Nat

/-! C113, C114: greedy search and modified beam search of a transducer. -/

namespace Verif.BeamSearch

variable {F D P : Type}

/-- C113.  Greedy search over a batch returns for every utterance what greedy search of the utterance
by itself returns; padding frames and the other utterances do not matter. -/
theorem greedy_search_correct (net : Net F D P) (argmax : List P → Nat) (enc : Nat → Nat → F)
    {lens sorted : List Nat} (hs : IsSorted lens sorted) :
    greedySearch net argmax enc lens sorted = some ((List.range lens.length).map fun i =>
      (greedyHyp net argmax ((List.range (len lens i)).map (enc i))).drop net.ctx) :=
  greedySearch_eq net argmax enc hs

/-- C113.  The tokens are neither blank nor unk, and there is at most one per frame. -/
theorem greedy_tokens (net : Net F D P) (argmax : List P → Nat) (fs : List F) :
    ∃ ys, greedyHyp net argmax fs = List.replicate net.ctx net.blank ++ ys ∧ ys.length ≤ fs.length ∧
      ∀ t ∈ ys, t ≠ net.blank ∧ t ≠ net.unk := by
  induction fs using List.reverseRecOn with
  | nil => exact ⟨[], by simp [greedyHyp], by simp, by simp⟩
  | append_singleton fs f ih =>
    obtain ⟨ys, h1, h2, h3⟩ := ih
    have : greedyHyp net argmax (fs ++ [f]) = emit net (greedyHyp net argmax fs)
        (argmax (net.join f (net.decode (lastTokens net.ctx (greedyHyp net argmax fs))))) := by
      simp only [greedyHyp, List.foldl_append, List.foldl_cons, List.foldl_nil]
    rw [this]
    generalize argmax (net.join f (net.decode (lastTokens net.ctx (greedyHyp net argmax fs)))) = t
    rw [h1]
    simp only [emit]
    split
    · next ht =>
      refine ⟨ys ++ [t], by simp, by simp; omega, ?_⟩
      intro s hs
      rcases List.mem_append.1 hs with hs | hs
      · exact h3 s hs
      · rw [List.mem_singleton.1 hs]; exact ht
    · exact ⟨ys, rfl, by simp; omega, h3⟩

/-- C114.  Beam search over a batch returns for every utterance what beam search of the utterance by
itself returns, and fails exactly if one of them fails. -/
theorem beam_search_batch {Q : Type} [LT Q] [DecidableLT Q] [CommSemiring P] [LE P] (net : Net F D P)
    {env : Env P} (he : env.Ok) (norm : P → Nat → Q) {V : Nat} (m : Nat)
    (hV : ∀ f d, (net.join f d).length = V) (enc : Nat → Nat → F) {lens sorted : List Nat}
    (hs : IsSorted lens sorted) :
    beamSearch net env norm V m enc lens sorted = (List.range lens.length).mapM fun i =>
      beamResult net env norm V m ((List.range (len lens i)).map (enc i)) :=
  beamSearch_eq net he norm m hV enc hs

/-- All alignments of `n` frames. -/
def allAligns (V : Nat) : Nat → Finset (List Nat)
  | 0 => {[]}
  | n + 1 => (Finset.range V ×ˢ allAligns V n).image fun x => x.1 :: x.2

theorem mem_allAligns {V n : Nat} {a : List Nat} :
    a ∈ allAligns V n ↔ a.length = n ∧ ∀ t ∈ a, t < V := by
  induction n generalizing a with
  | zero => simp [allAligns]; rintro rfl; simp
  | succ n ih =>
    simp only [allAligns, Finset.mem_image, Finset.mem_product, Finset.mem_range, Prod.exists, ih]
    constructor
    · rintro ⟨t, b, ⟨h1, h2, h3⟩, rfl⟩
      refine ⟨by simp [h2], ?_⟩
      intro s hs
      rcases List.mem_cons.1 hs with rfl | hs
      · exact h1
      · exact h3 s hs
    · rintro ⟨h1, h2⟩
      cases a with
      | nil => simp at h1
      | cons t b =>
        exact ⟨t, b, ⟨h2 t (by simp), by simpa using h1, fun s hs => h2 s (List.mem_cons_of_mem _ hs)⟩,
          rfl⟩

/-- C114.  Different hypotheses have different tokens.  The score of a hypothesis is the total
probability of a set of alignments of its tokens (one token per frame, blank and unk are dropped): paths
are merged, no path is counted twice. -/
theorem beam_hyps_sum [CommSemiring P] [LE P] {net : Net F D P} {V m : Nat}
    (hV : ∀ f d, (net.join f d).length = V) {env : Env P} (he : env.Ok) {fs : List F}
    {r : List (Hyp P)} (hr : beamHyps net env V m fs = some r) :
    (r.map (·.ys)).Nodup ∧ ∀ h ∈ r, ∃ A ⊆ (allAligns V fs.length).filter
        (fun a => emitAll net (List.replicate net.ctx net.blank) a = h.ys),
      A.Nonempty ∧ h.prob = ∑ a ∈ A, alignProb net (List.replicate net.ctx net.blank) fs a := by
  obtain ⟨A, hA⟩ := beamHyps_kept hV he fs hr
  refine ⟨hA.nodup, fun h hh => ⟨A h.ys, ?_, hA.ne h hh, hA.sum h hh⟩⟩
  intro a ha
  obtain ⟨h1, h2, h3⟩ := hA.mem h hh a ha
  rw [Finset.mem_filter, mem_allAligns]
  exact ⟨⟨h1, h2⟩, h3⟩

theorem alignProb_nonneg [CommSemiring P] [PartialOrder P] [IsOrderedRing P] {net : Net F D P}
    (h0 : ∀ f d, ∀ x ∈ net.join f d, 0 ≤ x) :
    ∀ (fs : List F) (ys a : List Nat), 0 ≤ alignProb net ys fs a := by
  intro fs
  induction fs with
  | nil => intro ys a; cases a <;> simp [alignProb, zero_le_one]
  | cons f fs ih =>
    intro ys a
    cases a with
    | nil => simp [alignProb]
    | cons t a =>
      simp only [alignProb]
      apply mul_nonneg _ (ih _ _)
      simp only [tokenProb, List.getD]
      cases hg : (net.join f (net.decode (lastTokens net.ctx ys)))[t]? with
      | none => simp
      | some x => exact h0 _ _ x (List.mem_of_getElem? hg)

/-- C114.  The score of a hypothesis never exceeds the probability of its tokens. -/
theorem beam_hyps_le [CommSemiring P] [PartialOrder P] [IsOrderedRing P] {net : Net F D P} {V m : Nat}
    (hV : ∀ f d, (net.join f d).length = V) (h0 : ∀ f d, ∀ x ∈ net.join f d, 0 ≤ x) {env : Env P}
    (he : env.Ok) {fs : List F} {r : List (Hyp P)} (hr : beamHyps net env V m fs = some r) :
    ∀ h ∈ r, h.prob ≤ ∑ a ∈ (allAligns V fs.length).filter
        (fun a => emitAll net (List.replicate net.ctx net.blank) a = h.ys),
      alignProb net (List.replicate net.ctx net.blank) fs a := by
  intro h hh
  obtain ⟨A, hA, _, hs⟩ := (beam_hyps_sum hV he hr).2 h hh
  rw [hs]
  exact Finset.sum_le_sum_of_subset_of_nonneg hA fun a _ _ => alignProb_nonneg h0 _ _ _

/-- C114.  One frame: at most `m` hypotheses remain, and at least one; of the extensions of the
hypotheses by a token the `m` best are kept. -/
theorem beam_step_best [CommSemiring P] [LE P] {net : Net F D P} {V m : Nat}
    (hV : ∀ f d, (net.join f d).length = V) {env : Env P} (he : env.Ok) {fs : List F} {f : F}
    {hyps r : List (Hyp P)} (h : beamHyps net env V m fs = some hyps)
    (hr : beamStep net env V m f hyps = some r) :
    r.length ≤ m ∧ (0 < m → r ≠ []) ∧ ∃ top : List (P × Nat), top.length = m ∧
      (top.map (·.2)).Nodup ∧
      (∀ e ∈ top, ∃ x, (env.iter hyps)[e.2 / V]? = some x ∧ e.2 % V < V ∧
        e.1 = tokenProb net f x.ys (e.2 % V) * x.prob ∧ ∃ y ∈ r, y.ys = emit net x.ys (e.2 % V)) ∧
      ∀ i v, (scores net f (env.iter hyps))[i]? = some v → i ∉ top.map (·.2) → ∀ e ∈ top, v ≤ e.1 := by
  obtain ⟨A, hA⟩ := beamHyps_kept hV he fs h
  obtain ⟨_, h2, h3⟩ := beamStep_kept hV he hA hr
  refine ⟨h2, h3, ?_⟩
  simp only [beamStep, Option.bind_eq_some_iff, extend] at hr
  obtain ⟨top, htop, hr⟩ := hr
  refine ⟨top, he.topk_len _ _ _ htop, he.topk_nodup _ _ _ htop, ?_, he.topk_max _ _ _ htop⟩
  have hmem : ∀ (d : List (Hyp P)) (x : Hyp P) (ys : List Nat),
      (ys = x.ys ∨ ys ∈ d.map (·.ys)) → ys ∈ (addHyp env.dec x d).map (·.ys) := by
    intro d x ys
    induction d with
    | nil => intro h; simpa [addHyp] using h
    | cons z d ih =>
      intro h
      simp only [addHyp]
      split
      · next hk =>
        have := key_inj he.dec_inj he.dec_ne he.dec_dash hk
        simp only [List.map_cons, List.mem_cons] at h ⊢
        rcases h with h | h | h
        · left; rw [h, this]
        · left; exact h
        · right; exact h
      · simp only [List.map_cons, List.mem_cons] at h ⊢
        rcases h with h | h | h
        · right; exact ih (Or.inl h)
        · left; exact h
        · right; exact ih (Or.inr h)
  have hall : ∀ (top : List (P × Nat)) (d r : List (Hyp P)), top.foldlM (fun hyps' e =>
      match (env.iter hyps)[0 + e.2 / V]? with
      | none => none
      | some h => some (addHyp env.dec ⟨emit net h.ys (e.2 % V), e.1⟩ hyps')) d = some r →
      (∀ ys ∈ d.map (·.ys), ys ∈ r.map (·.ys)) ∧ ∀ e ∈ top, ∀ x, (env.iter hyps)[e.2 / V]? = some x →
        emit net x.ys (e.2 % V) ∈ r.map (·.ys) := by
    intro top
    induction top with
    | nil =>
      intro d r hr
      rw [List.foldlM_nil] at hr
      simp only [pure, Option.some.injEq] at hr
      rw [hr]
      exact ⟨fun _ h => h, by simp⟩
    | cons e top ih =>
      intro d r hr
      rw [List.foldlM_cons] at hr
      rw [Nat.zero_add] at hr
      cases hx : (env.iter hyps)[e.2 / V]? with
      | none => rw [hx] at hr; simp at hr
      | some x =>
        rw [hx] at hr
        obtain ⟨k1, k2⟩ := ih _ _ hr
        refine ⟨fun ys hys => k1 ys (hmem d _ ys (Or.inr hys)), ?_⟩
        intro e' he' x' hx'
        rcases List.mem_cons.1 he' with rfl | he'
        · rw [hx] at hx'
          simp only [Option.some.injEq] at hx'
          rw [← hx']
          exact k1 _ (hmem d _ _ (Or.inl rfl))
        · exact k2 e' he' x' hx'
  intro e hee
  obtain ⟨x, k1, k2, k3⟩ := scores_get hV f _ e.2 e.1 (he.topk_get m _ top htop e hee)
  refine ⟨x, k1, k2, k3, ?_⟩
  have := (hall top [] r hr).2 e hee x k1
  obtain ⟨y, hy, hy'⟩ := List.mem_map.1 this
  exact ⟨y, hy, hy'⟩

/-- C114.  The result is the hypothesis with the largest length-normalised score. -/
theorem beam_result_max {Q : Type} [LinearOrder Q] [CommSemiring P] [LE P] {net : Net F D P} {V m : Nat}
    {env : Env P} (he : env.Ok) {norm : P → Nat → Q} {fs : List F} {hyps : List (Hyp P)}
    (hr : beamHyps net env V m fs = some hyps) {ys : List Nat}
    (h : beamResult net env norm V m fs = some ys) :
    ∃ b ∈ hyps, ys = b.ys.drop net.ctx ∧ ∀ x ∈ hyps, norm x.prob x.ys.length ≤ norm b.prob b.ys.length := by
  simp only [beamResult, hr, Option.bind_some, Option.map_eq_some_iff] at h
  obtain ⟨b, hb, rfl⟩ := h
  have key : ∀ (l : List (Hyp P)) (c : Hyp P), let r := l.foldl (fun b x =>
      if norm b.prob b.ys.length < norm x.prob x.ys.length then x else b) c
      r ∈ c :: l ∧ ∀ x ∈ c :: l, norm x.prob x.ys.length ≤ norm r.prob r.ys.length := by
    intro l
    induction l with
    | nil => intro c; simp
    | cons y l ih =>
      intro c
      simp only [List.foldl_cons]
      split
      · next hlt =>
        obtain ⟨k1, k2⟩ := ih y
        refine ⟨List.mem_cons_of_mem _ k1, ?_⟩
        intro x hx
        rcases List.mem_cons.1 hx with rfl | hx
        · exact le_trans (le_of_lt hlt) (k2 y (by simp))
        · exact k2 x hx
      · next hlt =>
        obtain ⟨k1, k2⟩ := ih c
        refine ⟨?_, ?_⟩
        · rcases List.mem_cons.1 k1 with k1 | k1
          · rw [k1]; simp
          · exact List.mem_cons_of_mem _ (List.mem_cons_of_mem _ k1)
        · intro x hx
          rcases List.mem_cons.1 hx with rfl | hx
          · exact k2 _ (by simp)
          · rcases List.mem_cons.1 hx with rfl | hx
            · exact le_trans (not_lt.1 hlt) (k2 c (by simp))
            · exact k2 x (List.mem_cons_of_mem _ hx)
  cases hl : env.iter hyps with
  | nil => rw [hl] at hb; simp [mostProbable] at hb
  | cons c l =>
    rw [hl] at hb
    simp only [mostProbable, Option.some.injEq] at hb
    obtain ⟨k1, k2⟩ := key l c
    rw [hb] at k1 k2
    have hp := he.iter hyps
    rw [hl] at hp
    exact ⟨b, hp.mem_iff.1 k1, rfl, fun x hx => k2 x (hp.mem_iff.2 hx)⟩

/-- C114, where the code fails: `topk` is an error if `num_active_paths` exceeds the number of
extensions, which is the size of the vocabulary at the first frame. -/
theorem beam_too_many {Q : Type} [LT Q] [DecidableLT Q] [CommSemiring P] [LE P] {net : Net F D P}
    {V m : Nat} (hV : ∀ f d, (net.join f d).length = V) {env : Env P} (he : env.Ok) {norm : P → Nat → Q}
    (hm : V < m) (f : F) (fs : List F) : beamResult net env norm V m (f :: fs) = none := by
  have hs : beamStep net env V m f [⟨List.replicate net.ctx net.blank, 1⟩] = none := by
    simp only [beamStep]
    rw [he.topk_err]
    · rfl
    · rw [scores_length hV, (he.iter _).length_eq]
      simpa using hm
  simp only [beamResult, beamHyps, List.foldlM_cons]
  rw [hs]
  rfl

/-- C114.  With at most as many active paths as tokens, and at least one, beam search succeeds. -/
theorem beam_succeeds [CommSemiring P] [LE P] {net : Net F D P}
    {V m : Nat} (hV : ∀ f d, (net.join f d).length = V) {env : Env P} (he : env.Ok)
    (hm0 : 0 < m) (hm : m ≤ V) (fs : List F) :
    ∃ r, beamHyps net env V m fs = some r ∧ r ≠ [] := by
  induction fs using List.reverseRecOn with
  | nil => exact ⟨_, rfl, by simp⟩
  | append_singleton fs f ih =>
    obtain ⟨hyps, h1, h2⟩ := ih
    have hlen : m ≤ (scores net f (env.iter hyps)).length := by
      rw [scores_length hV, (he.iter hyps).length_eq]
      have : 1 ≤ hyps.length := List.length_pos_iff.2 h2
      calc m ≤ V := hm
        _ = 1 * V := (Nat.one_mul V).symm
        _ ≤ hyps.length * V := Nat.mul_le_mul_right V this
    obtain ⟨top, htop⟩ := he.topk_ok m _ hlen
    have hex : ∃ r, extend net env V 0 (env.iter hyps) top = some r := by
      have hin : ∀ e ∈ top, ∃ x, (env.iter hyps)[e.2 / V]? = some x := by
        intro e hee
        obtain ⟨x, k1, _⟩ := scores_get hV f _ e.2 e.1 (he.topk_get m _ top htop e hee)
        exact ⟨x, k1⟩
      clear htop
      simp only [extend]
      generalize ([] : List (Hyp P)) = d
      induction top generalizing d with
      | nil => exact ⟨d, rfl⟩
      | cons e top ih =>
        obtain ⟨x, hx⟩ := hin e (by simp)
        rw [List.foldlM_cons, Nat.zero_add, hx]
        exact ih (fun e' he' => hin e' (List.mem_cons_of_mem _ he')) _
    obtain ⟨r, hr⟩ := hex
    have hstep : beamStep net env V m f hyps = some r := by
      simp only [beamStep, htop, Option.bind_some, hr]
    refine ⟨r, ?_, ?_⟩
    · simp only [beamHyps] at h1
      simp only [beamHyps, List.foldlM_append, List.foldlM_cons, List.foldlM_nil, h1, Option.bind_some,
        bind, hstep, pure]
    · obtain ⟨A, hA⟩ := beamHyps_kept hV he fs h1
      exact (beamStep_kept hV he hA hstep).2.2 hm0

/-! ### Examples -/

/-- An environment that satisfies the assumptions: `topk` by sorting, traversal in order of insertion. -/
def sortEnv : Env Nat where
  dec := fun n => List.replicate (n + 1) 'x'
  iter := id
  topk := fun m l =>
    if m ≤ l.length then some ((l.zipIdx.insertionSort fun a b => b.1 ≤ a.1).take m) else none

theorem sortEnv_ok : sortEnv.Ok where
  dec_inj := by
    intro a b h
    have := congrArg List.length h
    simpa [sortEnv] using this
  dec_ne := by intro a; simp [sortEnv, List.replicate_succ]
  dec_dash := by
    intro a h
    have := List.eq_of_mem_replicate h
    simp at this
  iter := fun l => List.Perm.refl l
  topk_err := by
    intro m l h
    simp only [sortEnv]
    rw [if_neg (by omega)]
  topk_ok := by
    intro m l h
    simp only [sortEnv]
    rw [if_pos h]
    exact ⟨_, rfl⟩
  topk_len := by
    intro m l top h
    simp only [sortEnv] at h
    split at h
    · simp only [Option.some.injEq] at h
      rw [← h, List.length_take, List.length_insertionSort, List.length_zipIdx]
      omega
    · simp at h
  topk_get := by
    intro m l top h e he
    simp only [sortEnv] at h
    split at h
    · simp only [Option.some.injEq] at h
      rw [← h] at he
      have := (List.perm_insertionSort (fun a b : Nat × Nat => b.1 ≤ a.1) l.zipIdx).mem_iff.1
        (List.mem_of_mem_take he)
      rwa [List.mem_zipIdx_iff_getElem?] at this
    · simp at h
  topk_nodup := by
    intro m l top h
    simp only [sortEnv] at h
    split at h
    · simp only [Option.some.injEq] at h
      rw [← h, List.map_take]
      refine List.Nodup.sublist (List.take_sublist _ _) ?_
      rw [((List.perm_insertionSort (fun a b : Nat × Nat => b.1 ≤ a.1) l.zipIdx).map _).nodup_iff,
        List.zipIdx_map_snd]
      exact List.nodup_range'
    · simp at h
  topk_max := by
    intro m l top h i x hx hi e he
    simp only [sortEnv] at h
    split at h
    · simp only [Option.some.injEq] at h
      have hp := List.perm_insertionSort (fun a b : Nat × Nat => b.1 ≤ a.1) l.zipIdx
      have hm : (x, i) ∈ l.zipIdx.insertionSort fun a b => b.1 ≤ a.1 :=
        hp.mem_iff.2 (by rw [List.mem_zipIdx_iff_getElem?]; exact hx)
      have hsort : (l.zipIdx.insertionSort fun a b => b.1 ≤ a.1).Pairwise fun a b => b.1 ≤ a.1 := by
        have : Std.Total (fun a b : Nat × Nat => b.1 ≤ a.1) := ⟨fun a b => Nat.le_total _ _⟩
        have : IsTrans (Nat × Nat) (fun a b : Nat × Nat => b.1 ≤ a.1) :=
          ⟨fun a b c h1 h2 => Nat.le_trans h2 h1⟩
        exact List.pairwise_insertionSort _ _
      rw [← List.take_append_drop m (l.zipIdx.insertionSort fun a b => b.1 ≤ a.1)] at hm hsort
      rw [h] at hm hsort
      rcases List.mem_append.1 hm with hm | hm
      · exact absurd (List.mem_map.2 ⟨_, hm, rfl⟩) hi
      · exact (List.pairwise_append.1 hsort).2.2 e he _ hm
    · simp at h

/-- A network with three tokens (0 is blank) whose scores depend on the frame and on the last token. -/
def demo : Net Nat Nat Nat where
  decode := fun c => c.sum
  join := fun f d => [1 + d, 2 + f, 3]
  blank := 0
  unk := 0
  ctx := 1

/-- Utterances of lengths 1 and 3, in a batch. -/
def demoArgmax (l : List Nat) : Nat := l.idxOf (l.foldr max 0)

example : IsSorted [1, 3] [1, 0] ∧
    greedySearch demo demoArgmax (fun k t => k + t) [1, 3] [1, 0] = some [[2], [1, 1, 1]] := by
  refine ⟨⟨by decide, by decide⟩, by decide⟩

example : ∀ f d, (demo.join f d).length = 3 := fun _ _ => rfl

/-- The same, with a larger score of blank. -/
def demoBlank : Net Nat Nat Nat := { demo with join := fun f d => [4 + d, 2 + f, 3] }

/-- Two alignments of the token 2 are merged: blank first, and blank last. -/
example : (beamHyps demoBlank sortEnv 3 3 [0, 0]).map (fun l => l.map fun h => (h.ys, h.prob)) =
    some [([0, 2], 4 * 3 + 3 * 6), ([0], 4 * 4)] := by
  decide

example : beamSearch demo sortEnv (fun p n => p * 10 / n) 3 2 (fun k t => k + t) [1, 3] [1, 0] =
    some [[2], [1, 1, 1]] := by
  decide

end Verif.BeamSearch
