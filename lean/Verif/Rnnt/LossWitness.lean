import Verif.Rnnt.LossSmoothed

/-!
# Pruning with the full range; concrete cases of the theorems on RNN-T losses
-/

namespace Verif.Rnnt

open Real

/-- C74.  With `s_range = S + 1` nothing is pruned: `rnnt_loss_pruned` is `rnnt_loss`. -/
theorem pruned_full {A L : Type} (ty : RnntType) (C : Nat) (symbols : List Nat) (term : Nat)
    (boundary : Option (Nat × Nat)) (delay : ℝ) (am : List A) (lm : List L)
    (hlm : lm.length = symbols.length + 1) (J : A → L → List ℝ)
    (hJ : ∀ a l, (J a l).length = C) :
    ∃ pruned, doPruning am lm
        (List.replicate am.length (rangeRow 0 (symbols.length + 1))) = some pruned ∧
      lossPruned false ty C symbols term
          (List.replicate am.length (rangeRow 0 (symbols.length + 1))) boundary delay
          (pruned.map (·.map fun q => J q.1 q.2)) =
        lossJoint ty C symbols term boundary delay (am.map fun a => lm.map (J a)) := by
  classical
  have hcons : Consecutive (List.replicate am.length (rangeRow 0 (symbols.length + 1))) am.length
      symbols.length (symbols.length + 1) (fun _ => 0) := by
    refine ⟨by simp, by omega, fun t ht => ⟨by simp [ht], le_rfl, by simp⟩⟩
  obtain ⟨pruned, -, -, hpr, -, -⟩ := logprobsPruned_entries softmaxAt (fun r => softmaxAt r term) J
    ty symbols term 0 am lm hlm (by omega) _ _ _ hcons
  refine ⟨pruned, hpr, ?_⟩
  have hlen : (pruned.map (·.map fun q => J q.1 q.2)).length = am.length := by
    rw [List.length_map]
    unfold doPruning at hpr
    split at hpr
    · rw [(Verif.Util.mapM_get hpr).1]; simp
    · exact absurd hpr (by simp)
  have hlen' : (am.map fun a => lm.map (J a)).length = am.length := by simp
  unfold lossPruned lossJoint
  simp only []
  rw [hlen, hlen']
  generalize boundary.getD (symbols.length, am.length) = b
  by_cases hc : (∀ c ∈ symbols, c < C) ∧ term < C ∧ boundsOk ty symbols.length am.length b.1 b.2
  · obtain ⟨h1, h2, hb⟩ := hc
    rw [if_pos, if_neg Bool.false_ne_true, if_pos]
    · obtain ⟨pruned', px, py, h3, h4, h5, h6⟩ := logprobsPruned_entries softmaxAt
        (fun r => softmaxAt r term) J ty symbols term b.2 am lm hlm hb.2.1 _ _ _ hcons
      rw [hpr] at h3
      obtain rfl := Option.some.inj h3
      rw [h4, Option.map_some]
      congr 1
      rw [lossOf_total, lossOf_total]
      have hin : ∀ t v, InR (List.replicate am.length (rangeRow 0 (symbols.length + 1))) b.2 t
          (v : Nat) ↔ t < b.2 ∧ v < symbols.length + 1 := by
        intro t v
        rw [hcons.inR hb.2.1]
        constructor
        · rintro ⟨a, _, c⟩; exact ⟨a, by omega⟩
        · rintro ⟨a, c⟩; exact ⟨a, by omega, by omega⟩
      have hS := hb.1
      refine total_congr _ _ _ _ _ _ _ ?_ ?_
      · intro s t hs ht
        rw [delayPx_eq, delayPx_eq]
        show px s t * _ = _
        rw [h5 s t (by omega) ht]
        split
        · rfl
        · rename_i hk
          have hT : ty = .regular ∧ t = b.2 := by
            by_contra hcon
            apply hk
            cases ty with
            | regular =>
              simp only [RnntType.isModified, Step.frames, Bool.false_eq_true, if_false] at ht
              have : t < b.2 := by
                rcases Nat.lt_or_ge t b.2 with h | h
                · exact h
                · exact absurd ⟨rfl, by omega⟩ hcon
              exact ⟨(hin t s).mpr ⟨this, by omega⟩, by simp⟩
            | modified =>
              simp only [RnntType.isModified, Step.frames, if_true] at ht
              exact ⟨(hin t s).mpr ⟨by omega, by omega⟩, by simp⟩
            | constrained =>
              simp only [RnntType.isModified, Step.frames, if_true] at ht
              exact ⟨(hin t s).mpr ⟨by omega, by omega⟩,
                fun _ => by simpa using (hin t (s + 1)).mpr ⟨by omega, by omega⟩⟩
          obtain ⟨rfl, rfl⟩ := hT
          simp [logprobsJoint, finishPx]
      · intro s t hs ht
        show py s t = _
        rw [h6 s t (by omega) ht, if_pos]
        exact (hin t s).mpr ⟨ht, by omega⟩
    · refine ⟨?_, h1, h2, hb⟩
      intro fr hfr
      obtain ⟨a, _, rfl⟩ := List.mem_map.mp hfr
      refine ⟨by simp [hlm], fun r hr => ?_⟩
      obtain ⟨l, _, rfl⟩ := List.mem_map.mp hr
      exact hJ _ _
    · refine ⟨?_, h1, h2, hb.1, hb.2.1, by simpa using hb.2.2⟩
      intro fr hfr r hr
      obtain ⟨f, _, rfl⟩ := List.mem_map.mp hfr
      obtain ⟨q, _, rfl⟩ := List.mem_map.mp hr
      exact hJ _ _
  · rw [if_neg, if_neg]
    · rintro ⟨_, h⟩; exact hc h
    · rintro ⟨_, h1, h2, h3, h4, h5⟩
      exact hc ⟨h1, h2, h3, h4, by simpa using h5⟩

/-! ## Concrete cases -/

/-- Two symbols, 0 ends the frame, one frame, all logits 0: the transcripts `[]` and `[1]` have
probability one together. -/
example : ∃ p : List Nat → ℝ,
    (∀ y ∈ ({[], [1]} : Finset (List Nat)), lossJoint .modified 2 (y ++ []) 0 (some (y.length, 1)) 0
      (logitsOf (fun _ _ => [0, 0]) 1 (y ++ [])) = some (p y)) ∧
    ∑ y ∈ ({[], [1]} : Finset (List Nat)), p y = 1 := by
  refine joint_distribution_exact 2 0 1 1 le_rfl (by norm_num) (fun _ _ => [0, 0])
    (fun _ _ => rfl) (fun _ => []) (by simp) _ ?_
  intro y
  rcases y with _ | ⟨c, _ | ⟨d, y⟩⟩
  · simp
  · simp; omega
  · simp

/-- A transcript may not contain the termination symbol: otherwise it is counted twice, and the
probabilities of `[]`, `[0]` and `[1]` add up to more than one. -/
theorem blank_in_transcript : ∃ p : List Nat → ℝ,
    (∀ y ∈ ({[], [0], [1]} : Finset (List Nat)), lossJoint .modified 2 y 0 (some (y.length, 1)) 0
      (logitsOf (fun _ _ => [0, 0]) 1 y) = some (p y)) ∧
    1 < ∑ y ∈ ({[], [0], [1]} : Finset (List Nat)), p y := by
  have hsm : ∀ c, c < 2 → softmaxAt [0, 0] c = 1 / 2 := by
    intro c hc
    rw [softmaxAt_eq (by simp)]
    have : c = 0 ∨ c = 1 := by omega
    rcases this with rfl | rfl <;> simp [Finset.sum_range_succ, ent] <;> norm_num
  have key : ∀ y : List Nat, y.length ≤ 1 → (∀ c ∈ y, c < 2) →
      lossJoint .modified 2 y 0 (some (y.length, 1)) 0 (logitsOf (fun _ _ => [0, 0]) 1 y) =
        some (1 / 2) := by
    intro y hy hc
    unfold lossJoint
    rw [if_pos]
    · simp only [Option.getD_some]
      rw [lossOf_total, delayPx_zero]
      have := joint_total .modified softmaxAt (fun r => softmaxAt r 0) (fun _ _ => [0, 0]) 1 1 le_rfl
        y []
      simp only [List.append_nil] at this
      congr 1
      rw [this]
      have h1 := rest_step true 1 (stepX .modified softmaxAt (fun r => softmaxAt r 0)
        (fun _ _ => [0, 0])) (fun _ _ => softmaxAt [0, 0] 0) y 0 0 (by omega) (by omega)
      rw [rest_end _ _ _ _ _ _ (by omega)] at h1
      have e : Step.X.frames true = 1 := rfl
      rw [e] at h1
      rcases y with _ | ⟨c, _ | ⟨d, y⟩⟩
      · simp [rest, hsm] at h1
        simpa [RnntType.isModified, hsm] using h1
      · rw [if_pos (by simp), rest_end _ _ _ _ _ _ (by simp)] at h1
        have hc' := hc c (by simp)
        simp [rest, stepX, hsm _ hc'] at h1
        simpa [RnntType.isModified, hsm] using h1
      · simp at hy
    · refine ⟨?_, hc, by norm_num, ?_⟩
      · intro fr hfr
        obtain ⟨t, _, rfl⟩ := List.mem_map.mp hfr
        refine ⟨by simp, fun r hr => ?_⟩
        obtain ⟨s, _, rfl⟩ := List.mem_map.mp hr
        rfl
      · exact ⟨by simp, by simp [logitsOf], Or.inr hy⟩
  refine ⟨fun _ => 1 / 2, ?_, ?_⟩
  · intro y hy
    apply key y
    · simp at hy; rcases hy with rfl | rfl | rfl <;> simp
    · simp at hy; rcases hy with rfl | rfl | rfl <;> simp
  · rw [Finset.sum_const]
    have : ({[], [0], [1]} : Finset (List Nat)).card = 3 := by decide
    rw [this]; norm_num

/-- The simple loss is the joint loss, on two frames, one symbol, three classes. -/
example : lossSimple 0 .regular 3 [2] 0 none 0 [[0, 1, 2], [3, 4, 5]] [[1, 0, 0], [0, 0, 1]] =
    lossJoint .regular 3 [2] 0 none 0
      ([[1, 0, 0], [0, 0, 1]].map fun a => [[0, 1, 2], [3, 4, 5]].map fun l =>
        List.zipWith (· + ·) a l) :=
  simple_is_joint _ _ _ _ _ _ _ _ (by simp [shapesOk])

/-- Rows shifted by constants. -/
example : Shifted [[0, 1], [2, 3]] [[5, 6], [1, 2]] := by
  refine List.Forall₂.cons ⟨5, by norm_num⟩ (List.Forall₂.cons ⟨-1, by norm_num⟩ List.Forall₂.nil)

/-- Two frames and one symbol: emitting it on the first frame is favoured by `exp(d/2)`, on the
second it is penalised by the same factor. -/
example (px py : Nat → Nat → ℝ) (d : ℝ) (hd : 0 ≤ d) :
    lossOf .modified 1 2 d px py =
      px 0 0 * py 1 1 * exp (d / 2) + py 0 0 * px 0 1 * exp (-d / 2) := by
  rw [delay_penalty _ _ _ _ hd]
  have : alignments RnntType.modified.isModified 1 2 = {[.X, .Y], [.Y, .X]} := by decide +kernel
  rw [this, Finset.sum_pair (by decide)]
  simp only [weight, emitFrames, RnntType.isModified, Step.frames]
  norm_num
  ring_nf

/-- C76.  The smoothed loss with `lm_only_scale = 1` and no boundary is not a number, although all
arguments are finite and pass the assertions. -/
theorem smoothed_nan :
    shapesOk 2 [[0, 0], [0, 0]] [[0, 0]] [1] 0 ∧
    lossSmoothed 1 .regular 2 [1] 0 none 0 1 0 [[0, 0], [0, 0]] [[0, 0], [0, 0]] [[0, 0]] = none := by
  have hs : shapesOk 2 [[0, 0], [0, 0]] [[0, 0]] [1] 0 := by simp [shapesOk]
  refine ⟨hs, ?_⟩
  have := smoothed_number 1 .regular 2 [1] 0 none 0 1 0 le_rfl [[0, 0], [0, 0]] [[0, 0], [0, 0]]
    [[0, 0]] hs ⟨by simp, by simp, Or.inl rfl⟩
  by_contra hcon
  obtain ⟨p, hp⟩ := Option.ne_none_iff_exists'.mp hcon
  have := this.mp ⟨p, hp⟩
  simp at this

/-- The same arguments with the default scales give a number, which is a probability. -/
example : ∃ p, lossSmoothed 1 .regular 2 [1] 0 none 0 (1 / 10) (1 / 10) [[0, 0], [0, 0]]
    [[0, 0], [0, 0]] [[0, 0]] = some p ∧ 0 ≤ p ∧ p ≤ 1 := by
  have hs : shapesOk 2 [[0, 0], [0, 0]] [[0, 0]] [1] 0 := by simp [shapesOk]
  obtain ⟨p, hp⟩ := (smoothed_number 1 .regular 2 [1] 0 none 0 (1 / 10) (1 / 10) (by norm_num)
    [[0, 0], [0, 0]] [[0, 0], [0, 0]] [[0, 0]] hs ⟨by simp, by simp, Or.inl rfl⟩).mpr
      (Or.inl (by norm_num))
  exact ⟨p, hp, smoothed_le_one 1 (by norm_num) .regular 2 [1] 0 none (1 / 10) (1 / 10)
    (by norm_num) (by norm_num) (by norm_num) _ _ _ (by simp) p hp⟩

/-- Pruned HAT on one frame with the range `[0, 1]`: the hypotheses hold for the transcript `[1]`. -/
example : ∃ p, ∀ pruned, doPruning [()] ((List.range 2).map fun _ => ()) [[0, 1]] = some pruned →
    lossPruned true .regular 2 [1] 0 [[0, 1]] (some (1, 1)) 0
      (pruned.map (·.map fun _ => [0, 0])) = some p := by
  have hcons : Consecutive [[0, 1]] 1 1 2 (fun _ => 0) := by
    refine ⟨rfl, by omega, fun t ht => ⟨?_, le_rfl, by simp⟩⟩
    obtain rfl : t = 0 := by omega
    rfl
  obtain ⟨pruned, px, py, h1, h2, -⟩ := logprobsPruned_entries hatSymbol hatBlank
    (fun (_ : Unit) (_ : Unit) => ([0, 0] : List ℝ)) .regular [1] 0 1 [()]
    ((List.range 2).map fun _ => ()) rfl (by simp) [[0, 1]] 2 (fun _ => 0) hcons
  refine ⟨lossOf .regular 1 1 0 px py, fun pruned' h => ?_⟩
  rw [h1] at h
  obtain rfl := Option.some.inj h
  have hlen : (pruned.map (·.map fun _ => ([0, 0] : List ℝ))).length = 1 := by
    rw [List.length_map]
    unfold doPruning at h1
    split at h1
    · rw [(Verif.Util.mapM_get h1).1]; rfl
    · exact absurd h1 (by simp)
  unfold lossPruned
  rw [if_pos]
  · simp only [Option.getD_some, if_true]
    rw [h2]; rfl
  · refine ⟨?_, by simp, by norm_num, by simp, ?_, by simp⟩
    · intro fr hfr r hr
      obtain ⟨f, _, rfl⟩ := List.mem_map.mp hfr
      obtain ⟨q, _, rfl⟩ := List.mem_map.mp hr
      rfl
    · simp only [Option.getD_some]; omega

end Verif.Rnnt
