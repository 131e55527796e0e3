import Verif.Rnnt.LossRelations

/-!
# The simple and the smoothed loss as probabilities; when the smoothed loss is not a number
-/

namespace Verif.Rnnt

open Real

/-- Tables whose entries depend on a decoder row and an encoder row. -/
def pairPx (g : List ℝ → List ℝ → Nat → ℝ) (symbols : List Nat) (lm am : List (List ℝ))
    (s t : Nat) : ℝ :=
  if s < symbols.length ∧ t < am.length then g (mrow lm s) (mrow am t) (symbols.getD s 0) else 0

def pairPy (g : List ℝ → List ℝ → Nat → ℝ) (term : Nat) (lm am : List (List ℝ))
    (s t : Nat) : ℝ :=
  if s < lm.length ∧ t < am.length then g (mrow lm s) (mrow am t) term else 0

/-- The loss from such tables is that of the transducer. -/
theorem pair_emit (g : List ℝ → List ℝ → Nat → ℝ) (ty : RnntType) (term T : Nat) (y pad : List Nat)
    (lm am : List (List ℝ)) (dec : List Nat → List ℝ) (hlm : lm.length = (y ++ pad).length + 1)
    (hdec : ∀ s, s ≤ y.length → mrow lm s = dec (y.take s)) (hT : T ≤ am.length) :
    lossOf ty y.length T 0
      (finishPx ty T (pairPx g (y ++ pad) lm am) (pairPy g term lm am)) (pairPy g term lm am) =
      total ty.isModified
        (emitX T (stepX ty (fun (q : List ℝ × List ℝ) c => g q.1 q.2 c)
          (fun q => g q.1 q.2 term) (fun t u => (dec u, mrow am t))) y)
        (emitY (fun u t => g (dec u) (mrow am t) term) y) 0 0 y.length T := by
  have hl : (y ++ pad).length = y.length + pad.length := List.length_append
  have := joint_total ty (fun (q : List ℝ × List ℝ) c => g q.1 q.2 c)
    (fun q => g q.1 q.2 term) (fun t u => (dec u, mrow am t)) T am.length hT y pad
  rw [← this]
  have e := finish_congr ty y.length T 0
    (table ((logitsOf (fun t u => (dec u, mrow am t)) am.length (y ++ pad)).map fun fr =>
      List.zipWith (fun (q : List ℝ × List ℝ) c => g q.1 q.2 c) (fr.take (y ++ pad).length)
        (y ++ pad)))
    (table ((logitsOf (fun t u => (dec u, mrow am t)) am.length (y ++ pad)).map fun fr =>
      fr.map fun q => g q.1 q.2 term))
    (pairPx g (y ++ pad) lm am) (pairPy g term lm am) ?_ ?_
  · rw [e, lossOf_total, delayPx_zero]
    rfl
  · intro s t hs ht
    rw [logitsOf_px _ _ _ _ (by omega) (by omega), pairPx, if_pos ⟨by omega, by omega⟩,
      hdec s hs.le, List.take_append_of_le_length hs.le]
  · intro s t hs ht
    rw [logitsOf_py _ _ _ _ (by omega) (by omega), pairPy, if_pos ⟨by omega, by omega⟩,
      hdec s hs, List.take_append_of_le_length hs]

theorem sum_vocab {C term : Nat} (hterm : term < C) (f : Nat → ℝ) :
    f term + ∑ c ∈ vocab C term, f c = ∑ c ∈ Finset.range C, f c := by
  rw [vocab, Finset.add_sum_erase _ _ (Finset.mem_range.mpr hterm)]

theorem lossSimple_some {tiny : ℝ} {ty : RnntType} {C : Nat} {symbols : List Nat} {term : Nat}
    {b : Nat × Nat} {delay : ℝ} {lm am : List (List ℝ)} {p : ℝ}
    (h : lossSimple tiny ty C symbols term (some b) delay lm am = some p) :
    shapesOk C lm am symbols term ∧ b.1 ≤ symbols.length ∧ b.2 ≤ am.length ∧
      p = lossOf ty b.1 b.2 delay
        (finishPx ty b.2 (pairPx (fun l a c => exp (simpleLog tiny l a c)) symbols lm am)
          (pairPy (fun l a c => exp (simpleLog tiny l a c)) term lm am))
        (pairPy (fun l a c => exp (simpleLog tiny l a c)) term lm am) := by
  unfold lossSimple at h
  simp only [Option.getD_some] at h
  obtain ⟨⟨h1, h2⟩, h⟩ := Option.ite_none_right_eq_some.mp h
  exact ⟨h1, h2.1, h2.2.1, (Option.some.inj h).symm⟩

/-- C73.  Simple RNN-T: fix the encoder output and a decoder that depends on the symbols before.
The probabilities `exp(-rnnt_loss_simple)` of distinct transcripts add up to at most one. -/
theorem simple_distribution (tiny : ℝ) (ht : 0 ≤ tiny) (ty : RnntType) (C term T : Nat)
    (am : List (List ℝ)) (dec : List Nat → List ℝ) (hdec : ∀ u, (dec u).length = C)
    (pad : List Nat → List Nat) (Y : Finset (List Nat))
    (hY : ∀ y ∈ Y, ∀ c ∈ y, c < C ∧ c ≠ term) (p : List Nat → ℝ)
    (hp : ∀ y ∈ Y, lossSimple tiny ty C (y ++ pad y) term (some (y.length, T)) 0
      ((List.range ((y ++ pad y).length + 1)).map fun s => dec ((y ++ pad y).take s)) am =
        some (p y)) :
    ∑ y ∈ Y, p y ≤ 1 := by
  rcases Y.eq_empty_or_nonempty with rfl | ⟨y0, hy0⟩
  · simp
  obtain ⟨⟨_, _, h3, _, hterm⟩, _, hT, _⟩ := lossSimple_some (hp y0 hy0)
  have e : ∀ y ∈ Y, p y = total ty.isModified
      (emitX T (stepX ty (fun (q : List ℝ × List ℝ) c => exp (simpleLog tiny q.1 q.2 c))
        (fun q => exp (simpleLog tiny q.1 q.2 term)) (fun t u => (dec u, mrow am t))) y)
      (emitY (fun u t => exp (simpleLog tiny (dec u) (mrow am t) term)) y) 0 0 y.length T := by
    intro y hy
    obtain ⟨_, _, _, h⟩ := lossSimple_some (hp y hy)
    rw [h]
    refine pair_emit (fun l a c => exp (simpleLog tiny l a c)) ty term T y (pad y) _ am dec
      (by simp) ?_ hT
    intro s hs
    have : s < y.length + (pad y).length + 1 := by omega
    simp [mrow, List.getD_eq_getElem?_getD, this, List.take_append_of_le_length hs]
  rw [Finset.sum_congr rfl e]
  refine joint_le_one ty (fun (q : List ℝ × List ℝ) c => exp (simpleLog tiny q.1 q.2 c))
    (fun q => exp (simpleLog tiny q.1 q.2 term)) (fun t u => (dec u, mrow am t)) (vocab C term) T
    (fun t u c _ _ => (exp_pos _).le) (fun t u _ => (exp_pos _).le) ?_ Y
    (fun y hy c hc => mem_vocab.mpr (hY y hy c hc))
  intro t u htT _
  rw [sum_vocab hterm fun c => exp (simpleLog tiny (dec u) (mrow am t) c)]
  have h1 := h3 _ (mrow_mem (lt_of_lt_of_le htT hT))
  have hne : dec u ≠ [] := by apply List.length_pos_iff.mp; rw [hdec]; omega
  rw [← hdec u, simple_sum ht (by rw [h1, hdec]) hne]
  exact ratio_le_one (overlap_pos hne) ht

/-! ## The smoothed loss -/

/-- The probability of the smoothed joiner. -/
noncomputable def smProb (tiny : ℝ) (u : Nat → ℝ) (ls as : ℝ) (l a : List ℝ) (c : Nat) : ℝ :=
  ((smoothedLog tiny u ls as l a c).prob).getD 0

theorem smProb_eq (tiny : ℝ) (u : Nat → ℝ) (ls as : ℝ) (l a : List ℝ) (c : Nat) :
    smProb tiny u ls as l a c = exp (simpleLog tiny l a c) ^ (1 - ls - as) *
      exp (lmOnlyLog l c) ^ (fixScale ls) * exp (amOnlyLog u a c) ^ (fixScale as) := by
  rw [smProb, smoothed_prob, Option.getD_some]

theorem smProb_pos (tiny : ℝ) (u : Nat → ℝ) (ls as : ℝ) (l a : List ℝ) (c : Nat) :
    0 < smProb tiny u ls as l a c := by
  rw [smProb_eq]
  have := exp_pos (simpleLog tiny l a c)
  have := exp_pos (lmOnlyLog l c)
  have := exp_pos (amOnlyLog u a c)
  positivity

theorem logprobsSmoothed_some {tiny : ℝ} {ty : RnntType} {symbols : List Nat} {term : Nat}
    {boundary : Option (Nat × Nat)} {ls as : ℝ} {lms lm am : List (List ℝ)}
    {out : (Nat → Nat → ℝ) × (Nat → Nat → ℝ)}
    (h : logprobsSmoothed tiny ty symbols term boundary ls as lms lm am = some out) :
    out = (finishPx ty (boundary.getD (symbols.length, am.length)).2
        (pairPx (smProb tiny (unigram tiny lms) ls as) symbols lm am)
        (pairPy (smProb tiny (unigram tiny lms) ls as) term lm am),
      pairPy (smProb tiny (unigram tiny lms) ls as) term lm am) := by
  have hb : (boundary.getD (0, am.length)).2 =
      (boundary.getD (symbols.length, am.length)).2 := by
    cases boundary <;> rfl
  unfold logprobsSmoothed at h
  simp only [hb] at h
  split at h
  · obtain ⟨_, _, e⟩ := Option.map_eq_some_iff.mp h
    exact e.symm
  · exact (Option.some.inj h).symm

theorem lossSmoothed_some {tiny : ℝ} {ty : RnntType} {C : Nat} {symbols : List Nat} {term : Nat}
    {boundary : Option (Nat × Nat)} {delay ls as : ℝ} {lms lm am : List (List ℝ)} {p : ℝ}
    (h : lossSmoothed tiny ty C symbols term boundary delay ls as lms lm am = some p) :
    let b := boundary.getD (symbols.length, am.length)
    shapesOk C lm am symbols term ∧ boundsOk ty symbols.length am.length b.1 b.2 ∧
      p = lossOf ty b.1 b.2 delay
        (finishPx ty b.2 (pairPx (smProb tiny (unigram tiny lms) ls as) symbols lm am)
          (pairPy (smProb tiny (unigram tiny lms) ls as) term lm am))
        (pairPy (smProb tiny (unigram tiny lms) ls as) term lm am) := by
  unfold lossSmoothed at h
  simp only [] at h
  obtain ⟨⟨h1, h2⟩, h⟩ := Option.ite_none_right_eq_some.mp h
  obtain ⟨out, e1, e2⟩ := Option.map_eq_some_iff.mp h
  have := logprobsSmoothed_some e1
  subst this
  exact ⟨h1, h2, e2.symm⟩

/-- C76.  Smoothed RNN-T: if the scales are not negative and add up to at most one, and the
transcript does not contain the termination symbol, `exp(-loss)` is a probability, so the loss is
not negative. -/
theorem smoothed_le_one (tiny : ℝ) (ht : 0 < tiny) (ty : RnntType) (C : Nat) (symbols : List Nat)
    (term : Nat) (boundary : Option (Nat × Nat)) (ls as : ℝ) (h1 : 0 ≤ ls) (h2 : 0 ≤ as)
    (h3 : ls + as ≤ 1) (lms lm am : List (List ℝ))
    (hsym : ∀ c ∈ symbols.take (boundary.getD (symbols.length, am.length)).1, c ≠ term) (p : ℝ)
    (hp : lossSmoothed tiny ty C symbols term boundary 0 ls as lms lm am = some p) :
    0 ≤ p ∧ p ≤ 1 := by
  obtain ⟨⟨g1, g2, g3, g4, g5⟩, hb, e⟩ := lossSmoothed_some hp
  generalize boundary.getD (symbols.length, am.length) = b at hsym hb e
  obtain ⟨hb1, hb2, -⟩ := hb
  have hlen : (symbols.take b.1).length = b.1 := by simp [hb1]
  have hcat : symbols.take b.1 ++ symbols.drop b.1 = symbols := List.take_append_drop _ _
  have := pair_emit (smProb tiny (unigram tiny lms) ls as) ty term b.2 (symbols.take b.1)
    (symbols.drop b.1) lm am (fun u => mrow lm u.length) (by rw [hcat, g1])
    (fun s hs => by rw [List.length_take_of_le hs]) hb2
  rw [hcat, hlen] at this
  rw [this] at e
  subst e
  have hle := joint_le_one ty
    (fun (q : List ℝ × List ℝ) c => smProb tiny (unigram tiny lms) ls as q.1 q.2 c)
    (fun q => smProb tiny (unigram tiny lms) ls as q.1 q.2 term)
    (fun t u => (if u.length < lm.length then mrow lm u.length else mrow lm 0, mrow am t))
    (vocab C term) b.2
    (fun t u c _ _ => (smProb_pos ..).le) (fun t u _ => (smProb_pos ..).le) ?_ {symbols.take b.1} ?_
  · rw [Finset.sum_singleton, hlen] at hle
    have heq : total ty.isModified
        (emitX b.2 (stepX ty
          (fun (q : List ℝ × List ℝ) c => smProb tiny (unigram tiny lms) ls as q.1 q.2 c)
          (fun q => smProb tiny (unigram tiny lms) ls as q.1 q.2 term)
          (fun t u => (mrow lm u.length, mrow am t))) (symbols.take b.1))
        (emitY (fun u t => smProb tiny (unigram tiny lms) ls as (mrow lm u.length) (mrow am t) term)
          (symbols.take b.1)) 0 0 b.1 b.2 =
      total ty.isModified
        (emitX b.2 (stepX ty
          (fun (q : List ℝ × List ℝ) c => smProb tiny (unigram tiny lms) ls as q.1 q.2 c)
          (fun q => smProb tiny (unigram tiny lms) ls as q.1 q.2 term)
          (fun t u => (if u.length < lm.length then mrow lm u.length else mrow lm 0, mrow am t)))
          (symbols.take b.1))
        (emitY (fun u t => smProb tiny (unigram tiny lms) ls as
          (if u.length < lm.length then mrow lm u.length else mrow lm 0) (mrow am t) term)
          (symbols.take b.1)) 0 0 b.1 b.2 := by
      have hif : ∀ s, s ≤ b.1 → ((symbols.take b.1).take s).length < lm.length := by
        intro s hs
        rw [List.length_take_of_le (by omega)]; omega
      refine total_congr _ _ _ _ _ _ _ ?_ ?_
      · intro s t hs htT
        simp only [emitX]
        congr 1
        cases ty with
        | regular => simp only [stepX, if_pos (hif s hs.le)]
        | modified => simp only [stepX, if_pos (hif s hs.le)]
        | constrained =>
          simp only [stepX, if_pos (hif s hs.le)]
          have : ((symbols.take b.1).take s ++ [(symbols.take b.1).getD s 0]).length < lm.length := by
            rw [List.length_append, List.length_take_of_le (by omega)]
            simp; omega
          rw [if_pos this]
      · intro s t hs htT
        simp only [emitY, if_pos (hif s hs)]
    rw [heq]
    refine ⟨?_, hle⟩
    refine (total_mono _ _ _ _ _ _ _ (fun s t _ _ => ⟨?_, le_rfl⟩)
      (fun s t _ _ => ⟨(smProb_pos ..).le, le_rfl⟩)).1
    simp only [emitX]
    split
    · cases ty with
      | regular => exact (smProb_pos ..).le
      | modified => exact (smProb_pos ..).le
      | constrained => exact mul_nonneg (smProb_pos ..).le (smProb_pos ..).le
    · exact le_rfl
  · intro t u htT _
    simp only
    generalize hl : (if u.length < lm.length then mrow lm u.length else mrow lm 0) = l
    have hlC : l.length = C := by
      rw [← hl]
      split
      · rename_i h; exact g2 _ (mrow_mem h)
      · exact g2 _ (mrow_mem (by omega))
    have haC := g3 _ (mrow_mem (lt_of_lt_of_le htT hb2))
    rw [sum_vocab g5 fun c => smProb tiny (unigram tiny lms) ls as l (mrow am t) c, ← hlC]
    exact smoothed_sum ht.le (unigram_pos ht lms) h1 h2 h3 (by rw [haC, hlC])
      (by apply List.length_pos_iff.mp; omega)
  · intro y hy c hc
    rw [Finset.mem_singleton.mp hy] at hc
    exact mem_vocab.mpr ⟨g4 c (List.mem_of_mem_take hc), hsym c hc⟩

theorem smoothedLast_indep (ls as : ℝ) (l l' : List ℝ) (c c' : Nat) :
    (smoothedLast ls as l c).prob = (smoothedLast ls as l' c').prob := by
  simp only [smoothedLast, interp, Ext.scale]
  split <;> split <;> (try split) <;> (try split) <;> simp [Ext.add, Ext.prob]

/-- C76.  Adding a constant to all logits of a frame, or of a decoder position, does not change
the smoothed loss. -/
theorem smoothed_shift (tiny : ℝ) (ty : RnntType) (C : Nat) (symbols : List Nat) (term : Nat)
    (boundary : Option (Nat × Nat)) (delay ls as : ℝ) (lms lms' lm lm' am am' : List (List ℝ))
    (hlms : Shifted lms lms') (hC : ∀ l ∈ lms, l.length = C) (hl : Shifted lm lm')
    (ha : Shifted am am') :
    lossSmoothed tiny ty C symbols term boundary delay ls as lms' lm' am' =
      lossSmoothed tiny ty C symbols term boundary delay ls as lms lm am := by
  have hnone : (lossSmoothed tiny ty C symbols term boundary delay ls as lms' lm' am').isSome =
      (lossSmoothed tiny ty C symbols term boundary delay ls as lms lm am).isSome := by
    unfold lossSmoothed
    simp only []
    rw [ha.length]
    generalize boundary.getD (symbols.length, am.length) = b
    by_cases hc : shapesOk C lm am symbols term ∧ boundsOk ty symbols.length am.length b.1 b.2
    · rw [if_pos hc, if_pos ⟨(hl.shapes ha).mpr hc.1, hc.2⟩, Option.isSome_map, Option.isSome_map]
      unfold logprobsSmoothed
      simp only []
      split
      · rw [Option.isSome_map, Option.isSome_map]
        congr 2
        funext s
        exact smoothedLast_indep ..
      · rfl
    · rw [if_neg hc, if_neg (fun h => hc ⟨(hl.shapes ha).mp h.1, h.2⟩)]
  cases hp : lossSmoothed tiny ty C symbols term boundary delay ls as lms lm am with
  | none => rw [hp] at hnone; simpa using hnone
  | some p =>
  rw [hp] at hnone
  obtain ⟨p', hp'⟩ := Option.isSome_iff_exists.mp hnone
  rw [hp']
  obtain ⟨⟨h1, h2, h3, h4, h5⟩, hb, e⟩ := lossSmoothed_some hp
  obtain ⟨-, -, e'⟩ := lossSmoothed_some hp'
  rw [ha.length] at e'
  generalize boundary.getD (symbols.length, am.length) = b at hb e e'
  obtain ⟨hb1, hb2, -⟩ := hb
  subst e e'
  congr 1
  have hu : ∀ c, c < C → unigram tiny lms' c = unigram tiny lms c := by
    intro c hc
    unfold unigram
    rw [hlms.length]
    congr 3
    clear hp hp' hnone
    induction hlms with
    | nil => rfl
    | @cons r r' m m' hk _ ih =>
      obtain ⟨k, rfl⟩ := hk
      have hr : r.length = C := hC r (by simp)
      have hne : r ≠ [] := by apply List.length_pos_iff.mp; omega
      have hih := ih (fun l hl => hC l (by simp [hl]))
      rw [List.map_cons, List.map_cons, hih, rowMax_add hne, ent_map _ _ (by omega),
        add_sub_add_right_eq_sub, lmSum, lmSum, expRow_add hne]
  have key : ∀ s t c, s < lm.length → t < am.length → c < C →
      smProb tiny (unigram tiny lms') ls as (mrow lm' s) (mrow am' t) c =
        smProb tiny (unigram tiny lms) ls as (mrow lm s) (mrow am t) c := by
    intro s t c hs ht hc
    have e1 := h2 _ (mrow_mem hs)
    have e2 := h3 _ (mrow_mem ht)
    obtain ⟨k, hk⟩ := hl.row hs
    obtain ⟨m, hm⟩ := ha.row ht
    have n1 : mrow lm s ≠ [] := by apply List.length_pos_iff.mp; omega
    have n2 : mrow am t ≠ [] := by apply List.length_pos_iff.mp; omega
    rw [hk, hm, smProb_eq, smProb_eq, simpleLog_add tiny n1 n2 k m (by omega) (by omega),
      lmOnlyLog_add n1 k (by omega), amOnlyLog_add _ n2 m (by omega)]
    have : amOnlyLog (unigram tiny lms') (mrow am t) c = amOnlyLog (unigram tiny lms) (mrow am t) c := by
      rw [amOnlyLog, amOnlyLog, hu c hc, amOnlyNorm, amOnlyNorm]
      congr 4
      refine List.map_congr_left fun d hd => ?_
      rw [hu d (by rw [← e2]; exact List.mem_range.mp hd)]
    rw [this]
  refine finish_congr ty _ _ delay _ _ _ _ ?_ ?_
  · intro s t hs ht
    rw [pairPx, pairPx, ha.length, if_pos ⟨by omega, by omega⟩, if_pos ⟨by omega, by omega⟩,
      key s t _ (by omega) (by omega) (symbol_lt h4 (by omega))]
  · intro s t hs ht
    rw [pairPy, pairPy, ha.length, hl.length, if_pos ⟨by omega, by omega⟩,
      if_pos ⟨by omega, by omega⟩, key s t _ (by omega) (by omega) h5]

/-! ## When the smoothed loss is a number -/

theorem smoothedLast_prob (ls as : ℝ) (h2 : 0 ≤ as) (l : List ℝ) (c : Nat) :
    (smoothedLast ls as l c).prob = if ls + as < 1 then some 0 else none := by
  have h0 := (fixScale_pos h2).1
  simp only [smoothedLast, interp, Ext.scale, h0.ne', h0, if_true, if_false]
  by_cases h : ls + as < 1
  · have e1 : ¬ (1 - ls - as = 0) := by intro h'; linarith
    have e2 : 0 < 1 - ls - as := by linarith
    simp [h, e1, e2, Ext.add, Ext.prob]
  · by_cases e1 : 1 - ls - as = 0
    · simp [h, e1, Ext.add, Ext.prob]
    · have e2 : ¬ 0 < 1 - ls - as := by intro h'; apply h; linarith
      simp [h, e1, e2, Ext.add, Ext.prob]

/-- C76.  For arguments that pass the assertions, the smoothed loss is a number exactly if the
scales add up to less than one, or there is a boundary, or the type is not regular, or there are
no symbols. -/
theorem smoothed_number (tiny : ℝ) (ty : RnntType) (C : Nat) (symbols : List Nat) (term : Nat)
    (boundary : Option (Nat × Nat)) (delay ls as : ℝ) (h2 : 0 ≤ as) (lms lm am : List (List ℝ))
    (hs : shapesOk C lm am symbols term)
    (hb : boundsOk ty symbols.length am.length (boundary.getD (symbols.length, am.length)).1
      (boundary.getD (symbols.length, am.length)).2) :
    (∃ p, lossSmoothed tiny ty C symbols term boundary delay ls as lms lm am = some p) ↔
      ls + as < 1 ∨ boundary ≠ none ∨ ty ≠ .regular ∨ symbols = [] := by
  have hl : lossSmoothed tiny ty C symbols term boundary delay ls as lms lm am =
      (logprobsSmoothed tiny ty symbols term boundary ls as lms lm am).map fun p =>
        lossOf ty (boundary.getD (symbols.length, am.length)).1
          (boundary.getD (symbols.length, am.length)).2 delay p.1 p.2 := by
    unfold lossSmoothed
    exact if_pos ⟨hs, hb⟩
  rw [hl]
  have key : (∃ p, ((logprobsSmoothed tiny ty symbols term boundary ls as lms lm am).map fun p =>
        lossOf ty (boundary.getD (symbols.length, am.length)).1
          (boundary.getD (symbols.length, am.length)).2 delay p.1 p.2) = some p) ↔
      ∃ q, logprobsSmoothed tiny ty symbols term boundary ls as lms lm am = some q := by
    cases logprobsSmoothed tiny ty symbols term boundary ls as lms lm am <;> simp
  rw [key]
  unfold logprobsSmoothed
  simp only [smoothedLast_prob ls as h2]
  cases ty with
  | regular =>
    cases boundary with
    | none =>
      simp only [ne_eq, not_true_eq_false, false_or, Option.map_eq_some_iff]
      constructor
      · rintro ⟨q, a, h, -⟩
        by_contra hcon
        push Not at hcon
        obtain ⟨h1, h3⟩ := hcon
        have : ¬ ls + as < 1 := not_lt.mpr h1
        simp only [this, if_false] at h
        have hlen : 0 < symbols.length := List.length_pos_iff.mpr h3
        have := (Verif.Util.mapM_get h).2 0 0 (by simp [hlen])
        have h4 := (Verif.Util.mapM_get h).1
        rw [List.length_range] at h4
        rw [List.getElem?_eq_none_iff] at this
        omega
      · intro h
        obtain ⟨a, ha⟩ : ∃ a, (List.range symbols.length).mapM
            (fun _ => if ls + as < 1 then some (0 : ℝ) else none) = some a := by
          rcases h with h | h
          · exact Verif.Util.mapM_exists fun x _ => ⟨0, by simp [h]⟩
          · subst h; exact ⟨[], by simp⟩
        exact ⟨_, a, ha, rfl⟩
    | some b => simp
  | modified => simp
  | constrained => simp

/-- C76.  With both scales 0 the smoothed loss is not below the simple loss, and above it by at
most `2e-20 * (S + T) * log(1 / m)`, where `m` bounds the probabilities of the language model and
of the unigram-smoothed acoustic model from below. -/
theorem smoothed_zero_scales (tiny m : ℝ) (ht : 0 < tiny) (hm : 0 < m) (ty : RnntType)
    (C : Nat) (symbols : List Nat) (term : Nat) (boundary : Option (Nat × Nat)) (delay : ℝ)
    (lms lm am : List (List ℝ))
    (hml : ∀ l ∈ lm, ∀ c < C, m ≤ exp (lmOnlyLog l c))
    (hma : ∀ a ∈ am, ∀ c < C, m ≤ exp (amOnlyLog (unigram tiny lms) a c)) (q : ℝ)
    (hq : lossSimple tiny ty C symbols term boundary delay lm am = some q) :
    ∃ p, lossSmoothed tiny ty C symbols term boundary delay 0 0 lms lm am = some p ∧
      let b := boundary.getD (symbols.length, am.length)
      q * ((min m 1) ^ ((2 : ℝ) / 10 ^ 20)) ^ (b.1 + b.2) ≤ p ∧ p ≤ q := by
  unfold lossSimple at hq
  simp only [] at hq
  obtain ⟨⟨hs, hb⟩, hq⟩ := Option.ite_none_right_eq_some.mp hq
  obtain ⟨p, hp⟩ := (smoothed_number tiny ty C symbols term boundary delay 0 0 le_rfl lms lm am
    hs hb).mpr (Or.inl (by norm_num))
  refine ⟨p, hp, ?_⟩
  obtain ⟨-, -, e⟩ := lossSmoothed_some hp
  rw [e, ← Option.some.inj hq]
  obtain ⟨h1, h2, h3, h4, h5⟩ := hs
  obtain ⟨hb1, hb2, -⟩ := hb
  clear hq hp e
  simp only [logprobsSimple]
  generalize boundary.getD (symbols.length, am.length) = b at hb1 hb2 ⊢
  have hm0 : 0 < min m 1 := lt_min hm one_pos
  have key : ∀ s t c, s < lm.length → t < am.length → c < C →
      0 ≤ exp (simpleLog tiny (mrow lm s) (mrow am t) c) ∧
      exp (simpleLog tiny (mrow lm s) (mrow am t) c) * (min m 1) ^ ((2 : ℝ) / 10 ^ 20) ≤
        smProb tiny (unigram tiny lms) 0 0 (mrow lm s) (mrow am t) c ∧
      smProb tiny (unigram tiny lms) 0 0 (mrow lm s) (mrow am t) c ≤
        exp (simpleLog tiny (mrow lm s) (mrow am t) c) := by
    intro s t c hs htt hc
    have e1 := h2 _ (mrow_mem hs)
    have e2 := h3 _ (mrow_mem htt)
    have n1 : mrow lm s ≠ [] := by apply List.length_pos_iff.mp; omega
    have n2 : mrow am t ≠ [] := by apply List.length_pos_iff.mp; omega
    have hx := exp_pos (simpleLog tiny (mrow lm s) (mrow am t) c)
    have a1 := hml _ (mrow_mem hs) c hc
    have a2 := hma _ (mrow_mem htt) c hc
    have l1 : exp (lmOnlyLog (mrow lm s) c) ≤ 1 := by
      rw [← lmOnly_sum n1, e1]
      exact Finset.single_le_sum (f := fun c => exp (lmOnlyLog (mrow lm s) c))
        (fun _ _ => (exp_pos _).le) (Finset.mem_range.mpr hc)
    have l2 : exp (amOnlyLog (unigram tiny lms) (mrow am t) c) ≤ 1 := by
      rw [← amOnly_sum (unigram_pos ht lms) n2, e2]
      exact Finset.single_le_sum (f := fun c => exp (amOnlyLog (unigram tiny lms) (mrow am t) c))
        (fun _ _ => (exp_pos _).le) (Finset.mem_range.mpr hc)
    rw [smProb_eq]
    have hf : fixScale 0 = 1 / 10 ^ 20 := by simp [fixScale]
    have hexp : (0 : ℝ) ≤ 1 / 10 ^ 20 := by positivity
    rw [sub_zero, sub_zero, rpow_one, hf, mul_assoc]
    have hsplit : (min m 1) ^ ((2 : ℝ) / 10 ^ 20) =
        (min m 1) ^ ((1 : ℝ) / 10 ^ 20) * (min m 1) ^ ((1 : ℝ) / 10 ^ 20) := by
      rw [← rpow_add hm0]; congr 1; ring
    refine ⟨hx.le, ?_, ?_⟩
    · refine mul_le_mul_of_nonneg_left ?_ hx.le
      rw [hsplit]
      refine mul_le_mul ?_ ?_ (by positivity) (by positivity)
      · exact rpow_le_rpow hm0.le ((min_le_left _ _).trans a1) hexp
      · exact rpow_le_rpow hm0.le ((min_le_left _ _).trans a2) hexp
    · refine mul_le_of_le_one_right hx.le (mul_le_one₀ ?_ (by positivity) ?_)
      · exact rpow_le_one (exp_pos _).le l1 hexp
      · exact rpow_le_one (exp_pos _).le l2 hexp
  refine finish_bounds ty _ _ delay _ _ _ _ (by positivity)
    (rpow_le_one hm0.le (min_le_right _ _) (by positivity)) ?_ ?_
  · intro s t hs ht
    rw [pairPx, if_pos ⟨by omega, by omega⟩, if_pos ⟨by omega, by omega⟩]
    exact key s t _ (by omega) (by omega) (symbol_lt h4 (by omega))
  · intro s t hs ht
    rw [pairPy, if_pos ⟨by omega, by omega⟩, if_pos ⟨by omega, by omega⟩]
    exact key s t _ (by omega) (by omega) h5

end Verif.Rnnt
