import Verif.Rnnt.LossProps

/-!
# How the RNN-T losses relate to each other
-/

namespace Verif.Rnnt

open Real

/-! ## Comparing tables -/

/-- The factor of the delay penalty. -/
noncomputable def delayFactor (d : ℝ) (Tb t : Nat) : ℝ :=
  if 0 < d then exp ((((Tb : ℝ) - 1) / 2 - (t : ℝ)) * d) else 1

theorem delayPx_eq (d : ℝ) (Tb : Nat) (px : Nat → Nat → ℝ) (s t : Nat) :
    delayPx d Tb px s t = px s t * delayFactor d Tb t := by
  unfold delayPx delayFactor
  split <;> simp

theorem delayFactor_pos (d : ℝ) (Tb t : Nat) : 0 < delayFactor d Tb t := by
  unfold delayFactor
  split
  · exact exp_pos _
  · exact one_pos

theorem finish_cases {ty : RnntType} {Sb Tb : Nat} {px py px' py' : Nat → Nat → ℝ}
    {P : ℝ → ℝ → Nat → Prop} (h0 : P 0 0 1)
    (hx : ∀ s t, s < Sb → t < Tb → P (px s t) (px' s t) 1)
    (hup : ∀ x y, P x y 1 → P x y 2)
    (hmul : ∀ s t, s < Sb → t < Tb → P (px s t * py (s + 1) t) (px' s t * py' (s + 1) t) 2)
    {s t : Nat} (hs : s < Sb) (ht : t + Step.X.frames ty.isModified ≤ Tb) :
    P (finishPx ty Tb px py s t) (finishPx ty Tb px' py' s t)
      (1 + Step.X.frames ty.isModified) := by
  cases ty with
  | regular =>
    simp only [finishPx, RnntType.isModified, Step.frames, Bool.false_eq_true, if_false] at ht ⊢
    by_cases e : t = Tb
    · simpa [e] using h0
    · rw [if_neg e, if_neg e]; exact hx s t hs (by omega)
  | modified =>
    simp only [finishPx, RnntType.isModified, Step.frames, if_true] at ht ⊢
    exact hup _ _ (hx s t hs (by omega))
  | constrained =>
    simp only [finishPx, RnntType.isModified, Step.frames, if_true] at ht ⊢
    exact hmul s t hs (by omega)

/-- Equal entries, equal losses. -/
theorem finish_congr (ty : RnntType) (Sb Tb : Nat) (d : ℝ) (px py px' py' : Nat → Nat → ℝ)
    (hx : ∀ s t, s < Sb → t < Tb → px' s t = px s t)
    (hy : ∀ s t, s ≤ Sb → t < Tb → py' s t = py s t) :
    lossOf ty Sb Tb d (finishPx ty Tb px' py') py' =
      lossOf ty Sb Tb d (finishPx ty Tb px py) py := by
  rw [lossOf_total, lossOf_total]
  refine total_congr _ _ _ _ _ _ _ ?_ hy
  intro s t hs ht
  rw [delayPx_eq, delayPx_eq]
  congr 1
  refine finish_cases (P := fun x y _ => y = x) rfl hx (fun _ _ h => h) ?_ hs ht
  intro s t hs ht
  rw [hx s t hs ht, hy (s + 1) t hs ht]

theorem weight_lower (md : Bool) (px py px' py' : Nat → Nat → ℝ) (S T : Nat) {ρ : ℝ} (hρ : 0 ≤ ρ)
    (hx : ∀ s t, s < S → t + Step.X.frames md ≤ T →
      0 ≤ px s t ∧ px s t * ρ ^ (1 + Step.X.frames md) ≤ px' s t)
    (hy : ∀ s t, s ≤ S → t < T → 0 ≤ py s t ∧ py s t * ρ ≤ py' s t)
    (s t : Nat) (l : List Step) (h1 : s + numX l = S) (h2 : t + numT md l = T) :
    0 ≤ weight md px py s t l ∧
      weight md px py s t l * ρ ^ (numX l + numT md l) ≤ weight md px' py' s t l := by
  induction l generalizing s t with
  | nil => simp [weight, numX, numT]
  | cons a l ih =>
    cases a with
    | X =>
      simp only [numX, numT] at h1 h2 ⊢
      simp only [weight]
      obtain ⟨i1, i2⟩ := ih (s + 1) (t + Step.X.frames md) (by omega) (by omega)
      obtain ⟨x1, x2⟩ := hx s t (by omega) (by omega)
      refine ⟨mul_nonneg x1 i1, ?_⟩
      calc _ = (px s t * ρ ^ (1 + Step.X.frames md)) *
            (weight md px py (s + 1) (t + Step.X.frames md) l * ρ ^ (numX l + numT md l)) := by ring
        _ ≤ _ := mul_le_mul x2 i2 (mul_nonneg i1 (pow_nonneg hρ _))
            ((mul_nonneg x1 (pow_nonneg hρ _)).trans x2)
    | Y =>
      simp only [numX, numT, Step.frames] at h1 h2 ⊢
      simp only [weight]
      obtain ⟨i1, i2⟩ := ih s (t + 1) (by omega) (by omega)
      obtain ⟨x1, x2⟩ := hy s t (by omega) (by omega)
      refine ⟨mul_nonneg x1 i1, ?_⟩
      calc _ = (py s t * ρ) *
            (weight md px py s (t + 1) l * ρ ^ (numX l + numT md l)) := by ring
        _ ≤ _ := mul_le_mul x2 i2 (mul_nonneg i1 (pow_nonneg hρ _))
            ((mul_nonneg x1 hρ).trans x2)

/-- Entries within a factor `ρ`, losses within `ρ` to the number of steps. -/
theorem finish_bounds (ty : RnntType) (Sb Tb : Nat) (d : ℝ) (px py px' py' : Nat → Nat → ℝ)
    {ρ : ℝ} (hρ : 0 ≤ ρ) (hρ1 : ρ ≤ 1)
    (hx : ∀ s t, s < Sb → t < Tb →
      0 ≤ px s t ∧ px s t * ρ ≤ px' s t ∧ px' s t ≤ px s t)
    (hy : ∀ s t, s ≤ Sb → t < Tb →
      0 ≤ py s t ∧ py s t * ρ ≤ py' s t ∧ py' s t ≤ py s t) :
    lossOf ty Sb Tb d (finishPx ty Tb px py) py * ρ ^ (Sb + Tb) ≤
        lossOf ty Sb Tb d (finishPx ty Tb px' py') py' ∧
      lossOf ty Sb Tb d (finishPx ty Tb px' py') py' ≤
        lossOf ty Sb Tb d (finishPx ty Tb px py) py := by
  have hx' : ∀ s t, s < Sb → t + Step.X.frames ty.isModified ≤ Tb →
      0 ≤ finishPx ty Tb px py s t ∧
      finishPx ty Tb px py s t * ρ ^ (1 + Step.X.frames ty.isModified) ≤
        finishPx ty Tb px' py' s t ∧
      finishPx ty Tb px' py' s t ≤ finishPx ty Tb px py s t := by
    intro s t hs ht
    refine finish_cases (P := fun x y k => 0 ≤ x ∧ x * ρ ^ k ≤ y ∧ y ≤ x) (by simp)
      (fun s t hs ht => by simpa using hx s t hs ht) ?_ ?_ hs ht
    · rintro x y ⟨h1, h2, h3⟩
      refine ⟨h1, le_trans (mul_le_mul_of_nonneg_left ?_ h1) h2, h3⟩
      exact pow_le_pow_of_le_one hρ hρ1 (by omega)
    · intro s t hs ht
      obtain ⟨x1, x2, x3⟩ := hx s t hs ht
      obtain ⟨y1, y2, y3⟩ := hy (s + 1) t hs ht
      have x0 : 0 ≤ px' s t := (mul_nonneg x1 hρ).trans x2
      have y0 : 0 ≤ py' (s + 1) t := (mul_nonneg y1 hρ).trans y2
      refine ⟨mul_nonneg x1 y1, ?_, mul_le_mul x3 y3 y0 x1⟩
      calc _ = (px s t * ρ) * (py (s + 1) t * ρ) := by ring
        _ ≤ _ := mul_le_mul x2 y2 (mul_nonneg y1 hρ) x0
  rw [lossOf_total, lossOf_total]
  constructor
  · rw [total, total, Finset.sum_mul]
    refine Finset.sum_le_sum fun l hl => ?_
    obtain ⟨e1, e2⟩ := (mem_alignments _ _ _ _).mp hl
    have := (weight_lower ty.isModified (delayPx d Tb (finishPx ty Tb px py)) py
      (delayPx d Tb (finishPx ty Tb px' py')) py' Sb Tb hρ ?_
      (fun s t hs ht => ⟨(hy s t hs ht).1, (hy s t hs ht).2.1⟩) 0 0 l (by omega) (by omega)).2
    · rw [e1, e2] at this; exact this
    · intro s t hs ht
      obtain ⟨h1, h2, _⟩ := hx' s t hs ht
      have hk := (delayFactor_pos d Tb t).le
      rw [delayPx_eq, delayPx_eq]
      refine ⟨mul_nonneg h1 hk, ?_⟩
      rw [mul_right_comm]
      exact mul_le_mul_of_nonneg_right h2 hk
  · refine (total_mono _ _ _ _ _ _ _ ?_ ?_).2
    · intro s t hs ht
      obtain ⟨h1, h2, h3⟩ := hx' s t hs ht
      have hk := (delayFactor_pos d Tb t).le
      rw [delayPx_eq, delayPx_eq]
      exact ⟨mul_nonneg ((mul_nonneg h1 (pow_nonneg hρ _)).trans h2) hk,
        mul_le_mul_of_nonneg_right h3 hk⟩
    · intro s t hs ht
      obtain ⟨h1, h2, h3⟩ := hy s t hs ht
      exact ⟨(mul_nonneg h1 hρ).trans h2, h3⟩

/-! ## Entries -/

theorem mrow_mem {m : List (List ℝ)} {i : Nat} (h : i < m.length) : mrow m i ∈ m := by
  rw [mrow, List.getD_eq_getElem?_getD, List.getElem?_eq_getElem h]
  exact List.getElem_mem h

theorem joint_px {V : Type} (fx : V → Nat → ℝ) (K : List ℝ → List ℝ → V)
    (am lm : List (List ℝ)) (symbols : List Nat) {s t : Nat} (hs : s < symbols.length)
    (hl : s < lm.length) (ht : t < am.length) :
    table ((am.map fun a => lm.map fun l => K a l).map fun fr =>
      List.zipWith fx (fr.take symbols.length) symbols) s t =
      fx (K (mrow am t) (mrow lm s)) (symbols.getD s 0) := by
  simp [table, mrow, List.getD_eq_getElem?_getD, ht, hs, hl, List.getElem?_zipWith]

theorem joint_py {V : Type} (fy : V → ℝ) (K : List ℝ → List ℝ → V)
    (am lm : List (List ℝ)) {s t : Nat} (hl : s < lm.length) (ht : t < am.length) :
    table ((am.map fun a => lm.map fun l => K a l).map fun fr => fr.map fy) s t =
      fy (K (mrow am t) (mrow lm s)) := by
  simp [table, mrow, List.getD_eq_getElem?_getD, ht, hl]

theorem symbol_lt {C : Nat} {symbols : List Nat} (h : ∀ c ∈ symbols, c < C) {s : Nat}
    (hs : s < symbols.length) : symbols.getD s 0 < C := by
  rw [List.getD_eq_getElem?_getD, List.getElem?_eq_getElem hs]
  exact h _ (List.getElem_mem hs)

/-! ## C74: the simple loss is the loss with the sum as joiner -/

theorem lossJoint_sum {ty : RnntType} {C : Nat} {symbols : List Nat} {term : Nat}
    {boundary : Option (Nat × Nat)} {lm am : List (List ℝ)} (delay : ℝ)
    (hs : shapesOk C lm am symbols term)
    (hb : boundsOk ty symbols.length am.length
      (boundary.getD (symbols.length, am.length)).1 (boundary.getD (symbols.length, am.length)).2) :
    let b := boundary.getD (symbols.length, am.length)
    let logits := am.map fun a => lm.map fun l => List.zipWith (· + ·) a l
    lossJoint ty C symbols term boundary delay logits =
      some (lossOf ty b.1 b.2 delay
        (logprobsJoint softmaxAt (fun r => softmaxAt r term) ty symbols b.2 logits).1
        (logprobsJoint softmaxAt (fun r => softmaxAt r term) ty symbols b.2 logits).2) := by
  intro b logits
  obtain ⟨h1, h2, h3, h4, h5⟩ := hs
  unfold lossJoint
  have hl : logits.length = am.length := by simp [logits]
  simp only []
  rw [hl, if_pos]
  refine ⟨?_, h4, h5, hb⟩
  intro fr hfr
  obtain ⟨a, ha, rfl⟩ := List.mem_map.mp hfr
  refine ⟨by simp [h1], fun r hr => ?_⟩
  obtain ⟨l, hl, rfl⟩ := List.mem_map.mp hr
  simp [h2 l hl, h3 a ha]

/-- C74.  With `tiny = 0`, `rnnt_loss_simple` is exactly `rnnt_loss` on the logits
`am[t] + lm[s]`. -/
theorem simple_is_joint (ty : RnntType) (C : Nat) (symbols : List Nat) (term : Nat)
    (boundary : Option (Nat × Nat)) (delay : ℝ) (lm am : List (List ℝ))
    (hs : shapesOk C lm am symbols term) :
    lossSimple 0 ty C symbols term boundary delay lm am =
      lossJoint ty C symbols term boundary delay
        (am.map fun a => lm.map fun l => List.zipWith (· + ·) a l) := by
  by_cases hb : boundsOk ty symbols.length am.length
      (boundary.getD (symbols.length, am.length)).1 (boundary.getD (symbols.length, am.length)).2
  · rw [lossJoint_sum delay hs hb]
    unfold lossSimple
    simp only
    rw [if_pos ⟨hs, hb⟩]
    obtain ⟨h1, h2, h3, h4, h5⟩ := hs
    obtain ⟨hb1, hb2, hb3⟩ := hb
    congr 1
    simp only [logprobsSimple, logprobsJoint]
    generalize boundary.getD (symbols.length, am.length) = b at hb1 hb2 hb3 ⊢
    have key : ∀ s t c, s < lm.length → t < am.length → c < C →
        exp (simpleLog 0 (mrow lm s) (mrow am t) c) =
          softmaxAt (List.zipWith (· + ·) (mrow am t) (mrow lm s)) c := by
      intro s t c hs ht hc
      have e1 := h2 _ (mrow_mem hs)
      have e2 := h3 _ (mrow_mem ht)
      rw [simple_softmax le_rfl (by omega) (by omega), add_zero, div_self, mul_one]
      exact (overlap_pos (by apply List.length_pos_iff.mp; omega)).ne'
    refine finish_congr ty _ _ delay _ _ _ _ ?_ ?_
    · intro s t hs ht
      rw [joint_px softmaxAt _ am lm symbols (by omega) (by omega) (by omega),
        if_pos ⟨by omega, by omega⟩]
      exact key s t _ (by omega) (by omega) (symbol_lt h4 (by omega))
    · intro s t hs ht
      rw [joint_py _ _ am lm (by omega) (by omega), if_pos ⟨by omega, by omega⟩]
      exact key s t _ (by omega) (by omega) h5
  · unfold lossSimple lossJoint
    simp only []
    rw [List.length_map, if_neg (fun h => hb h.2), if_neg (fun h => hb h.2.2.2)]

/-- C74.  With the code's `tiny > 0` the simple probability is below that of `rnnt_loss`, by at
most the factor `(z / (z + tiny)) ^ (S + T)`, where `z` is any lower bound for the sums whose
logarithm is taken. -/
theorem simple_near_joint (tiny z : ℝ) (ht : 0 ≤ tiny) (hz : 0 < z) (ty : RnntType) (C : Nat)
    (symbols : List Nat) (term : Nat) (boundary : Option (Nat × Nat)) (delay : ℝ)
    (lm am : List (List ℝ))
    (hov : ∀ l ∈ lm, ∀ a ∈ am, z ≤ ((List.range C).map fun c =>
      exp (ent l c - rowMax l) * exp (ent a c - rowMax a)).sum) (p : ℝ)
    (hp : lossSimple tiny ty C symbols term boundary delay lm am = some p) :
    let b := boundary.getD (symbols.length, am.length)
    ∃ q, lossJoint ty C symbols term boundary delay
        (am.map fun a => lm.map fun l => List.zipWith (· + ·) a l) = some q ∧
      q * (z / (z + tiny)) ^ (b.1 + b.2) ≤ p ∧ p ≤ q := by
  unfold lossSimple at hp
  simp only at hp
  obtain ⟨⟨hs, hb⟩, hp⟩ := Option.ite_none_right_eq_some.mp hp
  intro b
  refine ⟨_, lossJoint_sum delay hs hb, ?_⟩
  show _ * _ ^ ((boundary.getD (symbols.length, am.length)).1 +
    (boundary.getD (symbols.length, am.length)).2) ≤ _ ∧ _
  clear b
  obtain ⟨h1, h2, h3, h4, h5⟩ := hs
  obtain ⟨hb1, hb2, hb3⟩ := hb
  rw [← Option.some.inj hp]
  simp only [logprobsSimple, logprobsJoint]
  clear hp
  generalize boundary.getD (symbols.length, am.length) = b at hb1 hb2 hb3 ⊢
  have hzt : 0 < z + tiny := by linarith
  have key : ∀ s t c, s < lm.length → t < am.length → c < C →
      0 ≤ softmaxAt (List.zipWith (· + ·) (mrow am t) (mrow lm s)) c ∧
      softmaxAt (List.zipWith (· + ·) (mrow am t) (mrow lm s)) c * (z / (z + tiny)) ≤
        exp (simpleLog tiny (mrow lm s) (mrow am t) c) ∧
      exp (simpleLog tiny (mrow lm s) (mrow am t) c) ≤
        softmaxAt (List.zipWith (· + ·) (mrow am t) (mrow lm s)) c := by
    intro s t c hs htt hc
    have e1 := h2 _ (mrow_mem hs)
    have e2 := h3 _ (mrow_mem htt)
    have h0 := (softmax_pos (List.zipWith (· + ·) (mrow am t) (mrow lm s)) c).le
    have hne : mrow lm s ≠ [] := by apply List.length_pos_iff.mp; omega
    have ho := overlap_pos (a := mrow am t) hne
    have hzo : z ≤ overlap (mrow lm s) (mrow am t) := by
      have := hov _ (mrow_mem hs) _ (mrow_mem htt)
      rw [sum_range_list] at this
      rw [overlap, e1]; exact this
    rw [simple_softmax ht (by omega) (by omega)]
    refine ⟨h0, mul_le_mul_of_nonneg_left ?_ h0,
      mul_le_of_le_one_right h0 (ratio_le_one ho ht)⟩
    rw [div_le_div_iff₀ hzt (by linarith)]
    nlinarith
  refine finish_bounds ty _ _ delay _ _ _ _ (by positivity) (ratio_le_one hz ht) ?_ ?_
  · intro s t hs ht
    rw [joint_px softmaxAt _ am lm symbols (by omega) (by omega) (by omega),
      if_pos ⟨by omega, by omega⟩]
    exact key s t _ (by omega) (by omega) (symbol_lt h4 (by omega))
  · intro s t hs ht
    rw [joint_py _ _ am lm (by omega) (by omega), if_pos ⟨by omega, by omega⟩]
    exact key s t _ (by omega) (by omega) h5

/-! ## Adding constants to the rows -/

/-- `m'` is `m` with a constant added to each row. -/
def Shifted (m m' : List (List ℝ)) : Prop :=
  List.Forall₂ (fun r r' => ∃ k : ℝ, r' = r.map (· + k)) m m'

theorem Shifted.length {m m' : List (List ℝ)} (h : Shifted m m') : m'.length = m.length :=
  (List.Forall₂.length_eq h).symm

theorem Shifted.row {m m' : List (List ℝ)} (h : Shifted m m') {i : Nat} (hi : i < m.length) :
    ∃ k : ℝ, mrow m' i = (mrow m i).map (· + k) := by
  induction h generalizing i with
  | nil => simp at hi
  | cons h1 h2 ih =>
    cases i with
    | zero => simpa [mrow] using h1
    | succ i => simpa [mrow] using ih (i := i) (by simpa using hi)

theorem Shifted.lengths {m m' : List (List ℝ)} (h : Shifted m m') {C : Nat} :
    (∀ r ∈ m', r.length = C) ↔ ∀ r ∈ m, r.length = C := by
  induction h with
  | nil => simp
  | cons h1 h2 ih =>
    obtain ⟨k, rfl⟩ := h1
    simp [ih]

theorem Shifted.shapes {lm lm' am am' : List (List ℝ)} (hl : Shifted lm lm') (ha : Shifted am am')
    {C : Nat} {symbols : List Nat} {term : Nat} :
    shapesOk C lm' am' symbols term ↔ shapesOk C lm am symbols term := by
  unfold shapesOk
  rw [hl.length, hl.lengths, ha.lengths]

/-- C74.  Adding a constant to all logits of a frame, or of a decoder position, does not change
the simple loss. -/
theorem simple_shift (tiny : ℝ) (ty : RnntType) (C : Nat) (symbols : List Nat) (term : Nat)
    (boundary : Option (Nat × Nat)) (delay : ℝ) (lm lm' am am' : List (List ℝ))
    (hl : Shifted lm lm') (ha : Shifted am am') :
    lossSimple tiny ty C symbols term boundary delay lm' am' =
      lossSimple tiny ty C symbols term boundary delay lm am := by
  unfold lossSimple
  simp only []
  rw [ha.length]
  generalize boundary.getD (symbols.length, am.length) = b
  by_cases hc : shapesOk C lm am symbols term ∧ boundsOk ty symbols.length am.length b.1 b.2
  · rw [if_pos hc, if_pos ⟨(hl.shapes ha).mpr hc.1, hc.2⟩]
    obtain ⟨⟨h1, h2, h3, h4, h5⟩, hb1, hb2, hb3⟩ := hc
    congr 1
    simp only [logprobsSimple]
    have key : ∀ s t c, s < lm.length → t < am.length → c < C →
        simpleLog tiny (mrow lm' s) (mrow am' t) c = simpleLog tiny (mrow lm s) (mrow am t) c := by
      intro s t c hs ht hc
      have e1 := h2 _ (mrow_mem hs)
      have e2 := h3 _ (mrow_mem ht)
      obtain ⟨k, hk⟩ := hl.row hs
      obtain ⟨m, hm⟩ := ha.row ht
      rw [hk, hm]
      exact simpleLog_add tiny (by apply List.length_pos_iff.mp; omega)
        (by apply List.length_pos_iff.mp; omega) k m (by omega) (by omega)
    refine finish_congr ty _ _ delay _ _ _ _ ?_ ?_
    · intro s t hs ht
      simp only [ha.length]
      rw [if_pos ⟨by omega, by omega⟩, if_pos ⟨by omega, by omega⟩,
        key s t _ (by omega) (by omega) (symbol_lt h4 (by omega))]
    · intro s t hs ht
      simp only [ha.length, hl.length]
      rw [if_pos ⟨by omega, by omega⟩, if_pos ⟨by omega, by omega⟩,
        key s t _ (by omega) (by omega) h5]
  · rw [if_neg hc, if_neg (fun h => hc ⟨(hl.shapes ha).mp h.1, h.2⟩)]

/-! ## C75: the delay penalty -/

/-- The frames at which an alignment emits its symbols. -/
def emitFrames (md : Bool) : Nat → List Step → List Nat
  | _, [] => []
  | t, .X :: l => t :: emitFrames md (t + Step.X.frames md) l
  | t, .Y :: l => emitFrames md (t + 1) l

/-- C75.  With a delay penalty `d`, the loss sums over the same alignments, each weighed by
`exp(d * sum over its symbols of ((T - 1) / 2 - frame))`. -/
theorem delay_penalty (ty : RnntType) (Sb Tb : Nat) (d : ℝ) (hd : 0 ≤ d)
    (px py : Nat → Nat → ℝ) :
    lossOf ty Sb Tb d px py =
      ∑ l ∈ alignments ty.isModified Sb Tb, weight ty.isModified px py 0 0 l *
        exp (d * ((emitFrames ty.isModified 0 l).map
          fun f : Nat => ((Tb : ℝ) - 1) / 2 - (f : ℝ)).sum) := by
  rw [lossOf_total, total]
  refine Finset.sum_congr rfl fun l hl => ?_
  clear hl
  generalize ty.isModified = md
  have hk : ∀ t, delayFactor d Tb t = exp (d * (((Tb : ℝ) - 1) / 2 - (t : ℝ))) := by
    intro t
    unfold delayFactor
    split
    · rw [mul_comm]
    · rename_i h
      have : d = 0 := le_antisymm (not_lt.mp h) hd
      simp [this]
  have : ∀ s t, weight md (delayPx d Tb px) py s t l = weight md px py s t l *
      exp (d * ((emitFrames md t l).map fun f : Nat => ((Tb : ℝ) - 1) / 2 - (f : ℝ)).sum) := by
    induction l with
    | nil => intro s t; simp [weight, emitFrames]
    | cons a l ih =>
      intro s t
      cases a with
      | X =>
        simp only [weight, emitFrames, List.map_cons, List.sum_cons, mul_add, exp_add]
        rw [ih, delayPx_eq, hk]
        ring
      | Y =>
        simp only [weight, emitFrames]
        rw [ih]; ring
  exact this 0 0

end Verif.Rnnt
