import Verif.Rnnt.LossLemmas
import Verif.Rnnt.PrunedProps

/-!
# The RNN-T losses are probabilities of transcripts (C73), agree with each other (C74), and the
delay penalty weighs alignments (C75)
-/

namespace Verif.Rnnt

open Real

theorem lossOf_total (ty : RnntType) (Sb Tb : Nat) (delay : ℝ) (px py : Nat → Nat → ℝ) :
    lossOf ty Sb Tb delay px py =
      total ty.isModified (delayPx delay Tb px) py 0 0 Sb Tb := by
  rw [lossOf, miForward_total _ _ _ (by omega) (by omega) _ (by omega) le_rfl (by omega) le_rfl]
  rfl

theorem delayPx_zero (Tb : Nat) (px : Nat → Nat → ℝ) : delayPx 0 Tb px = px := by
  simp [delayPx]

/-! ## Entries of the tables -/

/-- The logits that the joiner `J` gives to a transcript `z`: `J t u` is the row at frame `t`
after the symbols `u`. -/
def logitsOf {V : Type} (J : Nat → List Nat → V) (T : Nat) (z : List Nat) : List (List V) :=
  (List.range T).map fun t => (List.range (z.length + 1)).map fun s => J t (z.take s)

theorem logitsOf_px {V : Type} (fx : V → Nat → ℝ) (J : Nat → List Nat → V) (T : Nat)
    (z : List Nat) {s t : Nat} (hs : s < z.length) (ht : t < T) :
    table ((logitsOf J T z).map fun fr => List.zipWith fx (fr.take z.length) z) s t =
      fx (J t (z.take s)) (z.getD s 0) := by
  have h1 : s < z.length + 1 := by omega
  simp [table, logitsOf, List.getD_eq_getElem?_getD, ht, hs, List.getElem?_zipWith,
    List.getElem?_take, h1]

theorem logitsOf_py {V : Type} (fy : V → ℝ) (J : Nat → List Nat → V) (T : Nat)
    (z : List Nat) {s t : Nat} (hs : s ≤ z.length) (ht : t < T) :
    table ((logitsOf J T z).map fun fr => fr.map fy) s t = fy (J t (z.take s)) := by
  have h1 : s < z.length + 1 := by omega
  simp [table, logitsOf, List.getD_eq_getElem?_getD, ht, h1]

/-- What the transducer emits at a step. -/
def stepX {V : Type} (ty : RnntType) (fx : V → Nat → ℝ) (fy : V → ℝ) (J : Nat → List Nat → V)
    (u : List Nat) (t c : Nat) : ℝ :=
  match ty with
  | .constrained => fx (J t u) c * fy (J t (u ++ [c]))
  | _ => fx (J t u) c

theorem take_snoc {y : List Nat} {s : Nat} (h : s < y.length) :
    y.take (s + 1) = y.take s ++ [y.getD s 0] := by
  rw [List.take_succ_eq_append_getElem h, List.getD_eq_getElem?_getD,
    List.getElem?_eq_getElem h]
  rfl

/-- Padding a transcript does not change its total, which is that of the transducer. -/
theorem joint_total {V : Type} (ty : RnntType) (fx : V → Nat → ℝ) (fy : V → ℝ)
    (J : Nat → List Nat → V) (T T' : Nat) (hT : T ≤ T') (y pad : List Nat) :
    let full := logprobsJoint fx fy ty (y ++ pad) T (logitsOf J T' (y ++ pad))
    total ty.isModified full.1 full.2 0 0 y.length T =
      total ty.isModified (emitX T (stepX ty fx fy J) y) (emitY (fun u t => fy (J t u)) y) 0 0
        y.length T := by
  intro full
  have hlen : (y ++ pad).length = y.length + pad.length := List.length_append
  have htk : ∀ s, s ≤ y.length → (y ++ pad).take s = y.take s := by
    intro s hs
    rw [List.take_append_of_le_length hs]
  have hpy : ∀ s t, s ≤ y.length → t < T → full.2 s t = fy (J t (y.take s)) := by
    intro s t hs ht
    show table _ s t = _
    rw [logitsOf_py fy J T' (y ++ pad) (by omega) (by omega), htk s hs]
  have hget : ∀ s, s < y.length → (y ++ pad).getD s 0 = y.getD s 0 := by
    intro s hs
    simp [List.getD_eq_getElem?_getD, List.getElem?_append_left hs]
  have hpx : ∀ s t, s < y.length → t < T →
      table ((logitsOf J T' (y ++ pad)).map fun fr =>
        List.zipWith fx (fr.take (y ++ pad).length) (y ++ pad)) s t =
        fx (J t (y.take s)) (y.getD s 0) := by
    intro s t hs ht
    rw [logitsOf_px fx J T' (y ++ pad) (by omega) (by omega), htk s hs.le, hget s hs]
  refine total_congr _ _ _ _ _ _ _ ?_ ?_
  · intro s t hs ht
    cases ty with
    | regular =>
      show (if t = T then 0 else table _ s t) = _
      simp only [RnntType.isModified, Step.frames] at ht
      by_cases e : t = T
      · simp [e, emitX]
      · have h' : t < T := by simp at ht; omega
        rw [if_neg e, hpx s t hs h']
        simp [emitX, h', stepX]
    | modified =>
      simp only [RnntType.isModified, Step.frames, if_true] at ht
      have h' : t < T := by omega
      show table _ s t = _
      rw [hpx s t hs h']
      simp [emitX, h', stepX]
    | constrained =>
      simp only [RnntType.isModified, Step.frames, if_true] at ht
      have h' : t < T := by omega
      show table _ s t * full.2 (s + 1) t = _
      rw [hpx s t hs h', hpy (s + 1) t (by omega) h', take_snoc hs]
      simp only [emitX, h', if_true, stepX]
  · intro s t hs ht
    rw [hpy s t hs ht, emitY]

/-- The probabilities of distinct transcripts add up to at most one, for every type. -/
theorem joint_le_one {V : Type} (ty : RnntType) (fx : V → Nat → ℝ) (fy : V → ℝ)
    (J : Nat → List Nat → V) (voc : Finset Nat) (T : Nat)
    (hfx : ∀ t u c, t < T → c ∈ voc → 0 ≤ fx (J t u) c)
    (hfy : ∀ t u, t < T → 0 ≤ fy (J t u))
    (h1 : ∀ t u, t < T → (∀ c ∈ u, c ∈ voc) → fy (J t u) + ∑ c ∈ voc, fx (J t u) c ≤ 1)
    (Y : Finset (List Nat)) (hY : ∀ y ∈ Y, ∀ c ∈ y, c ∈ voc) :
    ∑ y ∈ Y, total ty.isModified (emitX T (stepX ty fx fy J) y)
      (emitY (fun u t => fy (J t u)) y) 0 0 y.length T ≤ 1 := by
  refine totals_le_one _ T _ _ voc ?_ (fun u t ht => hfy t u ht) ?_ Y hY
  · intro u t c ht hc
    cases ty with
    | constrained => exact mul_nonneg (hfx t u c ht hc) (hfy t _ ht)
    | regular => exact hfx t u c ht hc
    | modified => exact hfx t u c ht hc
  · intro u t ht hu
    refine le_trans (add_le_add_right (Finset.sum_le_sum fun c hc => ?_) _) (h1 t u ht hu)
    cases ty with
    | constrained =>
      refine mul_le_of_le_one_right (hfx t u c ht hc) ?_
      have hu' : ∀ d ∈ u ++ [c], d ∈ voc := by
        intro d hd
        rcases List.mem_append.mp hd with h | h
        · exact hu d h
        · rw [List.mem_singleton.mp h]; exact hc
      have := h1 t (u ++ [c]) ht hu'
      have hs : 0 ≤ ∑ d ∈ voc, fx (J t (u ++ [c])) d :=
        Finset.sum_nonneg fun d hd => hfx t _ d ht hd
      linarith
    | regular => exact le_rfl
    | modified => exact le_rfl

/-! ## C73: distributions over transcripts -/

/-- Symbols a transcript may contain: all but the termination symbol. -/
def vocab (C term : Nat) : Finset Nat := (Finset.range C).erase term

theorem mem_vocab {C term c : Nat} : c ∈ vocab C term ↔ c < C ∧ c ≠ term := by
  simp [vocab, and_comm]

theorem softmax_vocab {C term : Nat} (hterm : term < C) {r : List ℝ} (hr : r.length = C) :
    softmaxAt r term + ∑ c ∈ vocab C term, softmaxAt r c = 1 := by
  have hne : r ≠ [] := by apply List.length_pos_iff.mp; omega
  rw [vocab, Finset.add_sum_erase _ _ (Finset.mem_range.mpr hterm), ← hr]
  exact softmax_sum hne

theorem softmax_pos (r : List ℝ) (c : Nat) : 0 < softmaxAt r c := exp_pos _

theorem lossJoint_some {ty : RnntType} {C : Nat} {symbols : List Nat} {term : Nat}
    {b : Nat × Nat} {delay : ℝ} {logits : List (List (List ℝ))} {p : ℝ}
    (h : lossJoint ty C symbols term (some b) delay logits = some p) :
    term < C ∧ b.2 ≤ logits.length ∧
      p = lossOf ty b.1 b.2 delay
        (logprobsJoint softmaxAt (fun r => softmaxAt r term) ty symbols b.2 logits).1
        (logprobsJoint softmaxAt (fun r => softmaxAt r term) ty symbols b.2 logits).2 := by
  unfold lossJoint at h
  simp only [Option.getD_some] at h
  split at h
  · rename_i hc
    exact ⟨hc.2.2.1, hc.2.2.2.2.1, (Option.some.inj h).symm⟩
  · exact absurd h (by simp)

/-- C73.  Fix a joiner, whose logits at a frame may depend on the symbols before, and a number of
frames `T`.  For any finite set of distinct transcripts, padded in any way as a batch is, the
probabilities `exp(-rnnt_loss)` add up to at most one, for all three types. -/
theorem joint_distribution (ty : RnntType) (C term T T' : Nat) (J : Nat → List Nat → List ℝ)
    (hJ : ∀ t u, (J t u).length = C) (pad : List Nat → List Nat) (Y : Finset (List Nat))
    (hY : ∀ y ∈ Y, ∀ c ∈ y, c < C ∧ c ≠ term) (p : List Nat → ℝ)
    (hp : ∀ y ∈ Y, lossJoint ty C (y ++ pad y) term (some (y.length, T)) 0
      (logitsOf J T' (y ++ pad y)) = some (p y)) :
    ∑ y ∈ Y, p y ≤ 1 := by
  rcases Y.eq_empty_or_nonempty with rfl | ⟨y0, hy0⟩
  · simp
  obtain ⟨hterm, hT, _⟩ := lossJoint_some (hp y0 hy0)
  simp only [logitsOf, List.length_map, List.length_range] at hT
  have e : ∀ y ∈ Y, p y = total ty.isModified
      (emitX T (stepX ty softmaxAt (fun r => softmaxAt r term) J) y)
      (emitY (fun u t => softmaxAt (J t u) term) y) 0 0 y.length T := by
    intro y hy
    obtain ⟨_, _, h⟩ := lossJoint_some (hp y hy)
    rw [h, lossOf_total, delayPx_zero]
    exact joint_total ty softmaxAt (fun r => softmaxAt r term) J T T' hT y (pad y)
  rw [Finset.sum_congr rfl e]
  exact joint_le_one ty softmaxAt (fun r => softmaxAt r term) J (vocab C term) T
    (fun t u c _ _ => (softmax_pos _ _).le) (fun t u _ => (softmax_pos _ _).le)
    (fun t u _ _ => (softmax_vocab hterm (hJ t u)).le) Y
    (fun y hy c hc => mem_vocab.mpr (hY y hy c hc))

/-- C73.  Modified RNN-T: all transcripts with at most `T` symbols together have probability
exactly one, and none of the losses fails. -/
theorem joint_distribution_exact (C term T T' : Nat) (hT : T ≤ T') (hterm : term < C)
    (J : Nat → List Nat → List ℝ) (hJ : ∀ t u, (J t u).length = C)
    (pad : List Nat → List Nat) (hpad : ∀ y, ∀ c ∈ pad y, c < C) (Y : Finset (List Nat))
    (hY : ∀ y, y ∈ Y ↔ y.length ≤ T ∧ ∀ c ∈ y, c < C ∧ c ≠ term) :
    ∃ p : List Nat → ℝ,
      (∀ y ∈ Y, lossJoint .modified C (y ++ pad y) term (some (y.length, T)) 0
        (logitsOf J T' (y ++ pad y)) = some (p y)) ∧
      ∑ y ∈ Y, p y = 1 := by
  refine ⟨fun y => total true
      (emitX T (stepX .modified softmaxAt (fun r => softmaxAt r term) J) y)
      (emitY (fun u t => softmaxAt (J t u) term) y) 0 0 y.length T, ?_, ?_⟩
  · intro y hy
    obtain ⟨h1, h2⟩ := (hY y).mp hy
    unfold lossJoint
    rw [if_pos]
    · simp only [Option.getD_some]
      rw [lossOf_total, delayPx_zero]
      exact congrArg some
        (joint_total .modified softmaxAt (fun r => softmaxAt r term) J T T' hT y (pad y))
    · refine ⟨?_, ?_, hterm, ?_⟩
      · intro fr hfr
        obtain ⟨t, _, rfl⟩ := List.mem_map.mp hfr
        refine ⟨by simp, fun r hr => ?_⟩
        obtain ⟨s, _, rfl⟩ := List.mem_map.mp hr
        exact hJ _ _
      · intro c hc
        rcases List.mem_append.mp hc with h | h
        · exact (h2 c h).1
        · exact hpad y c h
      · exact ⟨by simp, by simpa [logitsOf] using hT, Or.inr h1⟩
  · exact totals_eq_one T _ _ (vocab C term)
      (fun u t _ _ => softmax_vocab hterm (hJ t u)) Y T le_rfl
      (fun y => by rw [hY y]; simp only [mem_vocab])

theorem hat_vocab {C : Nat} (hC : 0 < C) {r : List ℝ} (hr : r.length = C) :
    hatBlank r + ∑ c ∈ vocab C 0, hatSymbol r c ≤ 1 := by
  have hb : 0 ≤ 1 - hatBlank r := by
    rw [hatBlank_eq]
    have := exp_pos (-ent r 0)
    rw [sub_nonneg, div_le_one (by linarith)]
    linarith
  have e : ∑ c ∈ vocab C 0, hatSymbol r c = ∑ c ∈ Finset.range (C - 1), hatSymbol r (c + 1) := by
    obtain ⟨n, rfl⟩ : ∃ n, C = n + 1 := ⟨C - 1, by omega⟩
    have := Finset.sum_range_succ' (hatSymbol r) n
    rw [← Finset.add_sum_erase _ _ (Finset.mem_range.mpr hC)] at this
    simp only [vocab, Nat.add_sub_cancel]
    linarith
  rw [e]
  rcases Nat.lt_or_ge 1 C with h | h
  · have := hat_sum r (by omega)
    rw [hr] at this
    rw [this]; linarith
  · have : C - 1 = 0 := by omega
    rw [this]; simp; linarith

/-- Pruning keeps some of the alignments with their weights, so the score gets no larger. -/
theorem pruned_le {L A V : Type} (fx : V → Nat → ℝ) (fy : V → ℝ) (hfx : ∀ v c, 0 ≤ fx v c)
    (hfy : ∀ v, 0 ≤ fy v) (J : A → L → V) (ty : RnntType) (symbols : List Nat) (term : Nat)
    (am : List A) (lm : List L) (hlm : lm.length = symbols.length + 1) (Sb Tb : Nat)
    (hSb : Sb ≤ symbols.length) (hTb : Tb ≤ am.length) (rows : List (List Int)) (r : Nat)
    (s0 : Nat → Int) (hrows : Consecutive rows am.length symbols.length r s0) :
    ∃ pruned px py, doPruning am lm rows = some pruned ∧
      logprobsPruned fx fy ty symbols term Tb
        (pruned.map (·.map fun p => J p.1 p.2)) rows = some (px, py) ∧
      let full := logprobsJoint fx fy ty symbols Tb (am.map fun a => lm.map (J a))
      lossOf ty Sb Tb 0 px py ≤ total ty.isModified full.1 full.2 0 0 Sb Tb := by
  classical
  obtain ⟨pruned, px, py, h1, h2, h3, h4⟩ := pruned_score fx fy J ty symbols term am lm hlm Sb Tb
    hSb hTb rows r s0 hrows (fun _ _ => 0)
  refine ⟨pruned, px, py, h1, h2, ?_⟩
  intro full
  rw [lossOf, delayPx_zero, h3, total]
  have hpy : ∀ s t, 0 ≤ full.2 s t := by
    intro s t
    show 0 ≤ table _ s t
    simp only [table, List.getD_eq_getElem?_getD, List.getElem?_map]
    cases am[t]? with
    | none => simp
    | some a =>
      simp only [Option.map_some, Option.getD_some, List.map_map, List.getElem?_map]
      cases lm[s]? with
      | none => simp
      | some l => simp [hfy]
  have hpx0 : ∀ s t, 0 ≤ table ((am.map fun a => lm.map (J a)).map fun fr =>
      List.zipWith fx (fr.take symbols.length) symbols) s t := by
    intro s t
    simp only [table, List.getD_eq_getElem?_getD, List.getElem?_map]
    cases am[t]? with
    | none => simp
    | some a =>
      simp only [Option.map_some, Option.getD_some, List.getElem?_zipWith]
      split <;> simp [hfx]
  have hpx : ∀ s t, 0 ≤ full.1 s t := by
    intro s t
    show 0 ≤ finishPx ty Tb _ _ s t
    cases ty with
    | regular =>
      simp only [finishPx]
      split
      · exact le_rfl
      · exact hpx0 s t
    | modified => exact hpx0 s t
    | constrained => exact mul_nonneg (hpx0 s t) (hpy (s + 1) t)
  refine Finset.sum_le_sum_of_subset_of_nonneg (Finset.filter_subset _ _) fun l _ _ => ?_
  exact weight_nonneg _ _ _ hpx hpy 0 0 l

theorem lossPruned_some {hat : Bool} {ty : RnntType} {C : Nat} {symbols : List Nat} {term : Nat}
    {ranges : List (List Int)} {b : Nat × Nat} {delay : ℝ} {logits : List (List (List ℝ))} {p : ℝ}
    (h : lossPruned hat ty C symbols term ranges (some b) delay logits = some p) :
    term < C ∧ b.1 ≤ symbols.length ∧ b.2 ≤ logits.length ∧ (hat = true → term = 0) ∧
      ∃ px py, logprobsPruned (if hat then hatSymbol else softmaxAt)
        (if hat then hatBlank else fun r => softmaxAt r term) ty symbols term b.2 logits ranges =
          some (px, py) ∧ p = lossOf ty b.1 b.2 delay px py := by
  unfold lossPruned at h
  simp only [Option.getD_some] at h
  obtain ⟨⟨_, _, h3, h4, h5, h6⟩, h⟩ := Option.ite_none_right_eq_some.mp h
  refine ⟨h3, h4, h5, ?_, ?_⟩
  · intro e; rw [if_pos e] at h6; exact h6.1
  · cases hat with
    | true =>
      simp only [if_true] at h ⊢
      obtain ⟨⟨px, py⟩, e1, e2⟩ := Option.map_eq_some_iff.mp h
      exact ⟨px, py, e1, e2.symm⟩
    | false =>
      simp only [Bool.false_eq_true, if_false] at h ⊢
      obtain ⟨⟨px, py⟩, e1, e2⟩ := Option.map_eq_some_iff.mp h
      exact ⟨px, py, e1, e2.symm⟩

/-- C73.  Pruned RNN-T and HAT: with any joiner of an encoder row and a decoder row that depends
on the symbols before, and ranges of the documented form chosen for each transcript on its own,
the probabilities of distinct transcripts add up to at most one. -/
theorem pruned_distribution {A L : Type} (hat : Bool) (ty : RnntType) (C term T : Nat)
    (am : List A) (dec : List Nat → L) (J : A → L → List ℝ) (hJ : ∀ a l, (J a l).length = C)
    (pad : List Nat → List Nat) (rows : List Nat → List (List Int)) (r : List Nat → Nat)
    (s0 : List Nat → Nat → Int) (Y : Finset (List Nat))
    (hrows : ∀ y ∈ Y, Consecutive (rows y) am.length (y ++ pad y).length (r y) (s0 y))
    (hY : ∀ y ∈ Y, ∀ c ∈ y, c < C ∧ c ≠ term) (p : List Nat → ℝ)
    (hp : ∀ y ∈ Y, ∀ pruned, doPruning am
        ((List.range ((y ++ pad y).length + 1)).map fun s => dec ((y ++ pad y).take s)) (rows y) =
          some pruned →
      lossPruned hat ty C (y ++ pad y) term (rows y) (some (y.length, T)) 0
        (pruned.map (·.map fun q => J q.1 q.2)) = some (p y)) :
    ∑ y ∈ Y, p y ≤ 1 := by
  rcases Y.eq_empty_or_nonempty with rfl | ⟨y0, hy0⟩
  · simp
  -- the joiner as a function of frame and prefix
  have hfx : ∀ (v : List ℝ) c, 0 ≤ (if hat then hatSymbol else softmaxAt) v c := by
    intro v c
    cases hat
    · exact (exp_pos _).le
    · exact (exp_pos _).le
  have hfy : ∀ v : List ℝ, 0 ≤ (if hat then hatBlank else fun r => softmaxAt r term) v := by
    intro v
    cases hat
    · exact (exp_pos _).le
    · exact (exp_pos _).le
  have hlen : ∀ rows' : List (List Int), ∀ lm : List L, ∀ pruned, doPruning am lm rows' = some pruned →
      pruned.length = am.length := by
    intro rows' lm pruned h
    unfold doPruning at h
    split at h
    · rename_i e
      rw [(Verif.Util.mapM_get h).1]
      simp [e]
    · exact absurd h (by simp)
  have base : ∀ y ∈ Y, T ≤ am.length ∧ term < C ∧ (hat = true → term = 0) := by
    intro y hy
    obtain ⟨pruned, px, py, h1, h2, _⟩ := pruned_le (if hat then hatSymbol else softmaxAt)
      (if hat then hatBlank else fun r => softmaxAt r term) hfx hfy J ty (y ++ pad y) term am
      ((List.range ((y ++ pad y).length + 1)).map fun s => dec ((y ++ pad y).take s)) (by simp)
      0 0 (by omega) (by omega) (rows y) (r y) (s0 y) (hrows y hy)
    obtain ⟨g1, g2, g3, g4, _⟩ := lossPruned_some (hp y hy pruned h1)
    refine ⟨?_, g1, g4⟩
    rw [List.length_map, hlen _ _ _ h1] at g3
    exact g3
  obtain ⟨hT, hterm, hz⟩ := base y0 hy0
  let J' : Nat → List Nat → List ℝ := fun t u => (am[t]?.map fun a => J a (dec u)).getD []
  have hJ' : ∀ t u, t < T → (J' t u).length = C := by
    intro t u ht
    have : t < am.length := by omega
    simp [J', this, hJ]
  have e : ∀ y ∈ Y, p y ≤ total ty.isModified
      (emitX T (stepX ty (if hat then hatSymbol else softmaxAt)
        (if hat then hatBlank else fun r => softmaxAt r term) J') y)
      (emitY (fun u t => (if hat then hatBlank else fun r => softmaxAt r term) (J' t u)) y) 0 0
        y.length T := by
    intro y hy
    obtain ⟨pruned, px, py, h1, h2, h3⟩ := pruned_le (if hat then hatSymbol else softmaxAt)
      (if hat then hatBlank else fun r => softmaxAt r term) hfx hfy J ty (y ++ pad y) term am
      ((List.range ((y ++ pad y).length + 1)).map fun s => dec ((y ++ pad y).take s)) (by simp)
      y.length T (by simp) hT (rows y) (r y) (s0 y) (hrows y hy)
    obtain ⟨_, _, _, _, px', py', g5, g6⟩ := lossPruned_some (hp y hy pruned h1)
    rw [h2] at g5
    obtain ⟨rfl, rfl⟩ := Prod.mk.inj (Option.some.inj g5)
    rw [g6]
    refine h3.trans (le_of_eq ?_)
    rw [← joint_total ty _ _ J' T am.length hT y (pad y)]
    have : (am.map fun a => ((List.range ((y ++ pad y).length + 1)).map fun s =>
        dec ((y ++ pad y).take s)).map (J a)) = logitsOf J' am.length (y ++ pad y) := by
      apply List.ext_getElem
      · simp [logitsOf]
      · intro t h1 h2
        have ht : t < am.length := by simpa using h1
        simp [logitsOf, J', ht]
    rw [this]
  refine (Finset.sum_le_sum e).trans ?_
  refine joint_le_one ty _ _ J' (vocab C term) T (fun t u c _ _ => hfx _ _)
    (fun t u _ => hfy _) ?_ Y (fun y hy c hc => mem_vocab.mpr (hY y hy c hc))
  intro t u ht _
  cases hat with
  | true =>
    obtain rfl := hz rfl
    simp only [if_true]
    exact hat_vocab hterm (hJ' t u ht)
  | false =>
    simp only [Bool.false_eq_true, if_false]
    exact (softmax_vocab hterm (hJ' t u ht)).le

end Verif.Rnnt
