import Verif.Rnnt.LossModel
import Verif.Rnnt.Likelihood
import Mathlib.Analysis.MeanInequalities

/-!
# Rows of logits: softmax, HAT, the simple joiner, the smoothed joiner
-/

namespace Verif.Rnnt

open Real

theorem sum_getD (l : List ℝ) : l.sum = ∑ c ∈ Finset.range l.length, l.getD c 0 := by
  induction l with
  | nil => simp
  | cons x l ih =>
    rw [List.sum_cons, List.length_cons, Finset.sum_range_succ', ih]
    simp [add_comm]

theorem sum_range_list (n : Nat) (f : Nat → ℝ) :
    ((List.range n).map f).sum = ∑ c ∈ Finset.range n, f c := by
  induction n with
  | zero => simp
  | succ n ih => rw [List.range_succ, Finset.sum_range_succ, ← ih]; simp

theorem sum_map_ent (r : List ℝ) (f : ℝ → ℝ) :
    (r.map f).sum = ∑ c ∈ Finset.range r.length, f (ent r c) := by
  rw [sum_getD, List.length_map]
  refine Finset.sum_congr rfl fun c hc => ?_
  have := Finset.mem_range.mp hc
  simp [ent, List.getD_eq_getElem?_getD, this]

theorem ent_map (r : List ℝ) (f : ℝ → ℝ) {c : Nat} (hc : c < r.length) :
    ent (r.map f) c = f (ent r c) := by
  simp [ent, List.getD_eq_getElem?_getD, hc]

theorem ent_zipWith (f : ℝ → ℝ → ℝ) (a l : List ℝ) {c : Nat} (ha : c < a.length)
    (hl : c < l.length) : ent (List.zipWith f a l) c = f (ent a c) (ent l c) := by
  simp [ent, List.getD_eq_getElem?_getD, ha, hl, List.getElem?_zipWith]

/-- The sum of the two rows, each shifted by its maximum, in the probability domain. -/
noncomputable def overlap (l a : List ℝ) : ℝ :=
  ∑ c ∈ Finset.range l.length, exp (ent l c - rowMax l) * exp (ent a c - rowMax a)

theorem overlap_pos {l a : List ℝ} (h : l ≠ []) : 0 < overlap l a := by
  refine Finset.sum_pos (fun c _ => mul_pos (exp_pos _) (exp_pos _)) ?_
  have := List.length_pos_iff.mpr h
  exact ⟨0, Finset.mem_range.mpr this⟩

theorem simpleNorm_eq (tiny : ℝ) (l a : List ℝ) (h : a.length = l.length) :
    simpleNorm tiny l a = log (overlap l a + tiny) + rowMax l + rowMax a := by
  rw [simpleNorm, sum_getD]
  congr 4
  rw [overlap]
  have : (List.zipWith (· * ·) (expRow l) (expRow a)).length = l.length := by
    simp [expRow, h]
  rw [this]
  refine Finset.sum_congr rfl fun c hc => ?_
  have hc := Finset.mem_range.mp hc
  have := ent_zipWith (· * ·) (expRow l) (expRow a) (c := c) (by simpa [expRow])
    (by simpa [expRow, h])
  rw [ent] at this
  rw [this, expRow, expRow, ent_map _ _ hc, ent_map _ _ (by omega)]

theorem exp_logsumexp {r : List ℝ} (h : r ≠ []) :
    exp (logsumexp r) = ∑ c ∈ Finset.range r.length, exp (ent r c) := by
  rw [logsumexp, sum_map_ent, exp_log]
  refine Finset.sum_pos (fun c _ => exp_pos _) ?_
  exact ⟨0, Finset.mem_range.mpr (List.length_pos_iff.mpr h)⟩

theorem softmaxAt_eq {r : List ℝ} (h : r ≠ []) (c : Nat) :
    softmaxAt r c = exp (ent r c) / ∑ c ∈ Finset.range r.length, exp (ent r c) := by
  rw [softmaxAt, exp_sub, exp_logsumexp h]

theorem softmax_sum {r : List ℝ} (h : r ≠ []) :
    ∑ c ∈ Finset.range r.length, softmaxAt r c = 1 := by
  rw [Finset.sum_congr rfl fun c _ => softmaxAt_eq h c, ← Finset.sum_div, div_self]
  rw [← exp_logsumexp h]
  exact (exp_pos _).ne'

theorem exp_simpleLog {tiny : ℝ} (ht : 0 ≤ tiny) {l a : List ℝ} (h : a.length = l.length)
    (hl : l ≠ []) (c : Nat) :
    exp (simpleLog tiny l a c) =
      exp (ent l c - rowMax l) * exp (ent a c - rowMax a) / (overlap l a + tiny) := by
  rw [simpleLog, simpleNorm_eq tiny l a h, ← exp_add]
  have hp : 0 < overlap l a + tiny := add_pos_of_pos_of_nonneg (overlap_pos hl) ht
  rw [eq_div_iff hp.ne']
  conv_lhs => rw [← exp_log hp, ← exp_add]
  congr 1
  rw [exp_log hp]
  ring

/-- The simple joiner gives the softmax of the sum, up to `tiny` in the denominator. -/
theorem simple_softmax {tiny : ℝ} (ht : 0 ≤ tiny) {l a : List ℝ} (h : a.length = l.length)
    {c : Nat} (hc : c < l.length) :
    exp (simpleLog tiny l a c) =
      softmaxAt (List.zipWith (· + ·) a l) c * (overlap l a / (overlap l a + tiny)) := by
  have hl : l ≠ [] := by rintro rfl; simp at hc
  have hne : List.zipWith (· + ·) a l ≠ [] := by
    apply List.length_pos_iff.mp; simp [h]; omega
  have hz := overlap_pos (a := a) hl
  have hp : 0 < overlap l a + tiny := add_pos_of_pos_of_nonneg hz ht
  rw [exp_simpleLog ht h hl, softmaxAt_eq hne, ent_zipWith _ _ _ (by omega) hc]
  have hlen : (List.zipWith (· + ·) a l).length = l.length := by simp [h]
  rw [hlen]
  have hs : ∑ c ∈ Finset.range l.length, exp (ent (List.zipWith (· + ·) a l) c) =
      overlap l a * exp (rowMax l + rowMax a) := by
    rw [overlap, Finset.sum_mul]
    refine Finset.sum_congr rfl fun d hd => ?_
    have hd := Finset.mem_range.mp hd
    rw [ent_zipWith _ _ _ (by omega) hd, ← exp_add, ← exp_add]
    congr 1; ring
  rw [hs]
  have he : exp (ent l c - rowMax l) * exp (ent a c - rowMax a) * exp (rowMax l + rowMax a) =
      exp (ent a c + ent l c) := by
    rw [← exp_add, ← exp_add]; congr 1; ring
  rw [← he]
  have := exp_pos (rowMax l + rowMax a)
  field_simp

/-- The simple joiner at one position: the probabilities of all symbols add up to at most one. -/
theorem simple_sum {tiny : ℝ} (ht : 0 ≤ tiny) {l a : List ℝ} (h : a.length = l.length)
    (hl : l ≠ []) :
    ∑ c ∈ Finset.range l.length, exp (simpleLog tiny l a c) =
      overlap l a / (overlap l a + tiny) := by
  rw [Finset.sum_congr rfl fun c _ => exp_simpleLog ht h hl c, ← Finset.sum_div, overlap]

theorem ratio_le_one {z tiny : ℝ} (hz : 0 < z) (ht : 0 ≤ tiny) : z / (z + tiny) ≤ 1 := by
  rw [div_le_one (by linarith)]; linarith

/-! ## HAT -/

theorem hatBlank_eq (r : List ℝ) : hatBlank r = 1 / (1 + exp (-ent r 0)) := by
  rw [hatBlank, logsigmoid, exp_neg, exp_log, one_div]
  have := exp_pos (-ent r 0); linarith

theorem hatSymbol_eq (r : List ℝ) (c : Nat) :
    hatSymbol r c = exp (ent r c - logsumexp (r.drop 1)) * (1 - hatBlank r) := by
  rw [hatSymbol, exp_add]
  congr 1
  rw [exp_sub, ← hatBlank, hatBlank_eq, exp_neg]
  have := exp_pos (ent r 0)
  field_simp
  ring

theorem ent_drop (r : List ℝ) (c : Nat) : ent (r.drop 1) c = ent r (c + 1) := by
  simp [ent, List.getD_eq_getElem?_getD, Nat.add_comm]

theorem hat_sum (r : List ℝ) (h : 2 ≤ r.length) :
    ∑ c ∈ Finset.range (r.length - 1), hatSymbol r (c + 1) = 1 - hatBlank r := by
  have hne : r.drop 1 ≠ [] := by
    apply List.length_pos_iff.mp; simp; omega
  have : ∀ c, hatSymbol r (c + 1) = softmaxAt (r.drop 1) c * (1 - hatBlank r) := by
    intro c
    rw [hatSymbol_eq, softmaxAt, ent_drop]
  rw [Finset.sum_congr rfl fun c _ => this c, ← Finset.sum_mul]
  have := softmax_sum hne
  rw [List.length_drop] at this
  rw [this, one_mul]

/-! ## Adding constants -/

theorem foldl_max_add (r : List ℝ) (x k : ℝ) :
    (r.map (· + k)).foldl max (x + k) = r.foldl max x + k := by
  induction r generalizing x with
  | nil => rfl
  | cons y r ih =>
    simp only [List.map_cons, List.foldl_cons, max_add_add_right, ih]

theorem rowMax_add {r : List ℝ} (h : r ≠ []) (k : ℝ) : rowMax (r.map (· + k)) = rowMax r + k := by
  cases r with
  | nil => exact absurd rfl h
  | cons x r =>
    rw [rowMax, rowMax, ← foldl_max_add]
    simp

theorem expRow_add {r : List ℝ} (h : r ≠ []) (k : ℝ) : expRow (r.map (· + k)) = expRow r := by
  rw [expRow, rowMax_add h, List.map_map, expRow]
  refine List.map_congr_left fun x _ => ?_
  simp only [Function.comp_apply, add_sub_add_right_eq_sub]

theorem simpleLog_add (tiny : ℝ) {l a : List ℝ} (hl : l ≠ []) (ha : a ≠ []) (k m : ℝ) {c : Nat}
    (h1 : c < l.length) (h2 : c < a.length) :
    simpleLog tiny (l.map (· + k)) (a.map (· + m)) c = simpleLog tiny l a c := by
  rw [simpleLog, simpleLog, simpleNorm, simpleNorm, expRow_add hl, expRow_add ha, rowMax_add hl,
    rowMax_add ha, ent_map _ _ h1, ent_map _ _ h2]
  ring

theorem lmOnlyLog_add {l : List ℝ} (hl : l ≠ []) (k : ℝ) {c : Nat} (h1 : c < l.length) :
    lmOnlyLog (l.map (· + k)) c = lmOnlyLog l c := by
  rw [lmOnlyLog, lmOnlyLog, lmSum, lmSum, expRow_add hl, rowMax_add hl, ent_map _ _ h1]
  ring

theorem amOnlyLog_add (u : Nat → ℝ) {a : List ℝ} (ha : a ≠ []) (k : ℝ) {c : Nat}
    (h1 : c < a.length) : amOnlyLog u (a.map (· + k)) c = amOnlyLog u a c := by
  have : amOnlyNorm u (a.map (· + k)) = amOnlyNorm u a + k := by
    rw [amOnlyNorm, amOnlyNorm, rowMax_add ha, List.length_map, ← add_assoc]
    congr 4
    refine List.map_congr_left fun d hd => ?_
    rw [ent_map _ _ (List.mem_range.mp hd), add_sub_add_right_eq_sub]
  rw [amOnlyLog, amOnlyLog, this, ent_map _ _ h1]
  ring

/-! ## The smoothed joiner -/

theorem lmSum_pos {l : List ℝ} (hl : l ≠ []) : 0 < lmSum l := by
  rw [lmSum, expRow, sum_map_ent]
  exact Finset.sum_pos (fun c _ => exp_pos _)
    ⟨0, Finset.mem_range.mpr (List.length_pos_iff.mpr hl)⟩

theorem lmOnly_sum {l : List ℝ} (hl : l ≠ []) :
    ∑ c ∈ Finset.range l.length, exp (lmOnlyLog l c) = 1 := by
  have hp := lmSum_pos hl
  have : ∀ c, exp (lmOnlyLog l c) = exp (ent l c - rowMax l) / lmSum l := by
    intro c
    rw [lmOnlyLog, eq_div_iff hp.ne']
    conv_lhs => rw [← exp_log hp, ← exp_add]
    congr 1
    rw [exp_log hp]; ring
  rw [Finset.sum_congr rfl fun c _ => this c, ← Finset.sum_div]
  rw [lmSum, expRow, sum_map_ent, div_self]
  have := hp
  rw [lmSum, expRow, sum_map_ent] at this
  exact this.ne'

theorem amOnly_sum {u : Nat → ℝ} (hu : ∀ c, 0 < u c) {a : List ℝ} (ha : a ≠ []) :
    ∑ c ∈ Finset.range a.length, exp (amOnlyLog u a c) = 1 := by
  have hsum : ((List.range a.length).map fun c => exp (ent a c - rowMax a) * u c).sum =
      ∑ c ∈ Finset.range a.length, exp (ent a c - rowMax a) * u c := by
    exact sum_range_list _ _
  have hp : 0 < ∑ c ∈ Finset.range a.length, exp (ent a c - rowMax a) * u c :=
    Finset.sum_pos (fun c _ => mul_pos (exp_pos _) (hu c))
      ⟨0, Finset.mem_range.mpr (List.length_pos_iff.mpr ha)⟩
  have : ∀ c, exp (amOnlyLog u a c) = exp (ent a c - rowMax a) * u c /
      ∑ c ∈ Finset.range a.length, exp (ent a c - rowMax a) * u c := by
    intro c
    rw [amOnlyLog, amOnlyNorm, hsum, eq_div_iff hp.ne']
    conv_lhs => rw [← exp_log hp, ← exp_add]
    conv_rhs => rw [← exp_log (hu c), ← exp_add]
    congr 1
    rw [exp_log hp]; ring
  rw [Finset.sum_congr rfl fun c _ => this c, ← Finset.sum_div, div_self hp.ne']

theorem unigram_pos {tiny : ℝ} (ht : 0 < tiny) (lms : List (List ℝ)) (c : Nat) :
    0 < unigram tiny lms c := by
  refine add_pos_of_nonneg_of_pos (div_nonneg (List.sum_nonneg ?_) (Nat.cast_nonneg _)) ht
  intro x hx
  obtain ⟨l, _, rfl⟩ := List.mem_map.mp hx
  refine div_nonneg (exp_pos _).le (List.sum_nonneg ?_)
  intro y hy
  obtain ⟨z, _, rfl⟩ := List.mem_map.mp hy
  exact (exp_pos _).le

theorem fixScale_pos {x : ℝ} (h : 0 ≤ x) : 0 < fixScale x ∧ x ≤ fixScale x := by
  unfold fixScale
  split
  · rename_i e; subst e
    have : (0 : ℝ) < 1 / 10 ^ 20 := by positivity
    exact ⟨this, this.le⟩
  · rename_i e
    exact ⟨lt_of_le_of_ne h (Ne.symm e), le_rfl⟩

theorem smoothed_prob (tiny : ℝ) (u : Nat → ℝ) (ls as : ℝ) (l a : List ℝ) (c : Nat) :
    (smoothedLog tiny u ls as l a c).prob = some
      (exp (simpleLog tiny l a c) ^ (1 - ls - as) * exp (lmOnlyLog l c) ^ (fixScale ls) *
        exp (amOnlyLog u a c) ^ (fixScale as)) := by
  simp only [smoothedLog, interp, Ext.scale, Ext.add, Ext.prob, Option.some.injEq]
  rw [exp_add, exp_add, ← exp_mul, ← exp_mul, ← exp_mul]

/-- The geometric mean of three distributions is at most a distribution; a scale that was 0 makes
it only smaller. -/
theorem smoothed_sum {tiny : ℝ} (ht : 0 ≤ tiny) {u : Nat → ℝ} (hu : ∀ c, 0 < u c) {ls as : ℝ}
    (h1 : 0 ≤ ls) (h2 : 0 ≤ as) (h3 : ls + as ≤ 1) {l a : List ℝ} (h : a.length = l.length)
    (hl : l ≠ []) :
    ∑ c ∈ Finset.range l.length, ((smoothedLog tiny u ls as l a c).prob).getD 0 ≤ 1 := by
  have ha : a ≠ [] := by
    apply List.length_pos_iff.mp; rw [h]; exact List.length_pos_iff.mpr hl
  have e1 := lmOnly_sum hl
  have e2 := amOnly_sum hu ha
  rw [h] at e2
  have e3 := simple_sum ht h hl
  have e3' := ratio_le_one (overlap_pos (a := a) hl) ht
  have hle1 : ∀ c ∈ Finset.range l.length, exp (lmOnlyLog l c) ≤ 1 := fun c hc => by
    rw [← e1]
    exact Finset.single_le_sum (f := fun c => exp (lmOnlyLog l c)) (fun _ _ => (exp_pos _).le) hc
  have hle2 : ∀ c ∈ Finset.range l.length, exp (amOnlyLog u a c) ≤ 1 := fun c hc => by
    rw [← e2]
    exact Finset.single_le_sum (f := fun c => exp (amOnlyLog u a c)) (fun _ _ => (exp_pos _).le) hc
  have key : ∀ c ∈ Finset.range l.length, ((smoothedLog tiny u ls as l a c).prob).getD 0 ≤
      (1 - ls - as) * exp (simpleLog tiny l a c) + ls * exp (lmOnlyLog l c) +
        as * exp (amOnlyLog u a c) := by
    intro c hc
    rw [smoothed_prob, Option.getD_some]
    refine le_trans ?_ (Real.geom_mean_le_arith_mean3_weighted (by linarith) h1 h2
      (exp_pos _).le (exp_pos _).le (exp_pos _).le (by ring))
    refine mul_le_mul (mul_le_mul_of_nonneg_left ?_ (by positivity)) ?_ (by positivity)
      (by positivity)
    · exact rpow_le_rpow_of_exponent_ge (exp_pos _) (hle1 c hc) (fixScale_pos h1).2
    · exact rpow_le_rpow_of_exponent_ge (exp_pos _) (hle2 c hc) (fixScale_pos h2).2
  refine (Finset.sum_le_sum key).trans ?_
  rw [Finset.sum_add_distrib, Finset.sum_add_distrib, ← Finset.mul_sum, ← Finset.mul_sum,
    ← Finset.mul_sum, e1, e2, e3]
  nlinarith [mul_le_mul_of_nonneg_left e3' (by linarith : 0 ≤ 1 - ls - as)]

end Verif.Rnnt
