import Verif.Ragged.ReduceModel
import Verif.Ragged.CatLemmas
import Mathlib.Tactic.Ring
import Mathlib.Tactic.Linarith

/-! Helper lemmas for `ReduceProps.lean`. -/

namespace Verif.Ragged
open Verif.Util
variable {α σ β K : Type}

/-- The state after the elements of a row that begins at position `j`. -/
def rowFold (step : Nat → α → σ → σ) : Nat → List α → σ → σ
  | _, [], s => s
  | j, x :: l, s => rowFold step (j + 1) l (step j x s)

theorem scanRow_eq (step : Nat → α → σ → σ) (row pre post : List α) (s : σ) :
    scanRow step (pre ++ row ++ post) pre.length row.length s = some (rowFold step pre.length row s) := by
  induction row generalizing pre s with
  | nil => rfl
  | cons x row ih =>
    have h := ih (pre ++ [x]) (step pre.length x s)
    simp only [List.append_assoc, List.singleton_append, List.length_append, List.length_singleton] at h
    simp only [List.length_cons, scanRow, List.append_assoc]
    rw [List.getElem?_append_right (Nat.le_refl _)]
    simpa [rowFold] using h

theorem rowsLoop_eq (step : Nat → α → σ → σ) (init : σ) (L : List (List α)) (pre : List α) :
    rowsLoop step init (pre ++ L.flatten) pre.length (psumFrom pre.length (L.map List.length)).tail =
      some ((List.range L.length).map (fun r => rowFold step (pre.length + splits L r) (L.getD r []) init)) := by
  induction L generalizing pre with
  | nil => rfl
  | cons row L ih =>
    have h := ih (pre ++ row)
    simp only [List.length_append, List.append_assoc] at h
    have hs := scanRow_eq step row pre L.flatten init
    rw [List.append_assoc] at hs
    have ht : ∀ a, psumFrom a (L.map List.length) = a :: (psumFrom a (L.map List.length)).tail := by
      intro a; cases L <;> rfl
    rw [List.map_cons, psumFrom, List.tail_cons, ht, rowsLoop]
    rw [List.flatten_cons, Nat.add_sub_cancel_left, hs, Option.bind_some, Nat.max_eq_right (by omega), h,
      Option.map_some, List.length_cons, List.range_succ_eq_map, List.map_cons, List.map_map]
    refine congrArg some ?_
    congr 1
    apply List.map_congr_left
    intro r _
    simp only [Function.comp]
    congr 1
    simp [splits, Nat.add_assoc]

theorem rowFold_const (op : α → α → α) (j : Nat) (row : List α) (s : α) :
    rowFold (fun _ elem val => op elem val) j row s = row.foldl (fun val elem => op elem val) s := by
  induction row generalizing j s with
  | nil => rfl
  | cons x row ih => exact ih _ _

theorem psum_head (L : List (List α)) : (psum (L.map List.length)).head? = some 0 := by
  cases L <;> rfl

theorem segmentedReduce_eq (op : α → α → α) (init : α) (L : List (List α)) :
    segmentedReduce op init (psum (L.map List.length)) L.flatten =
      some (L.map (fun row => row.foldl (fun val elem => op elem val) init)) := by
  have h := rowsLoop_eq (fun _ elem val => op elem val) init L []
  simp only [List.nil_append, List.length_nil] at h
  rw [segmentedReduce, psum_head, Option.bind_some, psum, h]
  refine congrArg some ?_
  apply List.ext_getElem
  · simp
  · intro r h1 h2
    simp at h1
    simp [rowFold_const, List.getElem?_eq_getElem h1]

theorem eval_foldl (op : α → α → α) (row : List α) (l : List α) (x : α) (h : Eval op l x) :
    Eval op (row.reverse ++ l) (row.foldl (fun val elem => op elem val) x) := by
  induction row generalizing l x with
  | nil => exact h
  | cons y row ih =>
    have := ih ([y] ++ l) (op y x) (.node (.leaf y) h)
    simpa using this

/-- The rows between the row_splits. -/
theorem drop_take_row (L : List (List α)) (r lo hi : Nat) (h1 : (psum (L.map List.length))[r]? = some lo)
    (h2 : (psum (L.map List.length))[r + 1]? = some hi) :
    ∃ row, L[r]? = some row ∧ (L.flatten.drop lo).take (hi - lo) = row := by
  have hr : r + 1 < (psum (L.map List.length)).length := (List.getElem?_eq_some_iff.mp h2).1
  simp at hr
  rw [psum_splits L r (by omega)] at h1
  rw [psum_splits L (r + 1) (by omega)] at h2
  obtain rfl := Option.some.inj h1
  obtain rfl := Option.some.inj h2
  refine ⟨L[r], List.getElem?_eq_getElem hr, ?_⟩
  rw [splits_succ L r L[r] (List.getElem?_eq_getElem hr), Nat.add_sub_cancel_left]
  clear h1 h2
  induction L generalizing r with
  | nil => simp at hr
  | cons row L ih =>
    cases r with
    | zero => simp [splits]
    | succ r =>
      have := ih r (by simpa using hr)
      have e : splits (row :: L) (r + 1) = row.length + splits L r := by simp [splits]
      rw [List.flatten_cons, List.getElem_cons_succ, e, ← List.drop_drop, List.drop_left]
      exact this

theorem gpu_rows {op : α → α → α} {init : α} {L : List (List α)} {out : List α}
    (h : GpuReduce op init (psum (L.map List.length)) L.flatten out) :
    out.length = L.length ∧ ∀ (r : Nat) (row : List α), L[r]? = some row → ∃ v, out[r]? = some v ∧ GpuRow op init row v := by
  refine ⟨by simpa using h.1, ?_⟩
  intro r row hr
  have hl := (List.getElem?_eq_some_iff.mp hr).1
  have h1 := psum_splits L r (by omega)
  have h2 := psum_splits L (r + 1) (by omega)
  obtain ⟨v, hv, hg⟩ := h.2 r _ _ h1 h2
  obtain ⟨row', hr', e⟩ := drop_take_row L r _ _ h1 h2
  rw [e] at hg
  obtain rfl := Option.some.inj (hr.symm.trans hr')
  exact ⟨v, hv, hg⟩

theorem rows_gpu {op : α → α → α} {init : α} {L : List (List α)} {out : List α} (hlen : out.length = L.length)
    (h : ∀ (r : Nat) (row : List α), L[r]? = some row → ∃ v, out[r]? = some v ∧ GpuRow op init row v) :
    GpuReduce op init (psum (L.map List.length)) L.flatten out := by
  refine ⟨by simp [hlen], ?_⟩
  intro r lo hi h1 h2
  obtain ⟨row, hr, e⟩ := drop_take_row L r lo hi h1 h2
  rw [e]
  exact h r row hr

/-- The order of the CPU is one of the possible orders. -/
theorem cpu_gpu {op : α → α → α} {init : α} {L : List (List α)} {out : List α}
    (h : segmentedReduce op init (psum (L.map List.length)) L.flatten = some out) :
    GpuReduce op init (psum (L.map List.length)) L.flatten out := by
  rw [segmentedReduce_eq] at h
  obtain rfl := Option.some.inj h
  apply rows_gpu (by simp)
  intro r row hr
  refine ⟨_, by simp [hr], row.reverse ++ [init], ?_, eval_foldl op row [init] init (.leaf init)⟩
  exact (List.perm_append_comm).trans ((List.reverse_perm row).cons init)

/-! ## What an evaluation returns -/

theorem eval_sum [AddCommMonoid K] {l : List K} {v : K} (h : Eval (· + ·) l v) : v = l.sum := by
  induction h with
  | leaf x => simp
  | node _ _ i1 i2 => rw [List.sum_append, i1, i2]

theorem eval_max [LinearOrder K] {l : List K} {v : K} (h : Eval maxOp l v) : v ∈ l ∧ ∀ x ∈ l, x ≤ v := by
  induction h with
  | leaf x => simp
  | @node l m x y _ _ i1 i2 =>
    unfold maxOp
    split
    · next hlt =>
      refine ⟨by simp [i1.1], fun z hz => ?_⟩
      rcases List.mem_append.mp hz with hz | hz
      · exact i1.2 z hz
      · exact (i2.2 z hz).trans hlt.le
    · next hle =>
      refine ⟨by simp [i2.1], fun z hz => ?_⟩
      rcases List.mem_append.mp hz with hz | hz
      · exact (i1.2 z hz).trans (not_lt.mp hle)
      · exact i2.2 z hz

theorem eval_min [LinearOrder K] {l : List K} {v : K} (h : Eval minOp l v) : v ∈ l ∧ ∀ x ∈ l, v ≤ x := by
  induction h with
  | leaf x => simp
  | @node l m x y _ _ i1 i2 =>
    unfold minOp
    split
    · next hlt =>
      refine ⟨by simp [i2.1], fun z hz => ?_⟩
      rcases List.mem_append.mp hz with hz | hz
      · exact hlt.le.trans (i1.2 z hz)
      · exact i2.2 z hz
    · next hle =>
      refine ⟨by simp [i1.1], fun z hz => ?_⟩
      rcases List.mem_append.mp hz with hz | hz
      · exact i1.2 z hz
      · exact (not_lt.mp hle).trans (i2.2 z hz)

theorem eval_and {w : Nat} {l : List (BitVec w)} {v : BitVec w} (h : Eval (· &&& ·) l v) (i : Nat) :
    v.getLsbD i = l.all (fun x => x.getLsbD i) := by
  induction h with
  | leaf x => simp
  | node _ _ i1 i2 => rw [BitVec.getLsbD_and, i1, i2, List.all_append]

theorem eval_or {w : Nat} {l : List (BitVec w)} {v : BitVec w} (h : Eval (· ||| ·) l v) (i : Nat) :
    v.getLsbD i = l.any (fun x => x.getLsbD i) := by
  induction h with
  | leaf x => simp
  | node _ _ i1 i2 => rw [BitVec.getLsbD_or, i1, i2, List.any_append]

theorem eval_pair [LinearOrder K] {l : List (K × Int)} {v : K × Int} (h : Eval pairMax l v) :
    v ∈ l ∧ ∀ x ∈ l, x.1 < v.1 ∨ (x.1 = v.1 ∧ x.2 ≤ v.2) := by
  induction h with
  | leaf x => simp
  | @node l m x y _ _ i1 i2 =>
    unfold pairMax
    split
    · next hlt =>
      refine ⟨by simp [i1.1], fun z hz => ?_⟩
      rcases List.mem_append.mp hz with hz | hz
      · exact i1.2 z hz
      · rcases i2.2 z hz with h1 | ⟨h1, h2⟩ <;> rcases hlt with h3 | ⟨h3, h4⟩
        · exact Or.inl (h1.trans h3)
        · exact Or.inl (by rw [h3]; exact h1)
        · exact Or.inl (by rw [h1]; exact h3)
        · exact Or.inr ⟨h1.trans h3.symm, by omega⟩
    · next hle =>
      push Not at hle
      refine ⟨by simp [i2.1], fun z hz => ?_⟩
      rcases List.mem_append.mp hz with hz | hz
      · rcases i1.2 z hz with h1 | ⟨h1, h2⟩
        · exact Or.inl (h1.trans_le hle.1)
        · rcases lt_or_eq_of_le hle.1 with h3 | h3
          · exact Or.inl (by rw [h1]; exact h3)
          · exact Or.inr ⟨h1.trans h3, h2.trans (hle.2 h3)⟩
      · exact i2.2 z hz

/-! ## `LogAdd` -/

/-- The exponential of a floating-point number that may be `-inf`. -/
noncomputable def expB : WithBot ℝ → ℝ
  | ⊥ => 0
  | (x : ℝ) => Real.exp x

@[simp] theorem expB_bot : expB ⊥ = 0 := rfl
@[simp] theorem expB_coe (x : ℝ) : expB (x : WithBot ℝ) = Real.exp x := rfl

theorem expB_nonneg (x : WithBot ℝ) : 0 ≤ expB x := by
  induction x with
  | bot => simp
  | coe x => exact (Real.exp_pos x).le

theorem expB_pos {x : WithBot ℝ} : 0 < expB x ↔ x ≠ ⊥ := by
  induction x with
  | bot => simp
  | coe x => simp [Real.exp_pos]

/-- Adding with the shortcut is too small by a factor of at most one plus the exponential of `cut`. -/
theorem logAdd_bounds (cut x y : WithBot ℝ) :
    expB (logAdd cut x y) ≤ expB x + expB y ∧ expB x + expB y ≤ (1 + expB cut) * expB (logAdd cut x y) := by
  have hc := expB_nonneg cut
  induction x with
  | bot =>
    have e : logAdd cut ⊥ y = y := by cases y <;> rfl
    have := expB_nonneg y
    rw [e, expB_bot, zero_add]
    exact ⟨le_rfl, by nlinarith⟩
  | coe x =>
    induction y with
    | bot =>
      have e : logAdd cut (x : WithBot ℝ) ⊥ = x := rfl
      have := expB_nonneg (x : WithBot ℝ)
      rw [e, expB_bot, add_zero]
      exact ⟨le_rfl, by nlinarith⟩
    | coe y =>
      have key : ∀ d m : ℝ, Real.exp x + Real.exp y = Real.exp m + Real.exp m * Real.exp d →
          expB (if cut ≤ (d : WithBot ℝ) then ((m + Real.log (1 + Real.exp d) : ℝ) : WithBot ℝ)
            else (m : WithBot ℝ)) ≤ Real.exp x + Real.exp y ∧
          Real.exp x + Real.exp y ≤ (1 + expB cut) * expB (if cut ≤ (d : WithBot ℝ) then
            ((m + Real.log (1 + Real.exp d) : ℝ) : WithBot ℝ) else (m : WithBot ℝ)) := by
        intro d m e
        have hm := Real.exp_pos m
        have hd := Real.exp_pos d
        split
        · have e2 : Real.exp (m + Real.log (1 + Real.exp d)) = Real.exp x + Real.exp y := by
            rw [Real.exp_add, Real.exp_log (by linarith), e]; ring
          rw [expB_coe, e2]
          have := Real.exp_pos x
          have := Real.exp_pos y
          exact ⟨le_rfl, by nlinarith⟩
        · next hlt =>
          rw [expB_coe, e]
          refine ⟨by nlinarith, ?_⟩
          have : Real.exp d ≤ expB cut := by
            induction cut with
            | bot => simp at hlt
            | coe c =>
              rw [expB_coe, Real.exp_le_exp]
              have := not_le.mp hlt
              exact (WithBot.coe_lt_coe.mp this).le
          nlinarith
      show expB (logAdd cut x y) ≤ Real.exp x + Real.exp y ∧
        Real.exp x + Real.exp y ≤ (1 + expB cut) * expB (logAdd cut x y)
      by_cases hxy : x < y
      · have h := key (x - y) y (by rw [← Real.exp_add]; ring_nf)
        simpa [logAdd, hxy] using h
      · have h := key (y - x) x (by rw [← Real.exp_add]; ring_nf)
        simpa [logAdd, hxy] using h

theorem eval_logAdd {cut : WithBot ℝ} {l : List (WithBot ℝ)} {v : WithBot ℝ} (h : Eval (logAdd cut) l v) :
    expB v ≤ (l.map expB).sum ∧ (l.map expB).sum ≤ (1 + expB cut) ^ (l.length - 1) * expB v ∧ 0 < l.length := by
  have hc := expB_nonneg cut
  induction h with
  | leaf x => simp
  | @node l m x y _ _ i1 i2 =>
    obtain ⟨a1, a2, a3⟩ := i1
    obtain ⟨b1, b2, b3⟩ := i2
    obtain ⟨c1, c2⟩ := logAdd_bounds cut x y
    have hx := expB_nonneg x
    have hy := expB_nonneg y
    have h1 : (1 : ℝ) ≤ 1 + expB cut := by linarith
    refine ⟨by rw [List.map_append, List.sum_append]; linarith, ?_, by simp; omega⟩
    rw [List.map_append, List.sum_append, List.length_append]
    have p1 : (1 + expB cut) ^ (l.length - 1) ≤ (1 + expB cut) ^ (l.length + m.length - 2) :=
      pow_le_pow_right₀ h1 (by omega)
    have p2 : (1 + expB cut) ^ (m.length - 1) ≤ (1 + expB cut) ^ (l.length + m.length - 2) :=
      pow_le_pow_right₀ h1 (by omega)
    have p3 : (1 + expB cut) ^ (l.length + m.length - 1) =
        (1 + expB cut) ^ (l.length + m.length - 2) * (1 + expB cut) := by
      rw [← pow_succ]; congr 1; omega
    have p0 : 0 ≤ (1 + expB cut) ^ (l.length + m.length - 2) := by positivity
    rw [p3, mul_assoc]
    calc _ ≤ (1 + expB cut) ^ (l.length - 1) * expB x + (1 + expB cut) ^ (m.length - 1) * expB y := by linarith
      _ ≤ (1 + expB cut) ^ (l.length + m.length - 2) * expB x + (1 + expB cut) ^ (l.length + m.length - 2) * expB y :=
        add_le_add (mul_le_mul_of_nonneg_right p1 hx) (mul_le_mul_of_nonneg_right p2 hy)
      _ = (1 + expB cut) ^ (l.length + m.length - 2) * (expB x + expB y) := by ring
      _ ≤ _ := mul_le_mul_of_nonneg_left c2 p0

end Verif.Ragged
