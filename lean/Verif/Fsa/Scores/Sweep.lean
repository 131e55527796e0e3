import Verif.Fsa.Scores.Model
import Verif.Fsa.Batches.Props

/-!
# What the loop over the batches computes
-/

namespace Verif.Fsa.Sco
open Verif.Ragged Verif.Util Verif.Fsa.Bat
variable {W K X : Type}

/-- The rows of the states in the order of the batches. -/
def rowsOf (R : List (List Nat)) (states : List Nat) : List (List Nat) := states.map (fun s => R.getD s [])

theorem getD_some (R : List (List Nat)) (s : Nat) (hs : s < R.length) : R[s]? = some (R.getD s []) := by
  rw [List.getD_eq_getElem?_getD, List.getElem?_eq_getElem hs]; rfl

theorem arcCounts_eq (R : List (List Nat)) (states : List Nat) (hst : ∀ s ∈ states, s < R.length) :
    arcCounts (psum (R.map List.length)) states = some ((rowsOf R states).map List.length) := by
  unfold arcCounts
  apply mapM_some_of
  · simp [rowsOf]
  · intro i s hs
    have hlt := hst s (List.mem_of_getElem? hs)
    have hR := getD_some R s hlt
    have e1 := psum_get (R.map List.length) s (by simp; omega)
    have e2 := psum_get (R.map List.length) (s + 1) (by simp; omega)
    rw [take_succ_sum (R.map List.length) s (R.getD s []).length (by rw [List.getElem?_map, hR]; rfl)] at e2
    simp only [e1, e2, Option.bind_eq_bind, Option.bind_some, Nat.add_sub_cancel_left]
    rw [List.getElem?_map, rowsOf, List.getElem?_map, hs]
    rfl

/-- The arcs of the batches: the rows of the states one after the other. -/
theorem arcBatches_eq (R : List (List Nat)) (states : List Nat) (hst : ∀ s ∈ states, s < R.length)
    (arcAt : Nat → Option Nat) (hat : ∀ k < R.flatten.length, arcAt k = R.flatten[k]?) (M : Nat)
    (hM : (rowsOf R states).flatten.length = M) :
    arcBatches M (psum (R.map List.length)) states arcAt =
      some (psum ((rowsOf R states).map List.length), (rowsOf R states).flatten) := by
  have h1 := arcCounts_eq R states hst
  have h2 := rowSplitsToRowIds_psum ((rowsOf R states).map List.length)
  rw [← List.length_flatten, hM] at h2
  have h3 : arcIndexes (psum (R.map List.length)) states (psum ((rowsOf R states).map List.length))
      (idsFrom 0 ((rowsOf R states).map List.length)) arcAt = some (rowsOf R states).flatten := by
    unfold arcIndexes
    apply mapM_some_of
    · rw [List.length_range, idsFrom_length, List.length_flatten]
    · intro i b hb
      obtain ⟨hlt, hb⟩ := List.getElem?_eq_some_iff.mp hb
      rw [List.getElem_range] at hb; subst hb
      rw [List.length_range, idsFrom_length] at hlt
      obtain ⟨r, m, k, g1, g2, g3⟩ := ids_pos _ i hlt
      have e1 := ids_at _ r m k g1 g2
      rw [← g3] at e1
      have hr : r < states.length := by
        have := (List.getElem?_eq_some_iff.mp g1).1
        rw [List.length_map, rowsOf, List.length_map] at this
        exact this
      have e2 := List.getElem?_eq_getElem hr
      have hs := hst _ (List.getElem_mem hr)
      generalize states[r] = s at e2 hs
      have hR := getD_some R s hs
      have hQ : (rowsOf R states)[r]? = some (R.getD s []) := by
        rw [rowsOf, List.getElem?_map, e2]; rfl
      rw [List.getElem?_map, hQ, Option.map_some] at g1
      have g1' := Option.some.inj g1
      subst g1'
      have e3 := psum_get (R.map List.length) s (by simp; omega)
      have e4 := psum_get ((rowsOf R states).map List.length) r (by simp [rowsOf]; omega)
      simp only [e1, e2, e3, e4, Option.bind_eq_bind, Option.bind_some]
      have e5 : i - (((rowsOf R states).map List.length).take r).sum = k := by omega
      have e6 := row_at R s k _ hR g2
      have e7 := row_at (rowsOf R states) r k _ hQ g2
      rw [← g3] at e7
      rw [e5, e7, ← e6]
      apply hat
      rw [List.getElem?_eq_getElem g2] at e6
      exact (List.getElem?_eq_some_iff.mp e6).1
  unfold arcBatches
  simp only [h1, h2, h3, Option.bind_eq_bind, Option.bind_some]

/-! ## Writes -/

theorem foldl_set_length (ws : List (Nat × K)) (cur : List K) :
    (ws.foldl (fun c w => c.set w.1 w.2) cur).length = cur.length := by
  induction ws generalizing cur with
  | nil => rfl
  | cons w ws ih => rw [List.foldl_cons, ih]; simp

theorem foldl_set_get (ws : List (Nat × K)) (cur : List K) (hnd : (ws.map Prod.fst).Nodup)
    (hlt : ∀ w ∈ ws, w.1 < cur.length) (g : Nat) :
    (∀ x, (g, x) ∈ ws → (ws.foldl (fun c w => c.set w.1 w.2) cur)[g]? = some x) ∧
    (g ∉ ws.map Prod.fst → (ws.foldl (fun c w => c.set w.1 w.2) cur)[g]? = cur[g]?) := by
  induction ws generalizing cur with
  | nil => exact ⟨by simp, fun _ => rfl⟩
  | cons w ws ih =>
    rw [List.map_cons, List.nodup_cons] at hnd
    obtain ⟨h1, h2⟩ := ih (cur.set w.1 w.2) hnd.2 (fun w' hw' => by
      rw [List.length_set]; exact hlt w' (List.mem_cons_of_mem _ hw'))
    constructor
    · intro x hx
      rcases List.mem_cons.mp hx with he | hx
      · subst he
        rw [List.foldl_cons, h2 hnd.1, List.getElem?_set_self (hlt _ List.mem_cons_self)]
      · exact h1 x hx
    · intro hg
      rw [List.map_cons, List.mem_cons, not_or] at hg
      rw [List.foldl_cons, h2 hg.2, List.getElem?_set_ne (fun h => hg.1 h.symm)]

theorem writeAll_eq (cur : List K) (ws : List (Nat × K)) (hnd : (ws.map Prod.fst).Nodup)
    (hlt : ∀ w ∈ ws, w.1 < cur.length) :
    ∃ out, writeAll cur ws = some out ∧ out.length = cur.length ∧
      (∀ g x, (g, x) ∈ ws → out[g]? = some x) ∧ ∀ g, g ∉ ws.map Prod.fst → out[g]? = cur[g]? := by
  refine ⟨_, if_pos ⟨hnd, hlt⟩, foldl_set_length ws cur, fun g x => (foldl_set_get ws cur hnd hlt g).1 x,
    fun g => (foldl_set_get ws cur hnd hlt g).2⟩

/-! ## Offsets of the batches -/

theorem batchBegin_eq (C : List (List (List Nat))) (i : Nat) (hi : i ≤ C.length) :
    batchBegin (fullLayers 2 (C : List (Nest Nat 2))) i = some (((C.map List.flatten).take i).flatten.length) := by
  have a1 := fullLayers_succ 1 (C : List (List (Nest Nat 1)))
  have a2 := fullLayers_succ 0 (C.flatten : List (List (Nest Nat 0)))
  have e0 : fullLayers 2 (C : List (Nest Nat 2)) =
      [(psum (C.map List.length), idsFrom 0 (C.map List.length)),
       (psum (C.flatten.map List.length), idsFrom 0 (C.flatten.map List.length))] := by
    refine a1.trans ?_
    refine congrArg (List.cons _) ?_
    exact a2
  rw [e0]
  have e1 := psum_get (C.map List.length) i (by simpa using hi)
  have e2 : ((C.map List.length).take i).sum ≤ (C.flatten.map List.length).length := by
    rw [List.length_map]; exact row_end_le C i
  have e3 := psum_get (C.flatten.map List.length) _ e2
  simp only [batchBegin, e1, Option.bind_eq_bind, Option.bind_some, e3]
  congr 1
  rw [sum_take]
  have e4 : C.flatten.take ((C.map List.length).take i).sum = (C.take i).flatten := by
    rw [sum_take]
    conv_lhs =>
      arg 2
      rw [← List.take_append_drop i C, List.flatten_append]
    rw [List.take_left]
  rw [e4, ← List.map_take, List.flatten_flatten]

theorem flatten_if (b : List Nat) (P : Nat → Prop) [DecidablePred P] (f : Nat → K) :
    ((b.map (fun s => if P s then [(s, f s)] else [])).flatten).map Prod.fst = b.filter (fun s => decide (P s)) := by
  induction b with
  | nil => rfl
  | cons s b ih =>
    rw [List.map_cons, List.flatten_cons, List.map_append, ih, List.filter_cons]
    by_cases h : P s
    · rw [if_pos h, if_pos (by simpa using h)]; rfl
    · rw [if_neg h, if_neg (by simpa using h)]; rfl

/-! ## One batch -/

section
variable [DecidableEq K] (v : FsaVec W) (mul : K → W → K) (op : K → K → K) (bot : K)
  (other : Nat → Option Nat) (keep : Nat → Option Bool)

/-- The arcs' values from the scores. -/
def rowValues (val : Nat → K) (row : List Nat) : List K := row.map val

theorem batchScores_eq (R : List (List Nat)) (pre b post : List Nat) (val : Nat → K) :
    batchScores op bot (pre ++ (b ++ post)) (psum ((rowsOf R (pre ++ (b ++ post))).map List.length))
      pre.length (pre ++ b).length ((rowsOf R pre).flatten.length) (((rowsOf R b).flatten).map val) =
      some (b.map (fun s => (s, reduceRow op bot ((R.getD s []).map val)))) := by
  have hsplit : ∀ p ≤ b.length, localSplit (psum ((rowsOf R (pre ++ (b ++ post))).map List.length))
      pre.length ((rowsOf R pre).flatten.length) p = some ((((rowsOf R b).map List.length).take p).sum) := by
    intro p hp
    unfold localSplit
    split
    · next h0 => subst h0; simp
    · next h0 =>
      have e1 := psum_get ((rowsOf R (pre ++ (b ++ post))).map List.length) (pre.length + p) (by
        simp [rowsOf]; omega)
      rw [e1]
      simp only [Option.bind_eq_bind, Option.bind_some]
      congr 1
      have e2 : (rowsOf R (pre ++ (b ++ post))).map List.length =
          (rowsOf R pre).map List.length ++ ((rowsOf R b).map List.length ++ (rowsOf R post).map List.length) := by
        simp [rowsOf]
      have e3 : pre.length = ((rowsOf R pre).map List.length).length := by simp [rowsOf]
      rw [e2, e3, List.take_length_add_append, List.take_append_of_le_length (by simp [rowsOf]; omega),
        List.sum_append, List.length_flatten, Nat.add_sub_cancel_left]
  unfold batchScores
  apply mapM_some_of
  · simp
  · intro i p hp
    obtain ⟨hlt, hp⟩ := List.getElem?_eq_some_iff.mp hp
    rw [List.getElem_range] at hp; subst hp
    rw [List.length_range, List.length_append, Nat.add_sub_cancel_left] at hlt
    have e1 := hsplit i (by omega)
    have e2 := hsplit (i + 1) (by omega)
    have hb := List.getElem?_eq_getElem hlt
    generalize b[i] = s at hb
    have hQ : (rowsOf R b)[i]? = some (R.getD s []) := by rw [rowsOf, List.getElem?_map, hb]; rfl
    have e3 : (pre ++ (b ++ post))[pre.length + i]? = some s := by
      rw [List.getElem?_append_right (by omega), Nat.add_sub_cancel_left, List.getElem?_append_left hlt, hb]
    rw [take_succ_sum ((rowsOf R b).map List.length) i (R.getD s []).length (by
      rw [List.getElem?_map, hQ]; rfl)] at e2
    simp only [e1, e2, e3, Option.bind_eq_bind, Option.bind_some, Nat.add_sub_cancel_left]
    rw [List.getElem?_map, hb, ← List.map_drop, ← List.map_take, row_slice _ _ _ hQ]
    rfl

theorem batchValues_eq (R : List (List Nat)) (C : List (List (List Nat))) (i : Nat) (b : List Nat)
    (hb : (C.map List.flatten)[i]? = some b) (cur : List K) (val : Nat → K)
    (hval : ∀ g ∈ b, ∀ j ∈ R.getD g [], arcValue v mul other cur j = some (val j)) :
    ∃ pre post : List Nat, C.flatten.flatten = pre ++ (b ++ post) ∧
      batchValues v mul other (fullLayers 2 (C : List (Nest Nat 2)))
        (psum ((rowsOf R C.flatten.flatten).map List.length), (rowsOf R C.flatten.flatten).flatten) cur i =
        some (pre.length, (pre ++ b).length, (rowsOf R pre).flatten.length, (rowsOf R b).flatten.map val) := by
  have hil : i < C.length := by
    have := (List.getElem?_eq_some_iff.mp hb).1; simpa using this
  obtain ⟨pre, post, hC, hpl⟩ : ∃ pre post : List Nat, C.flatten.flatten = pre ++ (b ++ post) ∧
      pre = ((C.map List.flatten).take i).flatten := by
    refine ⟨((C.map List.flatten).take i).flatten, ((C.map List.flatten).drop (i + 1)).flatten, ?_, rfl⟩
    rw [List.flatten_flatten]
    conv_lhs => rw [← List.take_append_drop i (C.map List.flatten)]
    rw [List.flatten_append]
    congr 1
    obtain ⟨h1, h2⟩ := List.getElem?_eq_some_iff.mp hb
    rw [List.drop_eq_getElem_cons h1, h2, List.flatten_cons]
  refine ⟨pre, post, hC, ?_⟩
  have e1 : batchBegin (fullLayers 2 (C : List (Nest Nat 2))) i = some pre.length := by
    rw [batchBegin_eq C i (by omega), hpl]
  have e2 : batchBegin (fullLayers 2 (C : List (Nest Nat 2))) (i + 1) = some (pre ++ b).length := by
    rw [batchBegin_eq C (i + 1) (by omega), hpl, List.take_succ, hb]
    simp
  rw [hC]
  have hrows : rowsOf R (pre ++ (b ++ post)) = rowsOf R pre ++ (rowsOf R b ++ rowsOf R post) := by
    simp [rowsOf]
  have hpre : (rowsOf R pre).length = pre.length := by simp [rowsOf]
  have hbl : (rowsOf R b).length = b.length := by simp [rowsOf]
  have e3 : (psum ((rowsOf R (pre ++ (b ++ post))).map List.length))[pre.length]? =
      some (rowsOf R pre).flatten.length := by
    rw [psum_get _ _ (by rw [hrows]; simp; omega), sum_take, hrows, ← hpre, List.take_left]
  have e4 : (psum ((rowsOf R (pre ++ (b ++ post))).map List.length))[(pre ++ b).length]? =
      some ((rowsOf R pre).flatten.length + (rowsOf R b).flatten.length) := by
    rw [psum_get _ _ (by rw [hrows]; simp; omega), sum_take, hrows, List.length_append, ← hpre, ← hbl,
      List.take_length_add_append, List.take_left, List.flatten_append, List.length_append]
  have e5 : (List.range ((rowsOf R b).flatten.length)).mapM (fun k => (do
      let j ← (rowsOf R (pre ++ (b ++ post))).flatten[(rowsOf R pre).flatten.length + k]?
      arcValue v mul other cur j)) = some ((rowsOf R b).flatten.map val) := by
    apply mapM_some_of
    · rw [List.length_map, List.length_range]
    · intro k x hx
      obtain ⟨hlt', hx⟩ := List.getElem?_eq_some_iff.mp hx
      rw [List.getElem_range] at hx; subst hx
      rw [List.length_range] at hlt'
      rw [hrows, List.flatten_append, List.flatten_append, List.getElem?_append_right (by omega),
        Nat.add_sub_cancel_left, List.getElem?_append_left hlt', List.getElem?_map,
        List.getElem?_eq_getElem hlt']
      have hmem := List.getElem_mem hlt'
      generalize (rowsOf R b).flatten[k] = j at hmem
      obtain ⟨row, hrow, hj⟩ := List.mem_flatten.mp hmem
      obtain ⟨g, hg, rfl⟩ := List.mem_map.mp hrow
      exact hval g hg j hj
  unfold batchValues
  simp only [e1, e2, e3, e4, Option.bind_eq_bind, Option.bind_some, Nat.add_sub_cancel_left]
  simp only [Option.bind_eq_bind] at e5
  rw [e5]
  rfl

theorem copyScores_eq (b : List Nat) (hbn : b.Nodup) (cur : List K) (kp : Nat → Bool)
    (hlt : ∀ g ∈ b, g < cur.length) (hkeep : ∀ g ∈ b, keep g = some (kp g)) (sc : Nat → K) :
    ∃ out, copyScores bot keep cur (b.map (fun s => (s, sc s))) = some out ∧ out.length = cur.length ∧
      (∀ g ∈ b, out[g]? = if sc g = bot ∧ kp g = true then cur[g]? else some (sc g)) ∧
      ∀ g, g ∉ b → out[g]? = cur[g]? := by
  have e7 : (b.map (fun s => (s, sc s))).mapM (copyScore bot keep) =
      some (b.map (fun s => if sc s ≠ bot ∨ kp s = false then [(s, sc s)] else [])) := by
    apply mapM_some_of
    · simp
    · intro k w hw
      rw [List.getElem?_map] at hw
      cases hk : b[k]? with
      | none => rw [hk] at hw; simp at hw
      | some s =>
        rw [hk, Option.map_some] at hw
        obtain rfl := Option.some.inj hw
        unfold copyScore
        simp only [hkeep s (List.mem_of_getElem? hk), Option.bind_eq_bind, Option.bind_some]
        rw [List.getElem?_map, hk]
        rfl
  unfold copyScores
  rw [e7]
  simp only [Option.bind_eq_bind, Option.bind_some]
  set ws := (b.map (fun s => if sc s ≠ bot ∨ kp s = false then [(s, sc s)] else [])).flatten with hws
  have hmem : ∀ g x, (g, x) ∈ ws ↔ g ∈ b ∧ x = sc g ∧ (sc g ≠ bot ∨ kp g = false) := by
    intro g x
    rw [hws, List.mem_flatten]
    constructor
    · rintro ⟨l, hl, hx⟩
      obtain ⟨s, hs, rfl⟩ := List.mem_map.mp hl
      split at hx
      · next h0 =>
        simp only [List.mem_singleton, Prod.mk.injEq] at hx
        obtain ⟨rfl, rfl⟩ := hx
        exact ⟨hs, rfl, h0⟩
      · simp at hx
    · rintro ⟨hg, rfl, h0⟩
      exact ⟨_, List.mem_map.mpr ⟨g, hg, rfl⟩, by rw [if_pos h0]; simp⟩
  have hfst : ws.map Prod.fst = b.filter (fun s => decide (sc s ≠ bot ∨ kp s = false)) := by
    exact flatten_if b _ _
  obtain ⟨out, h1, h2, h3, h4⟩ := writeAll_eq cur ws (by rw [hfst]; exact hbn.filter _) (by
    intro w hw
    exact hlt w.1 ((hmem w.1 w.2).mp hw).1)
  refine ⟨out, h1, h2, ?_, ?_⟩
  · intro g hg
    split
    · next h0 =>
      apply h4
      rw [hfst, List.mem_filter]
      intro hc
      have hc := of_decide_eq_true hc.2
      rcases hc with hc | hc
      · exact hc h0.1
      · rw [h0.2] at hc; exact absurd hc (by decide)
    · next h0 =>
      apply h3
      rw [hmem]
      refine ⟨hg, rfl, ?_⟩
      by_contra hc
      simp only [not_or, ne_eq, not_not, Bool.not_eq_false] at hc
      exact h0 hc
  · intro g hg
    apply h4
    rw [hfst, List.mem_filter]
    exact fun hc => hg hc.1

/-- One batch: its states get the reductions of their arcs, the others keep their scores. -/
theorem sweepBatch_eq (R : List (List Nat)) (C : List (List (List Nat))) (i : Nat) (b : List Nat)
    (hb : (C.map List.flatten)[i]? = some b) (hbn : b.Nodup) (cur : List K) (kp : Nat → Bool)
    (hlt : ∀ g ∈ b, g < cur.length) (hkeep : ∀ g ∈ b, keep g = some (kp g))
    (val : Nat → K)
    (hval : ∀ g ∈ b, ∀ j ∈ R.getD g [], arcValue v mul other cur j = some (val j)) :
    ∃ out, sweepBatch v mul op bot other keep (fullLayers 2 (C : List (Nest Nat 2))) C.flatten.flatten
        (psum ((rowsOf R C.flatten.flatten).map List.length), (rowsOf R C.flatten.flatten).flatten) cur i =
        some out ∧ out.length = cur.length ∧
      (∀ g ∈ b, out[g]? = if reduceRow op bot ((R.getD g []).map val) = bot ∧ kp g = true then cur[g]?
        else some (reduceRow op bot ((R.getD g []).map val))) ∧
      ∀ g, g ∉ b → out[g]? = cur[g]? := by
  obtain ⟨pre, post, hC, e1⟩ := batchValues_eq v mul other R C i b hb cur val hval
  obtain ⟨out, h1, h2⟩ := copyScores_eq bot keep b hbn cur kp hlt hkeep
    (fun g => reduceRow op bot ((R.getD g []).map val))
  refine ⟨out, ?_, h2⟩
  unfold sweepBatch
  rw [e1]
  have e6 := batchScores_eq op bot R pre b post val
  rw [hC]
  simp only [Option.bind_eq_bind, Option.bind_some, e6]
  exact h1

/-! ## All batches -/

/-- The score of a state from the scores of the states at the other ends of its arcs. -/
def stepScore (R : List (List Nat)) (oth : Nat → Nat) (m : K → Nat → K) (kp : Nat → Bool) (init F : Nat → K)
    (g : Nat) : K :=
  if reduceRow op bot ((R.getD g []).map (fun j => m (F (oth j)) j)) = bot ∧ kp g = true then init g
  else reduceRow op bot ((R.getD g []).map (fun j => m (F (oth j)) j))

theorem stepScore_congr (R : List (List Nat)) (oth : Nat → Nat) (m : K → Nat → K) (kp : Nat → Bool)
    (init F F' : Nat → K) (g : Nat) (h : ∀ j ∈ R.getD g [], F (oth j) = F' (oth j)) :
    stepScore op bot R oth m kp init F g = stepScore op bot R oth m kp init F' g := by
  unfold stepScore
  have : (R.getD g []).map (fun j => m (F (oth j)) j) = (R.getD g []).map (fun j => m (F' (oth j)) j) :=
    List.map_congr_left (fun j hj => by rw [h j hj])
  rw [this]

/-- The sweep: every state gets the score that belongs to the final scores of the other states. -/
theorem sweep_eq (R : List (List Nat)) (C : List (List (List Nat))) (n : Nat) (oth : Nat → Nat) (m : K → Nat → K)
    (kp : Nat → Bool) (init : List K) (hkeep : ∀ g < n, keep g = some (kp g))
    (harc : ∀ g < n, ∀ j ∈ R.getD g [], ∃ a, v.arcs[j]? = some a ∧ (∀ x, mul x a.score = m x j) ∧ other j = some (oth j) ∧
      oth j < n) :
    ∀ (is : List Nat) (P : List Nat) (cur : List K),
      (∀ i ∈ is, i < C.length) →
      (P ++ (is.map (fun i => (C.map List.flatten).getD i [])).flatten).Nodup →
      (∀ g ∈ (is.map (fun i => (C.map List.flatten).getD i [])).flatten, g < n) →
      (∀ (is1 is2 : List Nat) (i : Nat), is = is1 ++ i :: is2 → ∀ g ∈ (C.map List.flatten).getD i [],
        ∀ j ∈ R.getD g [], oth j ∈ P ++ (is1.map (fun i => (C.map List.flatten).getD i [])).flatten) →
      cur.length = n →
      (∀ g ∈ P, cur.getD g bot = stepScore op bot R oth m kp (init.getD · bot) (cur.getD · bot) g) →
      (∀ g ∈ P, ∀ j ∈ R.getD g [], oth j ∈ P) →
      (∀ g, g ∉ P → cur[g]? = init[g]?) →
      ∃ out, is.foldlM (fun cur i => sweepBatch v mul op bot other keep (fullLayers 2 (C : List (Nest Nat 2)))
          C.flatten.flatten (psum ((rowsOf R C.flatten.flatten).map List.length),
            (rowsOf R C.flatten.flatten).flatten) cur i) cur = some out ∧ out.length = n ∧
        (∀ g ∈ P ++ (is.map (fun i => (C.map List.flatten).getD i [])).flatten,
          out.getD g bot = stepScore op bot R oth m kp (init.getD · bot) (out.getD · bot) g) := by
  intro is
  induction is with
  | nil =>
    intro P cur _ _ _ _ hlen hP _ _
    exact ⟨cur, rfl, hlen, by simpa using hP⟩
  | cons i is ih =>
    intro P cur hi hnd hlt hdep hlen hP hcl hout
    have hil := hi i List.mem_cons_self
    have hb : (C.map List.flatten)[i]? = some ((C.map List.flatten).getD i []) := by
      rw [List.getD_eq_getElem?_getD, List.getElem?_eq_getElem (by simpa using hil)]; rfl
    generalize hbe : (C.map List.flatten).getD i [] = b at hb
    rw [List.map_cons, List.flatten_cons, hbe, ← List.append_assoc] at hnd
    have hPb := (List.nodup_append.mp hnd).1
    obtain ⟨_, hbn, hdis⟩ := List.nodup_append.mp hPb
    have hbl : ∀ g ∈ b, g < n := fun g hg => hlt g (by
      rw [List.map_cons, List.flatten_cons, hbe]; exact List.mem_append_left _ hg)
    have hsrc : ∀ g ∈ b, ∀ j ∈ R.getD g [], oth j ∈ P := by
      intro g hg j hj
      have := hdep [] is i rfl g (by rw [hbe]; exact hg) j hj
      simpa using this
    obtain ⟨out, h1, h2, h3, h4⟩ := sweepBatch_eq v mul op bot other keep R C i b hb hbn cur kp
      (by rw [hlen]; exact hbl) (fun g hg => hkeep g (hbl g hg)) (fun j => m (cur.getD (oth j) bot) j) (by
        intro g hg j hj
        obtain ⟨a, e1, e2, e3, e4⟩ := harc g (hbl g hg) j hj
        have e5 : cur[oth j]? = some (cur.getD (oth j) bot) := by
          rw [List.getD_eq_getElem?_getD, List.getElem?_eq_getElem (by omega)]; rfl
        unfold arcValue
        simp only [e1, e2, e3, e5, Option.bind_eq_bind, Option.bind_some])
    have hsame : ∀ g, g ∉ b → out.getD g bot = cur.getD g bot := by
      intro g hg
      rw [List.getD_eq_getElem?_getD, List.getD_eq_getElem?_getD, h4 g hg]
    have hPnb : ∀ g ∈ P, g ∉ b := fun g hg hc => hdis g hg g hc rfl
    obtain ⟨fin, g1, g2, g3⟩ := ih (P ++ b) out (fun i' hi' => hi i' (List.mem_cons_of_mem _ hi')) hnd
      (fun g hg => hlt g (by
        rw [List.map_cons, List.flatten_cons]; exact List.mem_append_right _ hg))
      (by
        intro is1 is2 i' he g hg j hj
        have := hdep (i :: is1) is2 i' (by rw [he]; rfl) g hg j hj
        rw [List.map_cons, List.flatten_cons, hbe, ← List.append_assoc] at this
        exact this)
      (by omega)
      (by
        intro g hg
        rcases List.mem_append.mp hg with hg | hg
        · rw [hsame g (hPnb g hg), hP g hg]
          apply stepScore_congr
          intro j hj
          exact (hsame _ (hPnb _ (hcl g hg j hj))).symm
        · have hgP : g ∉ P := fun hc => hPnb g hc hg
          have e1 : stepScore op bot R oth m kp (init.getD · bot) (out.getD · bot) g =
              stepScore op bot R oth m kp (init.getD · bot) (cur.getD · bot) g := by
            apply stepScore_congr
            intro j hj
            exact hsame _ (hPnb _ (hsrc g hg j hj))
          rw [e1, List.getD_eq_getElem?_getD, h3 g hg, hout g hgP]
          unfold stepScore
          split
          · exact (List.getD_eq_getElem?_getD ..).symm
          · rfl)
      (by
        intro g hg j hj
        rcases List.mem_append.mp hg with hg | hg
        · exact List.mem_append_left _ (hcl g hg j hj)
        · exact List.mem_append_left _ (hsrc g hg j hj))
      (by
        intro g hg
        rw [List.mem_append, not_or] at hg
        rw [h4 g hg.2, hout g hg.1])
    refine ⟨fin, ?_, g2, ?_⟩
    · rw [List.foldlM_cons, h1]
      exact g1
    · intro g hg
      apply g3
      rw [List.map_cons, List.flatten_cons, hbe, ← List.append_assoc] at hg
      exact hg
end

end Verif.Fsa.Sco
