import Verif.Fsa.TopSort.Loop

/-!
The order of the states that `TopSort` computes.
-/

namespace Verif.Fsa.Top
open Verif.Ragged Verif.Util
variable {W X : Type}

/-! ## The check on the start states -/

theorem first_of_row (key : Nat → Nat) (n : Nat) (B : List Nat)
    (hs : B.Pairwise (fun a b => key a ≤ key b)) (hn : ∀ v ∈ B, key v < n) (r : Nat) (hr : r < n)
    (row : List Nat) (hrow : B.filter (fun v => key v == r) = row) (hne : row ≠ []) :
    ∃ p, (batchOf key n B).splits[r]? = some p ∧ B[p]? = row.head? := by
  have hget : (rowsBy key n B)[r]? = some row := by
    rw [rowsBy, List.getElem?_map, List.getElem?_range hr]; simp [hrow]
  have h1 := psum_get ((rowsBy key n B).map List.length) r (by simp [rowsBy]; omega)
  refine ⟨_, h1, ?_⟩
  have hpos : 0 < row.length := List.length_pos_iff.mpr hne
  have := row_at (rowsBy key n B) r 0 row hget hpos
  rw [rowsBy_flatten key n B hs hn, Nat.add_zero] at this
  rw [this, List.head?_eq_getElem?]

/-- The start state comes first in its row. -/
theorem row_head (T : List (List (List X))) (B : List Nat) (hB : Asc T B) (r : Nat) (f : List (List X))
    (hf : T[r]? = some f) (hmem : off T r ∈ B) (hpos : 0 < f.length) :
    (B.filter (fun v => keyOf T v == r)).head? = some (off T r) := by
  have hkey : keyOf T (off T r) = r := by simpa using keyOf_off T r 0 f hf hpos
  have hin : off T r ∈ B.filter (fun v => keyOf T v == r) :=
    List.mem_filter.mpr ⟨hmem, by simpa using hkey⟩
  have hasc : (B.filter (fun v => keyOf T v == r)).Pairwise (· < ·) := hB.lt.filter _
  have hall : ∀ v ∈ B.filter (fun v => keyOf T v == r), off T r ≤ v := by
    intro v hv
    obtain ⟨h1, h2⟩ := List.mem_filter.mp hv
    obtain ⟨r', f', s, hf', hs, rfl⟩ := state_pos T v (hB.mem v h1)
    have : r' = r := by simpa [keyOf_off T r' s f' hf' hs] using h2
    subst this; omega
  cases hl : B.filter (fun v => keyOf T v == r) with
  | nil => rw [hl] at hin; simp at hin
  | cons y l =>
    rw [hl] at hin hasc hall
    rw [List.head?_cons]
    rcases List.mem_cons.mp hin with h1 | h1
    · rw [h1]
    · have := (List.pairwise_cons.mp hasc).1 _ h1
      have := hall y List.mem_cons_self
      omega

/-- The check passes exactly if the start states of the non-empty FSAs are in the batch. -/
theorem startPresent_iff (T : List (List (List (Arc W)))) (B : List Nat) (hB : Asc T B) :
    startPresent (flat T) (batchOf (keyOf T) T.length B) = some true ↔
      ∀ (r : Nat) (f : List (List (Arc W))), T[r]? = some f → f ≠ [] → off T r ∈ B := by
  have hnf : (flat T).sp1.length - 1 = T.length := by rw [flat_sp1_length]; rfl
  set g : Nat → Option Bool := fun r => (do
    let s ← (flat T).sp1[r]?
    let e ← (flat T).sp1[r + 1]?
    if s < e then do
      let p ← (batchOf (keyOf T) T.length B).splits[r]?
      let x ← (batchOf (keyOf T) T.length B).vals[p]?
      some (decide (x = s))
    else some true) with hg
  have hgr : ∀ (r : Nat) (f : List (List (Arc W))), T[r]? = some f →
      (g r = some true ↔ (f ≠ [] → off T r ∈ B)) := by
    intro r f hf
    have hr := (List.getElem?_eq_some_iff.mp hf).1
    have e1 := flat_sp1 T r (by omega)
    have e2 := flat_sp1_succ T r f hf
    rw [hg]
    simp only [e1, e2, Option.bind_eq_bind, Option.bind_some]
    by_cases hz : f = []
    · subst hz; simp
    · have hpos : 0 < f.length := List.length_pos_iff.mpr hz
      rw [if_pos (by omega)]
      constructor
      · intro h _
        obtain ⟨p, _, h⟩ := Option.bind_eq_some_iff.mp h
        obtain ⟨x, hx, h⟩ := Option.bind_eq_some_iff.mp h
        have : x = off T r := by simpa using h
        subst this
        exact List.mem_of_getElem? hx
      · intro h
        have hmem := h hz
        have hkey : keyOf T (off T r) = r := by simpa using keyOf_off T r 0 f hf hpos
        have hin : off T r ∈ B.filter (fun v => keyOf T v == r) :=
          List.mem_filter.mpr ⟨hmem, by simpa using hkey⟩
        obtain ⟨p, hp, hx⟩ := first_of_row (keyOf T) T.length B hB.keys hB.key_lt r hr _ rfl
          (List.ne_nil_of_mem hin)
        have hhead := row_head T B hB r f hf hmem hpos
        rw [hp, Option.bind_some, show (batchOf (keyOf T) T.length B).vals = B from rfl, hx, hhead]
        simp
  unfold startPresent
  rw [hnf]
  simp only [Option.bind_eq_bind]
  constructor
  · intro h
    obtain ⟨l, hl, h⟩ := Option.bind_eq_some_iff.mp h
    obtain ⟨h1, h2⟩ := mapM_get hl
    intro r f hf
    have hr := (List.getElem?_eq_some_iff.mp hf).1
    have h3 := h2 r r (List.getElem?_range hr)
    have hlt : r < l.length := by rw [h1, List.length_range]; exact hr
    have hall : ∀ b ∈ l, b = true := by simpa using h
    rw [List.getElem?_eq_getElem hlt, hall _ (List.getElem_mem hlt)] at h3
    exact (hgr r f hf).mp h3.symm
  · intro h
    have : (List.range T.length).mapM g = some (List.replicate T.length true) := by
      apply mapM_some_of
      · simp
      · intro i b hb
        obtain ⟨hlt, hb⟩ := List.getElem?_eq_some_iff.mp hb
        rw [List.getElem_range] at hb; subst hb; rw [List.length_range] at hlt
        rw [(hgr i _ (List.getElem?_eq_getElem hlt)).mpr (h i _ (List.getElem?_eq_getElem hlt)),
          List.getElem?_replicate, if_pos hlt]
    exact Option.bind_eq_some_iff.mpr ⟨_, this, by simp⟩

/-! ## The order -/

/-- The part of the order for FSA `r`, given the states in the order of the batches. -/
def orderRow (T : List (List (List X))) (A : List Nat) (r : Nat) : List Nat :=
  A.filter (fun v => keyOf T v == r) ++ if off T r < off T (r + 1) then [off T (r + 1) - 1] else []

theorem filter_flatten (p : Nat → Bool) (Bs : List (List Nat)) :
    (Bs.map (fun B => B.filter p)).flatten = Bs.flatten.filter p := by
  induction Bs with
  | nil => rfl
  | cons B Bs ih => rw [List.map_cons, List.flatten_cons, ih, List.flatten_cons, List.filter_append]

theorem catBatches_eq (T : List (List (List (Arc W)))) (Bs : List (List Nat)) (h : ∀ B ∈ Bs, Asc T B) :
    catBatches (flat T).sp1 (Bs.map (batchOf (keyOf T) T.length)) =
      some ((List.range T.length).map (orderRow T Bs.flatten)).flatten := by
  have hnf : (flat T).sp1.length - 1 = T.length := by rw [flat_sp1_length]; rfl
  unfold catBatches
  rw [hnf]
  have : (List.range T.length).mapM (fun r =>
      ((Bs.map (batchOf (keyOf T) T.length)).mapM (fun b : Batch => b.row r)).bind fun l =>
      (finalRow (flat T).sp1 r).bind fun f => some (l.flatten ++ f)) =
      some ((List.range T.length).map (orderRow T Bs.flatten)) := by
    apply mapM_some_of
    · simp
    · intro r b hb
      obtain ⟨hlt, hb⟩ := List.getElem?_eq_some_iff.mp hb
      rw [List.getElem_range] at hb; subst hb; rw [List.length_range] at hlt
      have h1 : (Bs.map (batchOf (keyOf T) T.length)).mapM (fun b : Batch => b.row r) =
          some (Bs.map (fun B => B.filter (fun v => keyOf T v == r))) := by
        apply mapM_some_of
        · simp
        · intro i b hb
          rw [List.getElem?_map] at hb ⊢
          obtain ⟨B, hB, rfl⟩ := Option.map_eq_some_iff.mp hb
          have hA := h B (List.mem_of_getElem? hB)
          rw [batchOf_row (keyOf T) T.length B hA.keys hA.key_lt r hlt, hB]; rfl
      have h2 : finalRow (flat T).sp1 r =
          some (if off T r < off T (r + 1) then [off T (r + 1) - 1] else []) := by
        unfold finalRow
        simp only [flat_sp1 T r (by omega), flat_sp1 T (r + 1) (by omega), Option.bind_eq_bind,
          Option.bind_some]
      rw [h1, Option.bind_some, h2, Option.bind_some, filter_flatten, List.getElem?_map,
        List.getElem?_range hlt]
      rfl
  simp only [Option.bind_eq_bind, this, Option.bind_some]

section
variable (T : List (List (List X))) (dst : Nat → Nat) (Bs : List (List Nat)) (hL : Layers T dst [] Bs)
include hL

theorem Layers.lt {v : Nat} (hv : v ∈ Bs.flatten) : v < T.flatten.length := by
  obtain ⟨B, hB, hv⟩ := List.mem_flatten.mp hv
  exact (hL.asc B hB).mem v hv

theorem Layers.not_final {v : Nat} (hv : v ∈ Bs.flatten) : fin T v = 0 := by
  have := (hL.done v (hL.lt T dst Bs hv)).mpr (by simpa using hv)
  omega

theorem orderRow_nodup (r : Nat) (hr : r < T.length) : (orderRow T Bs.flatten r).Nodup := by
  unfold orderRow
  have hnd : Bs.flatten.Nodup := by simpa using hL.nodup
  split
  · next h =>
    rw [List.nodup_append]
    refine ⟨hnd.filter _, by simp, ?_⟩
    intro a ha b hb hab
    rw [List.mem_singleton.mp hb] at hab
    have h1 := hL.not_final T dst Bs (List.mem_of_mem_filter ha)
    obtain ⟨_, h3⟩ := finals_lt T r hr h
    rw [hab, fin, h3, if_pos (by omega)] at h1
    omega
  · rw [List.append_nil]; exact hnd.filter _

theorem orderRow_mem (r : Nat) (f : List (List X)) (hf : T[r]? = some f) (v : Nat)
    (hv : v ∈ orderRow T Bs.flatten r) : ∃ s < f.length, v = off T r + s := by
  have hr := (List.getElem?_eq_some_iff.mp hf).1
  unfold orderRow at hv
  rcases List.mem_append.mp hv with h | h
  · obtain ⟨h1, h2⟩ := List.mem_filter.mp h
    obtain ⟨r', f', s, hf', hs, rfl⟩ := state_pos T v (hL.lt T dst Bs h1)
    have : r' = r := by simpa [keyOf_off T r' s f' hf' hs] using h2
    subst this
    rw [hf] at hf'
    obtain rfl := Option.some.inj hf'
    exact ⟨s, hs, rfl⟩
  · split at h
    · next h1 =>
      rw [off_succ T r f hf] at h1 h
      exact ⟨f.length - 1, by omega, by rw [List.mem_singleton.mp h]; omega⟩
    · simp at h

/-- No row has more states than its FSA. -/
theorem orderRow_subperm (r : Nat) (f : List (List X)) (hf : T[r]? = some f) :
    (orderRow T Bs.flatten r).Subperm ((List.range f.length).map (off T r + ·)) := by
  have hr := (List.getElem?_eq_some_iff.mp hf).1
  apply List.subperm_of_subset (orderRow_nodup T dst Bs hL r hr)
  intro v hv
  obtain ⟨s, hs, rfl⟩ := orderRow_mem T dst Bs hL r f hf v hv
  exact List.mem_map.mpr ⟨s, List.mem_range.mpr hs, rfl⟩

/-- The order has as many states as the vector exactly if every row is complete. -/
theorem order_length_iff :
    ((List.range T.length).map (orderRow T Bs.flatten)).flatten.length = T.flatten.length ↔
      ∀ (r : Nat) (f : List (List X)), T[r]? = some f →
        (orderRow T Bs.flatten r).Perm ((List.range f.length).map (off T r + ·)) := by
  have hle : ∀ (r : Nat) (f : List (List X)), T[r]? = some f → (orderRow T Bs.flatten r).length ≤ f.length := by
    intro r f hf
    have := (orderRow_subperm T dst Bs hL r f hf).length_le
    simpa using this
  have key : ∀ n ≤ T.length, (((List.range n).map (orderRow T Bs.flatten)).map List.length).sum ≤
      ((T.take n).map List.length).sum ∧
      ((((List.range n).map (orderRow T Bs.flatten)).map List.length).sum = ((T.take n).map List.length).sum ↔
        ∀ r < n, ∀ f, T[r]? = some f → (orderRow T Bs.flatten r).length = f.length) := by
    intro n hn
    induction n with
    | zero => simp
    | succ n ih =>
      obtain ⟨h1, h2⟩ := ih (by omega)
      have hf := List.getElem?_eq_getElem (show n < T.length by omega)
      have h3 := hle n _ hf
      rw [List.range_succ, List.map_append, List.map_append, List.sum_append, List.take_add_one, hf,
        Option.toList_some, List.map_append, List.sum_append]
      simp only [List.map_cons, List.map_nil, List.sum_cons, List.sum_nil, Nat.add_zero]
      refine ⟨by omega, ?_⟩
      constructor
      · intro h r hr f hfr
        rcases Nat.lt_succ_iff_lt_or_eq.mp hr with hr | rfl
        · exact h2.mp (by omega) r hr f hfr
        · rw [hf] at hfr
          obtain rfl := Option.some.inj hfr
          omega
      · intro h
        rw [h2.mpr (fun r hr => h r (by omega)), h n (by omega) _ hf]
  have hk := (key T.length (Nat.le_refl _)).2
  rw [List.take_length] at hk
  rw [List.length_flatten, List.length_flatten, hk]
  constructor
  · intro h r f hf
    have hr := (List.getElem?_eq_some_iff.mp hf).1
    exact (orderRow_subperm T dst Bs hL r f hf).perm_of_length_le
      (by rw [h r hr f hf, List.length_map, List.length_range])
  · intro h r hr f hf
    rw [(h r f hf).length_eq, List.length_map, List.length_range]

/-- Non-final states that are in a row are in a batch. -/
theorem mem_batch_of_row (r : Nat) (v : Nat) (hv : v ∈ orderRow T Bs.flatten r) (hr : r < T.length) :
    v ∈ Bs.flatten ∨ (v = off T (r + 1) - 1 ∧ off T r < off T (r + 1)) := by
  unfold orderRow at hv
  rcases List.mem_append.mp hv with h | h
  · exact Or.inl (List.mem_of_mem_filter h)
  · split at h
    · next h1 => exact Or.inr ⟨List.mem_singleton.mp h, h1⟩
    · simp at h

end

end Verif.Fsa.Top
