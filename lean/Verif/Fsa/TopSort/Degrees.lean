import Verif.Fsa.TopSort.Batches

/-!
The in-degrees: at the start, and how one batch decreases them.
-/

namespace Verif.Fsa.Top
open Verif.Ragged Verif.Util
variable {W X : Type}

/-- The source state of an arc of the vector. -/
def srcOf (T : List (List (List X))) (j : Nat) : Nat := (idsFrom 0 (T.flatten.map List.length)).getD j 0

theorem srcOf_apos (T : List (List (List X))) (g k : Nat) (row : List X) (hg : T.flatten[g]? = some row)
    (hk : k < row.length) : srcOf T (apos T g + k) = g := by
  have := ids_at (T.flatten.map List.length) g row.length k (by rw [List.getElem?_map, hg]; rfl) hk
  unfold srcOf
  rw [List.getD_eq_getElem?_getD, show apos T g = ((T.flatten.map List.length).take g).sum from rfl, this]
  rfl

theorem id2_get (T : List (List (List (Arc W)))) (j : Nat) (hj : j < T.flatten.flatten.length) :
    (flat T).id2[j]? = some (srcOf T j) := by
  obtain ⟨g, row, k, hg, hk, rfl⟩ := arc_pos2 T j hj
  rw [srcOf_apos T g k row hg hk, flat_id2 T g k row hg hk]

/-- 1 for the final state of an FSA. -/
def fin (T : List (List (List X))) (d : Nat) : Nat := if d + 1 = off T (keyOf T d + 1) then 1 else 0

/-- The number of arcs, other than self-loops, that enter `d` from states not in `S`. -/
def into (T : List (List (List X))) (dst : Nat → Nat) (S : List Nat) (d : Nat) : Nat :=
  (List.range T.flatten.flatten.length).countP
    (fun j => decide (dst j = d ∧ srcOf T j ≠ d ∧ srcOf T j ∉ S))

/-- The array `state_in_degree_` when the states in `S` have been processed. -/
def degs (T : List (List (List X))) (dst : Nat → Nat) (S : List Nat) : List Nat :=
  (List.range T.flatten.length).map (fun d => into T dst S d + fin T d)

theorem degs_length (T : List (List (List X))) (dst : Nat → Nat) (S : List Nat) :
    (degs T dst S).length = T.flatten.length := by rw [degs, List.length_map, List.length_range]

theorem degs_get (T : List (List (List X))) (dst : Nat → Nat) (S : List Nat) (d : Nat)
    (h : d < T.flatten.length) : (degs T dst S)[d]? = some (into T dst S d + fin T d) := by
  rw [degs, List.getElem?_map, List.getElem?_range h]; rfl

theorem degs_of_get (T : List (List (List X))) (dst : Nat → Nat) (S : List Nat) (l : List Nat)
    (hl : l.length = T.flatten.length)
    (h : ∀ d < T.flatten.length, l[d]? = some (into T dst S d + fin T d)) : l = degs T dst S := by
  apply List.ext_getElem?
  intro d
  by_cases hd : d < T.flatten.length
  · rw [h d hd, degs_get T dst S d hd]
  · rw [List.getElem?_eq_none (by omega), List.getElem?_eq_none (by rw [degs_length]; omega)]

/-- The arcs of the states `B` out of those of the states outside `S`. -/
theorem into_append (T : List (List (List X))) (dst : Nat → Nat) (S B : List Nat) (d : Nat)
    (hdis : ∀ v ∈ B, v ∉ S) :
    into T dst S d = into T dst (S ++ B) d +
      (List.range T.flatten.flatten.length).countP
        (fun j => decide (dst j = d ∧ srcOf T j ≠ d ∧ srcOf T j ∈ B)) := by
  unfold into
  induction (List.range T.flatten.flatten.length) with
  | nil => rfl
  | cons j l ih =>
    rw [List.countP_cons, List.countP_cons, List.countP_cons, ih]
    by_cases hB : srcOf T j ∈ B
    · have hS := hdis _ hB
      by_cases h1 : dst j = d ∧ srcOf T j ≠ d
      · simp only [hB, hS, h1, List.mem_append, or_true, not_true_eq_false, not_false_eq_true,
          and_true, and_false, decide_false, decide_true, if_true, ne_eq, Bool.false_eq_true, if_false]
        omega
      · have h2 : ∀ q : Prop, ¬ (dst j = d ∧ srcOf T j ≠ d ∧ q) := fun q h => h1 ⟨h.1, h.2.1⟩
        simp only [h2, decide_false, Bool.false_eq_true, if_false]; omega
    · by_cases h1 : dst j = d ∧ srcOf T j ≠ d ∧ srcOf T j ∉ S
      · have h2 : dst j = d ∧ srcOf T j ≠ d ∧ srcOf T j ∉ S ++ B :=
          ⟨h1.1, h1.2.1, by rw [List.mem_append, not_or]; exact ⟨h1.2.2, hB⟩⟩
        have h3 : ¬ (dst j = d ∧ srcOf T j ≠ d ∧ srcOf T j ∈ B) := fun h => hB h.2.2
        simp only [decide_eq_true h1, decide_eq_true h2, decide_eq_false h3, if_true,
          Bool.false_eq_true, if_false]
        omega
      · have h2 : ¬ (dst j = d ∧ srcOf T j ≠ d ∧ srcOf T j ∉ S ++ B) := fun h => h1
          ⟨h.1, h.2.1, fun hc => h.2.2 (List.mem_append_left _ hc)⟩
        have h3 : ¬ (dst j = d ∧ srcOf T j ≠ d ∧ srcOf T j ∈ B) := fun h => hB h.2.2
        simp only [h1, h2, h3, decide_false, Bool.false_eq_true, if_false]
        omega

/-! ## The arcs that leave a batch -/

/-- The leaving arcs of the states `B`. -/
def itemsOf (T : List (List (List X))) (B : List Nat) : List (Nat × Nat × Nat) :=
  B.flatMap (fun s => (List.range' (apos T s) (T.flatten.getD s []).length).map (fun j => (keyOf T s, s, j)))

theorem leavingArcs_eq (T : List (List (List (Arc W)))) (B : List Nat) (h : ∀ v ∈ B, v < T.flatten.length)
    (sp : List Nat) : leavingArcs (flat T).sp2 ⟨sp, B.map (keyOf T), B⟩ = some (itemsOf T B) := by
  unfold leavingArcs
  have : (List.range B.length).mapM (fun i => (B[i]?).bind fun s => ((B.map (keyOf T))[i]?).bind fun r =>
      (rowElems (flat T).sp2 s).bind fun es => some (es.map (fun j => (r, s, j)))) =
      some (B.map (fun s => (List.range' (apos T s) (T.flatten.getD s []).length).map
        (fun j => (keyOf T s, s, j)))) := by
    apply mapM_some_of
    · rw [List.length_map, List.length_range]
    · intro i b hb
      obtain ⟨hlt, hb⟩ := List.getElem?_eq_some_iff.mp hb
      rw [List.getElem_range] at hb; subst hb; rw [List.length_range] at hlt
      have hv := h _ (List.getElem_mem hlt)
      have hrow := List.getElem?_eq_getElem hv
      simp only [List.getElem?_map, List.getElem?_eq_getElem hlt, Option.map_some, Option.bind_some,
        rowElems_flat T _ _ hrow]
      rw [List.getD_eq_getElem?_getD, hrow]; rfl
  simp only [Option.bind_eq_bind, this, Option.bind_some]
  rw [itemsOf, List.flatMap_def]

theorem itemsOf_mem (T : List (List (List X))) (B : List Nat) (h : ∀ v ∈ B, v < T.flatten.length)
    (x : Nat × Nat × Nat) : x ∈ itemsOf T B ↔ x.1 = keyOf T x.2.1 ∧ x.2.1 ∈ B ∧
      x.2.2 < T.flatten.flatten.length ∧ srcOf T x.2.2 = x.2.1 := by
  obtain ⟨r, s, j⟩ := x
  unfold itemsOf
  rw [List.mem_flatMap]
  constructor
  · rintro ⟨g, hg, hx⟩
    obtain ⟨j', hj', he⟩ := List.mem_map.mp hx
    obtain ⟨rfl, rfl, rfl⟩ : keyOf T g = r ∧ g = s ∧ j' = j := by simpa using he
    have hrow := List.getElem?_eq_getElem (h g hg)
    rw [List.getD_eq_getElem?_getD, hrow, Option.getD_some, List.mem_range'_1] at hj'
    obtain ⟨k, rfl⟩ : ∃ k, j' = apos T g + k := ⟨j' - apos T g, by omega⟩
    have hk : k < (T.flatten[g]'(h g hg)).length := by omega
    have := flat_arc T g k _ hrow hk
    rw [List.getElem?_eq_getElem hk] at this
    exact ⟨rfl, hg, (List.getElem?_eq_some_iff.mp this).1, srcOf_apos T g k _ hrow hk⟩
  · rintro ⟨h1, h2, h3, h4⟩
    simp only at h1 h2 h3 h4
    obtain ⟨g, row, k, hg, hk, rfl⟩ := arc_pos2 T j h3
    rw [srcOf_apos T g k row hg hk] at h4
    subst h4
    refine ⟨g, h2, List.mem_map.mpr ⟨apos T g + k, ?_, by rw [h1]⟩⟩
    rw [List.getD_eq_getElem?_getD, hg, Option.getD_some, List.mem_range'_1]
    omega

theorem itemsOf_nodup (T : List (List (List X))) (B : List Nat) (h : ∀ v ∈ B, v < T.flatten.length)
    (hnd : B.Nodup) : ((itemsOf T B).map (fun x => x.2.2)).Nodup := by
  induction B with
  | nil => simp [itemsOf]
  | cons g B ih =>
    obtain ⟨hg, hnd⟩ := List.nodup_cons.mp hnd
    have hB : ∀ v ∈ B, v < T.flatten.length := fun v hv => h v (List.mem_cons_of_mem _ hv)
    have hcons : itemsOf T (g :: B) = itemsOf T [g] ++ itemsOf T B := by simp [itemsOf]
    rw [hcons, List.map_append, List.nodup_append]
    refine ⟨?_, ih hB hnd, ?_⟩
    · have : (itemsOf T [g]).map (fun x => x.2.2) = List.range' (apos T g) (T.flatten.getD g []).length := by
        simp [itemsOf, List.map_map, Function.comp_def]
      rw [this]
      exact List.nodup_range'
    · intro a ha b hb hab
      subst hab
      obtain ⟨x, hx, hxa⟩ := List.mem_map.mp ha
      obtain ⟨y, hy, hya⟩ := List.mem_map.mp hb
      have h1 := (itemsOf_mem T [g] (by simpa using h g List.mem_cons_self) x).mp hx
      have h2 := (itemsOf_mem T B hB y).mp hy
      have h3 := h1.2.2.2; have h4 := h2.2.2.2
      rw [hxa] at h3; rw [hya] at h4
      have h5 : x.2.1 = g := by simpa using h1.2.1
      rw [← h5, ← h3, h4] at hg
      exact hg h2.2.1

theorem itemsOf_arcs (T : List (List (List X))) (B : List Nat) (h : ∀ v ∈ B, v < T.flatten.length)
    (hnd : B.Nodup) : ((itemsOf T B).map (fun x => x.2.2)).Perm
      ((List.range T.flatten.flatten.length).filter (fun j => decide (srcOf T j ∈ B))) := by
  apply (List.perm_ext_iff_of_nodup (itemsOf_nodup T B h hnd) (List.nodup_range.filter _)).mpr
  intro j
  rw [List.mem_map, List.mem_filter, List.mem_range, decide_eq_true_iff]
  constructor
  · rintro ⟨x, hx, rfl⟩
    obtain ⟨_, h1, h2, h3⟩ := (itemsOf_mem T B h x).mp hx
    exact ⟨h2, by rw [h3]; exact h1⟩
  · rintro ⟨h1, h2⟩
    exact ⟨(keyOf T (srcOf T j), srcOf T j, j), (itemsOf_mem T B h _).mpr ⟨rfl, h2, h1, rfl⟩, rfl⟩

theorem itemsOf_keys (T : List (List (List X))) (B : List Nat)
    (hk : B.Pairwise (fun a b => keyOf T a ≤ keyOf T b)) : (itemsOf T B).Pairwise (fun x y => x.1 ≤ y.1) := by
  induction B with
  | nil => simp [itemsOf]
  | cons g B ih =>
    rw [List.pairwise_cons] at hk
    rw [show itemsOf T (g :: B) = (List.range' (apos T g) (T.flatten.getD g []).length).map
      (fun j => (keyOf T g, g, j)) ++ itemsOf T B from by simp [itemsOf], List.pairwise_append]
    refine ⟨?_, ih hk.2, ?_⟩
    · rw [List.pairwise_map]
      exact List.pairwise_of_forall (fun _ _ => Nat.le_refl _)
    · intro x hx y hy
      obtain ⟨j, _, rfl⟩ := List.mem_map.mp hx
      rw [itemsOf, List.mem_flatMap] at hy
      obtain ⟨s, hs, hy⟩ := hy
      obtain ⟨j', _, rfl⟩ := List.mem_map.mp hy
      exact hk.1 s hs

end Verif.Fsa.Top
