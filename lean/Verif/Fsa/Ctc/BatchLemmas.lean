import Verif.Fsa.Ctc.Batch
import Verif.Fsa.Vec.Lemmas
import Verif.Util.MapM

/-! # The batch versions give the FSA of each transcript -/

namespace Verif.Fsa.CtcB
open Verif.Ragged Verif.Util
variable {W : Type} [Zero W]

theorem mapM_none {α β : Type} (f : α → Option β) (l : List α) (x : α) (hx : x ∈ l) (h : f x = none) :
    l.mapM f = none := by
  cases hm : l.mapM f with
  | none => rfl
  | some out =>
    obtain ⟨i, hi⟩ := List.getElem?_of_mem hx
    have h1 := (mapM_get hm).2 i x hi
    have h2 := (mapM_get hm).1
    have h3 := (List.getElem?_eq_some_iff.mp hi).1
    rw [h, List.getElem?_eq_none_iff] at h1
    omega

/-- The arcs of each state of the CTC graph of a transcript, with aux labels. -/
def ctcRows (m : Bool) (y : List Int) : List (List (Arc W × Int)) :=
  (List.range (y.length * 2 + 2)).map fun q => (List.range (ctcNumArcs m y q)).map (ctcArc m y q)

theorem ctcRows_flatten (m : Bool) (y : List Int) : (ctcRows (W := W) m y).flatten = ctcArcs m y := by
  simp only [ctcRows, ctcArcs, List.flatMap_def]

theorem ctcRows_length (m : Bool) (y : List Int) : (ctcRows (W := W) m y).length = y.length * 2 + 2 := by
  simp [ctcRows]

theorem ctcRows_get (m : Bool) (y : List Int) (q : Nat) (h : q < y.length * 2 + 2) :
    (ctcRows (W := W) m y)[q]? = some ((List.range (ctcNumArcs m y q)).map (ctcArc m y q)) := by
  simp [ctcRows, h]

section
variable (m : Bool) (Y : List (List Int))

/-- All graphs. -/
def ctcAll : List (List (List (Arc W × Int))) := Y.map (ctcRows m)

theorem ctcAll_get {r : Nat} {y : List Int} (h : Y[r]? = some y) :
    (ctcAll (W := W) m Y)[r]? = some (ctcRows m y) := by simp [ctcAll, h]

theorem spl_get (r : Nat) (h : r ≤ Y.length) : (psum (Y.map List.length))[r]? = some (splits Y r) := by
  rw [psum_get _ _ (by simpa using h), splits, List.map_take]

theorem spl_succ {r : Nat} {y : List Int} (h : Y[r]? = some y) :
    (psum (Y.map List.length))[r + 1]? = some (splits Y r + y.length) := by
  rw [spl_get Y _ (List.getElem?_eq_some_iff.mp h).1, splits_succ Y r y h]

theorem off_eq (r : Nat) (h : r ≤ Y.length) : off (ctcAll (W := W) m Y) r = 2 * (splits Y r + r) := by
  induction r with
  | zero => simp [off]
  | succ r ih =>
    have hy := List.getElem?_eq_getElem (show r < Y.length by omega)
    rw [off_succ _ r _ (ctcAll_get m Y hy), splits_succ Y r _ hy, ih (by omega), ctcRows_length]
    omega

theorem states_get (g : Nat) (h : g < (ctcAll (W := W) m Y).flatten.length) :
    ∃ (r : Nat) (y : List Int) (q : Nat), Y[r]? = some y ∧ q < y.length * 2 + 2 ∧
      g = 2 * (splits Y r + r) + q ∧ off (ctcAll (W := W) m Y) r = 2 * (splits Y r + r) ∧
      (ctcAll (W := W) m Y).flatten[g]? = some ((List.range (ctcNumArcs m y q)).map (ctcArc m y q)) := by
  obtain ⟨r, f, q, h1, h2, h3⟩ := state_pos _ g h
  have hr : r < Y.length := by
    have := (List.getElem?_eq_some_iff.mp h1).1; simpa [ctcAll] using this
  have hy := List.getElem?_eq_getElem hr
  rw [ctcAll_get m Y hy] at h1
  obtain rfl := Option.some.inj h1
  rw [ctcRows_length] at h2
  have ho := off_eq (W := W) m Y r (by omega)
  refine ⟨r, _, q, hy, h2, by omega, ho, ?_⟩
  rw [h3, state_at _ r q _ (ctcAll_get m Y hy) (by rw [ctcRows_length]; exact h2), ctcRows_get m _ q h2]

theorem numStates_eq :
    (List.range ((psum (Y.map List.length)).length - 1)).mapM (numStates (psum (Y.map List.length))) =
      some ((ctcAll (W := W) m Y).map List.length) := by
  apply mapM_some_of
  · simp [ctcAll]
  · intro i b hb
    have hi : i < Y.length := by
      have := (List.getElem?_eq_some_iff.mp hb).1; simpa using this
    rw [List.getElem?_range (by simpa using hi)] at hb
    obtain rfl := Option.some.inj hb
    have hy := List.getElem?_eq_getElem hi
    simp only [numStates, spl_get Y i (by omega), spl_succ Y hy, Option.bind_eq_bind, Option.bind_some,
      List.getElem?_map, ctcAll_get m Y hy, Option.map_some, ctcRows_length, Nat.add_sub_cancel_left]

theorem vals_get {r : Nat} {y : List Int} (h : Y[r]? = some y) (j : Nat) (hj : j < y.length) :
    Y.flatten[splits Y r + j]? = some (symAt y j) := by
  rw [flatten_get Y r y h j hj, symAt, dif_pos hj, List.getElem?_eq_getElem hj]

theorem symOr_eq {r : Nat} {y : List Int} (h : Y[r]? = some y) (j : Nat) (hj : j ≤ y.length) :
    symOr Y.flatten (splits Y r + y.length) (splits Y r + j) = some (symAt y j) := by
  unfold symOr
  by_cases e : j = y.length
  · rw [if_pos (by omega), symAt, dif_neg (by omega)]
  · rw [if_neg (by omega)]; exact vals_get Y h j (by omega)

theorem numArcs_eq {r : Nat} {y : List Int} (h : Y[r]? = some y) (q : Nat) (hq : q < y.length * 2 + 2)
    (id1 : List Nat) (hid : id1[2 * (splits Y r + r) + q]? = some r) (hm : m = false → (-1 : Int) ∉ y) :
    numArcs m (psum (Y.map List.length)) Y.flatten id1 (2 * (splits Y r + r) + q) = some (ctcNumArcs m y q) := by
  have e1 : (2 * (splits Y r + r) + q) % 2 = q % 2 := by omega
  have e2 : (2 * (splits Y r + r) + q) / 2 - r = splits Y r + q / 2 := by omega
  simp only [numArcs, hid, Option.bind_eq_bind, Option.bind_some, e1, e2, spl_succ Y h, ctcNumArcs]
  by_cases h0 : q % 2 = 0
  · rw [if_pos h0, if_neg (show ¬ q % 2 = 1 by omega)]
  · rw [if_neg h0, if_pos (show q % 2 = 1 by omega)]
    have e3 : (splits Y r + q / 2 = splits Y r + y.length) = (q / 2 = y.length) := by
      simp only [Nat.add_left_cancel_iff]
    simp only [e3]
    by_cases h1 : q / 2 = y.length
    · rw [if_pos h1, if_pos h1]
    · rw [if_neg h1, if_neg h1]
      unfold numArcsSym
      cases m with
      | true => rfl
      | false =>
        rw [Nat.add_assoc (splits Y r), vals_get Y h _ (by omega), symOr_eq Y h _ (by omega)]
        have : symAt y (q / 2) ≠ -1 := by
          rw [symAt, dif_pos (by omega)]
          intro e; exact hm rfl (e ▸ List.getElem_mem _)
        simp [this]
        split <;> simp_all

theorem arcAt_eq {r : Nat} {y : List Int} (h : Y[r]? = some y) (q : Nat) (hq : q < y.length * 2 + 2)
    (k : Nat) (hk : k < ctcNumArcs m y q) (sp1 id1 sp2 id2 : List Nat) (a0 : Nat)
    (h1 : id2[a0 + k]? = some (2 * (splits Y r + r) + q)) (h2 : id1[2 * (splits Y r + r) + q]? = some r)
    (h3 : sp1[r]? = some (2 * (splits Y r + r))) (h4 : sp2[2 * (splits Y r + r) + q]? = some a0) :
    arcAt (W := W) m (psum (Y.map List.length)) Y.flatten sp1 id1 sp2 id2 (a0 + k) = some (ctcArc m y q k) := by
  have e1 : (2 * (splits Y r + r) + q) % 2 = q % 2 := by omega
  have e2 : (2 * (splits Y r + r) + q) / 2 - r = splits Y r + q / 2 := by omega
  simp only [arcAt, h1, h2, h3, h4, spl_succ Y h, Option.bind_eq_bind, Option.bind_some, e1, e2,
    Nat.add_sub_cancel_left]
  unfold ctcNumArcs at hk
  by_cases h0 : q % 2 = 1
  · rw [if_pos h0] at hk ⊢
    by_cases hf : q / 2 = y.length
    · rw [if_pos hf] at hk; omega
    · rw [if_neg hf] at hk
      unfold symArc
      rw [if_neg (by omega), Nat.add_assoc (splits Y r), vals_get Y h _ (by omega), symOr_eq Y h _ (by omega)]
      simp only [Option.bind_eq_bind, Option.bind_some, ctcArc, if_pos h0]
      have hk3 : k < 3 := by split at hk <;> [skip; split at hk] <;> omega
      by_cases hc : symAt y (q / 2) = symAt y (q / 2 + 1) ∧ m = false
      · rw [if_neg (by simp [hc.2]), if_neg (by simp [hc.1])] at hk
        simp only [if_pos hc]
        match k, hk with
        | 0, _ => simp
        | 1, _ => simp
      · simp only [if_neg hc]
        match k, hk3 with
        | 0, _ => simp
        | 1, _ => simp
        | 2, _ => simp [Nat.add_left_cancel_iff]
  · rw [if_neg h0] at hk ⊢
    unfold blankArc
    rw [symOr_eq Y h _ (by omega)]
    simp only [Option.bind_eq_bind, Option.bind_some, ctcArc, if_neg h0]
    match k, hk with
    | 0, _ => simp
    | 1, _ => simp

/-- `CtcGraphs` lays out the graphs of the transcripts one after the other. -/
theorem ctcGraphs_eq (hm : m = false → ∀ y ∈ Y, (-1 : Int) ∉ y) :
    ctcGraphs (W := W) m (psum (Y.map List.length)) Y.flatten =
      some (flat ((ctcAll m Y).map (List.map (List.map Prod.fst))),
        ((ctcAll (W := W) m Y).flatten.flatten).map Prod.snd) := by
  unfold ctcGraphs
  rw [numStates_eq (W := W) m Y]
  simp only [Option.bind_eq_bind, Option.bind_some, rowSplitsToRowIds_psum]
  have hlen : ((ctcAll (W := W) m Y).map List.length).sum = (ctcAll (W := W) m Y).flatten.length := by
    rw [List.length_flatten]
  have hid1 : ∀ (r q : Nat) (y : List Int), Y[r]? = some y → q < y.length * 2 + 2 →
      (idsFrom 0 ((ctcAll (W := W) m Y).map List.length))[2 * (splits Y r + r) + q]? = some r := by
    intro r q y hy hq
    rw [← off_eq (W := W) m Y r (List.getElem?_eq_some_iff.mp hy).1.le]
    refine ids_at _ r (y.length * 2 + 2) q ?_ hq
    rw [List.getElem?_map, ctcAll_get m Y hy, Option.map_some, ctcRows_length]
  have hna : (List.range ((ctcAll (W := W) m Y).map List.length).sum).mapM
      (numArcs m (psum (Y.map List.length)) Y.flatten (idsFrom 0 ((ctcAll (W := W) m Y).map List.length))) =
      some ((ctcAll (W := W) m Y).flatten.map List.length) := by
    apply mapM_some_of
    · rw [List.length_map, List.length_range, hlen]
    · intro i b hb
      have hi : i < (ctcAll (W := W) m Y).flatten.length := by
        have := (List.getElem?_eq_some_iff.mp hb).1; rwa [List.length_range, hlen] at this
      rw [List.getElem?_range (by omega)] at hb
      obtain rfl := Option.some.inj hb
      obtain ⟨r, y, q, h1, h2, h3, h4, h5⟩ := states_get m Y i hi
      rw [List.getElem?_map, h5, h3, numArcs_eq m Y h1 q h2 _ (hid1 r q y h1 h2)
        (fun e => hm e y (List.mem_of_getElem? h1))]
      simp
  rw [hna]
  simp only [Option.bind_some, rowSplitsToRowIds_psum]
  have hlen2 : ((ctcAll (W := W) m Y).flatten.map List.length).sum =
      (ctcAll (W := W) m Y).flatten.flatten.length := by rw [List.length_flatten]
  have has : (List.range ((ctcAll (W := W) m Y).flatten.map List.length).sum).mapM
      (arcAt m (psum (Y.map List.length)) Y.flatten (psum ((ctcAll (W := W) m Y).map List.length))
        (idsFrom 0 ((ctcAll (W := W) m Y).map List.length)) (psum ((ctcAll (W := W) m Y).flatten.map List.length))
        (idsFrom 0 ((ctcAll (W := W) m Y).flatten.map List.length))) =
      some (ctcAll (W := W) m Y).flatten.flatten := by
    apply mapM_some_of
    · rw [List.length_range, hlen2]
    · intro i b hb
      have hi : i < (ctcAll (W := W) m Y).flatten.flatten.length := by
        have := (List.getElem?_eq_some_iff.mp hb).1; rwa [List.length_range, hlen2] at this
      rw [List.getElem?_range (by omega)] at hb
      obtain rfl := Option.some.inj hb
      obtain ⟨g, row, k, h1, h2, h3⟩ := arc_pos2 _ i hi
      have hg := (List.getElem?_eq_some_iff.mp h1).1
      obtain ⟨r, y, q, k1, k2, k3, k4, k5⟩ := states_get m Y g hg
      have hr := (List.getElem?_eq_some_iff.mp k1).1
      rw [h3, flat_arc _ g k row h1 h2]
      rw [k5] at h1
      obtain rfl := Option.some.inj h1
      simp only [List.length_map, List.length_range] at h2
      rw [arcAt_eq m Y k1 q k2 k h2 _ _ _ _ (apos (ctcAll (W := W) m Y) g)]
      · simp [h2]
      · rw [← k3]
        refine ids_at _ g _ k ?_ h2
        rw [List.getElem?_map, k5]; simp
      · exact hid1 r q y k1 k2
      · rw [← k4]; exact psum_get _ _ (by simpa [ctcAll] using hr.le)
      · rw [← k3]; exact psum_get _ _ (by rw [List.length_map]; omega)
  rw [has]
  simp only [Option.bind_some, flat, List.map_map, Option.some.injEq, Prod.mk.injEq, and_true]
  have e1 : (ctcAll (W := W) m Y).map List.length =
      (ctcAll (W := W) m Y).map (List.length ∘ List.map (List.map Prod.fst)) := by
    apply List.map_congr_left; intro f _; simp
  have e2 : ((ctcAll (W := W) m Y).map (List.map (List.map Prod.fst))).flatten =
      (ctcAll (W := W) m Y).flatten.map (List.map Prod.fst) := by rw [List.map_flatten]
  have e3 : (ctcAll (W := W) m Y).flatten.map (List.length ∘ List.map Prod.fst) =
      (ctcAll (W := W) m Y).flatten.map List.length := by
    apply List.map_congr_left; intro f _; simp
  rw [e2, List.map_map, e3, ← List.map_flatten, ← e1]

/-- The check on the symbols. -/
theorem ctcGraphs_none (y : List Int) (hy : y ∈ Y) (h1 : (-1 : Int) ∈ y) :
    ctcGraphs (W := W) false (psum (Y.map List.length)) Y.flatten = none := by
  unfold ctcGraphs
  rw [numStates_eq (W := W) false Y]
  simp only [Option.bind_eq_bind, Option.bind_some, rowSplitsToRowIds_psum]
  obtain ⟨r, hr⟩ := List.getElem?_of_mem hy
  obtain ⟨j, hj⟩ := List.getElem?_of_mem h1
  have hjl := (List.getElem?_eq_some_iff.mp hj).1
  have hrl := (List.getElem?_eq_some_iff.mp hr).1
  have ho := off_eq (W := W) false Y r hrl.le
  have hlt := off_lt (ctcAll (W := W) false Y) r (2 * j + 1) _ (ctcAll_get false Y hr)
    (by rw [ctcRows_length]; omega)
  have hlen : ((ctcAll (W := W) false Y).map List.length).sum = (ctcAll (W := W) false Y).flatten.length := by
    rw [List.length_flatten]
  rw [mapM_none _ _ (off (ctcAll (W := W) false Y) r + (2 * j + 1)) (by rw [List.mem_range, hlen]; exact hlt)]
  · rfl
  · have hid : (idsFrom 0 ((ctcAll (W := W) false Y).map List.length))[off (ctcAll (W := W) false Y) r +
        (2 * j + 1)]? = some r := by
      refine ids_at _ r (y.length * 2 + 2) _ ?_ (by omega)
      rw [List.getElem?_map, ctcAll_get false Y hr, Option.map_some, ctcRows_length]
    have e1 : (off (ctcAll (W := W) false Y) r + (2 * j + 1)) % 2 = 1 := by omega
    have e2 : (off (ctcAll (W := W) false Y) r + (2 * j + 1)) / 2 - r = splits Y r + j := by omega
    simp only [numArcs, hid, Option.bind_eq_bind, Option.bind_some, e1, e2, spl_succ Y hr]
    rw [if_neg (by omega), if_neg (by omega)]
    simp only [numArcsSym, Bool.false_eq_true, if_false]
    rw [Nat.add_assoc (splits Y r), vals_get Y hr j hjl, symOr_eq Y hr (j + 1) (by omega)]
    have : symAt y j = -1 := by
      rw [symAt, dif_pos hjl]
      rw [List.getElem?_eq_getElem hjl] at hj
      exact Option.some.inj hj
    simp [this]

end

end Verif.Fsa.CtcB
