import Verif.Fsa.Ops.ClosureProps

/-! # Validity of the closure, its arc map, and C28 (aux labels of the python `closure`) -/

namespace Verif.Fsa
variable {W : Type}

theorem sorted_split (l : List (Arc W)) (h : l.Pairwise (fun a b => a.src ≤ b.src)) :
    (∀ a ∈ l.take (l.countP (fun a => a.src == 0)), a.src = 0) ∧
    (∀ a ∈ l.drop (l.countP (fun a => a.src == 0)), 0 < a.src) := by
  induction l with
  | nil => simp
  | cons a l ih =>
    rw [List.pairwise_cons] at h
    by_cases ha : a.src = 0
    · rw [List.countP_cons_of_pos (by simp [ha])]
      simp only [List.take_succ_cons, List.drop_succ_cons, List.mem_cons, forall_eq_or_imp]
      exact ⟨⟨ha, (ih h.2).1⟩, (ih h.2).2⟩
    · have : l.countP (fun a => a.src == 0) = 0 := by
        rw [List.countP_eq_zero]
        intro b hb
        have := h.1 b hb
        simp; omega
      rw [List.countP_cons_of_neg (by simpa using ha), this]
      simp only [List.take_zero, List.drop_zero, List.mem_cons, forall_eq_or_imp]
      refine ⟨by simp, by omega, fun b hb => ?_⟩
      have := h.1 b hb; omega

/-- The closure of a valid FSA is valid. -/
theorem closure_valid [Zero W] {f g : Fsa W} {m : List Int} (hf : f.Valid)
    (h : closure f = some (g, m)) : g.Valid := by
  obtain ⟨hne, hgn, hga, _⟩ := closure_some hf h
  have h2 := hf.two
  have hfin : g.final = f.final := by simp only [Fsa.final, hgn]
  have hfn : f.final = f.numStates - 1 := rfl
  obtain ⟨hs0, hs1⟩ := sorted_split f.arcs hf.sorted
  have hmem := closure_mem hf h
  refine ⟨by omega, ?_, ?_, ?_, ?_⟩
  · unfold Fsa.Sorted
    rw [hga, List.pairwise_append, List.pairwise_cons, List.pairwise_map, List.pairwise_map]
    simp only [closureArc_src]
    refine ⟨hf.sorted.sublist (List.take_sublist _ _), ⟨?_, hf.sorted.sublist (List.drop_sublist _ _)⟩,
      ?_⟩
    · intro b hb; exact Nat.zero_le _
    · intro a ha b _
      obtain ⟨a', ha', rfl⟩ := List.mem_map.mp ha
      rw [closureArc_src, hs0 a' ha']; exact Nat.zero_le _
  · intro b hb
    rw [hfin]
    rcases (hmem b).mp hb with rfl | ⟨a, ha, rfl⟩
    · simp only [closureNewArc]; omega
    · rw [closureArc_src]; exact hf.src_lt a ha
  · intro b hb
    rcases (hmem b).mp hb with rfl | ⟨a, ha, rfl⟩
    · simp only [closureNewArc]; omega
    · rw [closureArc_dst, hgn]
      have := hf.dst_lt a ha
      split <;> omega
  · intro b hb
    rw [hfin]
    rcases (hmem b).mp hb with rfl | ⟨a, ha, rfl⟩
    · simp [closureNewArc, Fsa.final]
    · have hi := hf.final_iff a ha
      rw [closureArc_dst]
      by_cases hc : a.dst = f.final
      · have : (closureArc f a).label = 0 := by
          unfold closureArc; rw [show f.numStates - 1 = f.final from rfl, if_pos hc]
        rw [this, if_pos hc]
        constructor
        · intro h; omega
        · intro h; omega
      · have : closureArc f a = a := by
          unfold closureArc; rw [show f.numStates - 1 = f.final from rfl, if_neg hc]
        rw [if_neg hc, this]; exact hi

theorem startArcs_le (f : Fsa W) : startArcs f ≤ f.arcs.length := List.countP_le_length

/-- The arcs of the closure by position: before position `k` (the number of arcs of the start
state) the old arcs, at `k` the new arc, after `k` the old arcs moved by one; and the arc map
says so. -/
theorem closure_positions [Zero W] {f g : Fsa W} {m : List Int} (hf : f.Valid)
    (h : closure f = some (g, m)) :
    g.arcs.length = f.arcs.length + 1 ∧ m.length = f.arcs.length + 1 ∧
    (∀ j, j < startArcs f → g.arcs[j]? = (f.arcs[j]?).map (closureArc f) ∧ m[j]? = some (j : Int)) ∧
    (g.arcs[startArcs f]? = some (closureNewArc f) ∧ m[startArcs f]? = some (-1)) ∧
    (∀ j, startArcs f ≤ j → j < f.arcs.length →
      g.arcs[j + 1]? = (f.arcs[j]?).map (closureArc f) ∧ m[j + 1]? = some (j : Int)) := by
  obtain ⟨hne, hgn, hga, hm⟩ := closure_some hf h
  have hk := startArcs_le f
  have hl1 : ((f.arcs.take (startArcs f)).map (closureArc f)).length = startArcs f := by
    simp; omega
  have hl2 : ((List.range (startArcs f)).map (fun (k : Nat) => (k : Int))).length = startArcs f := by
    simp
  refine ⟨?_, ?_, ?_, ⟨?_, ?_⟩, ?_⟩
  · rw [hga]; simp only [List.length_append, hl1, List.length_cons, List.length_map, List.length_drop]
    omega
  · rw [hm]; simp only [List.length_append, hl2, List.length_cons, List.length_map, List.length_range]
    omega
  · intro j hj
    constructor
    · rw [hga, List.getElem?_append_left (by omega), List.getElem?_map, List.getElem?_take, if_pos hj]
    · rw [hm, List.getElem?_append_left (by omega), List.getElem?_map, List.getElem?_range hj]; rfl
  · rw [hga, List.getElem?_append_right (by omega), hl1]; simp
  · rw [hm, List.getElem?_append_right (by omega), hl2]; simp
  · intro j hj hjl
    constructor
    · rw [hga, List.getElem?_append_right (by omega), hl1,
        show j + 1 - startArcs f = (j - startArcs f) + 1 by omega, List.getElem?_cons_succ,
        List.getElem?_map, List.getElem?_drop]
      congr 2; omega
    · rw [hm, List.getElem?_append_right (by omega), hl2,
        show j + 1 - startArcs f = (j - startArcs f) + 1 by omega, List.getElem?_cons_succ,
        List.getElem?_map, List.getElem?_range (by omega)]
      simp only [Option.map_some, Option.some.injEq]
      omega

theorem foldl_set_get (ms : List Nat) (L : List Int) (j : Nat) :
    (ms.foldl (fun l i => l.set i 0) L)[j]? =
      if j ∈ ms ∧ j < L.length then some 0 else L[j]? := by
  induction ms generalizing L with
  | nil => simp
  | cons i ms ih =>
    rw [List.foldl_cons, ih, List.length_set, List.getElem?_set]
    by_cases hj : j < L.length
    · by_cases hm : j ∈ ms
      · simp [hj, hm]
      · by_cases hij : i = j
        · subst hij; simp [hj]
        · have : ¬ j = i := fun e => hij e.symm
          simp [hj, hm, hij, this]
    · have : L[j]? = none := List.getElem?_eq_none (by omega)
      by_cases hij : i = j
      · subst hij; simp [hj]
      · simp [hj, this, hij]

theorem foldl_set_length (ms : List Nat) (L : List Int) :
    (ms.foldl (fun l i => l.set i 0) L).length = L.length := by
  induction ms generalizing L with
  | nil => rfl
  | cons i ms ih => rw [List.foldl_cons, ih, List.length_set]

/-- The positions that `fix_aux_labels` sets to 0. -/
def AuxMoved (aux : List Int) (k j : Nat) : Prop :=
  ∃ i, i < aux.length ∧ aux.getD i 0 = -1 ∧ j = if i > k then i + 1 else i

theorem fixAux_get (aux : List Int) (k : Nat) (m : List Int) (j : Nat) (hj : j < m.length) :
    (j = k → (fixAuxLabels aux k m)[j]? = some (-1)) ∧
    (j ≠ k → AuxMoved aux k j → (fixAuxLabels aux k m)[j]? = some 0) ∧
    (j ≠ k → ¬ AuxMoved aux k j → (fixAuxLabels aux k m)[j]? = (indexSelect aux m)[j]?) := by
  have hmv : j ∈ ((List.range aux.length).filter (fun i => aux.getD i 0 == -1)).map
      (fun i => if i > k then i + 1 else i) ↔ AuxMoved aux k j := by
    rw [List.mem_map]
    constructor
    · rintro ⟨i, hi, rfl⟩
      rw [List.mem_filter, List.mem_range] at hi
      exact ⟨i, hi.1, by simpa using hi.2, rfl⟩
    · rintro ⟨i, h1, h2, rfl⟩
      exact ⟨i, List.mem_filter.mpr ⟨List.mem_range.mpr h1, by simpa using h2⟩, rfl⟩
  have hlen : (indexSelect aux m).length = m.length := by simp [indexSelect]
  unfold fixAuxLabels
  simp only
  refine ⟨?_, ?_, ?_⟩
  · rintro rfl
    rw [List.getElem?_set_self (by rw [foldl_set_length, hlen]; exact hj)]
  · intro hne h
    rw [List.getElem?_set_ne (fun e => hne e.symm), foldl_set_get, if_pos ⟨hmv.mpr h, by omega⟩]
  · intro hne h
    rw [List.getElem?_set_ne (fun e => hne e.symm), foldl_set_get,
      if_neg (fun hh => h (hmv.mp hh.1))]

/-- Specification: `-1` on exactly the arcs that enter the final state. -/
def AuxAligned (f : Fsa W) (aux : List Int) : Prop :=
  aux.length = f.arcs.length ∧ ∀ (i : Nat) (a : Arc W) (x : Int),
    f.arcs[i]? = some a → aux[i]? = some x → (x = -1 ↔ a.dst = f.final)

theorem getD_of_get (l : List Int) (i : Nat) (x : Int) (h : l[i]? = some x) : l.getD i 0 = x := by
  rw [List.getD_eq_getElem?_getD, h]; rfl

theorem fixAux_value [Zero W] {f g : Fsa W} {m : List Int} {aux : List Int} (hf : f.Valid)
    (h : closure f = some (g, m)) (hl : aux.length = f.arcs.length) (j : Nat) (x : Int)
    (hx : aux[j]? = some x) :
    (j < startArcs f → (fixAuxLabels aux (startArcs f) m)[j]? = some (if x = -1 then 0 else x)) ∧
    (startArcs f = j → (fixAuxLabels aux (startArcs f) m)[j + 1]? = some x) ∧
    (startArcs f < j →
      (fixAuxLabels aux (startArcs f) m)[j + 1]? = some (if x = -1 then 0 else x)) := by
  obtain ⟨_, hml, p1, _, p3⟩ := closure_positions hf h
  have hj : j < aux.length := (List.getElem?_eq_some_iff.mp hx).1
  have hk := startArcs_le f
  have hd := getD_of_get aux j x hx
  have sel : ∀ q : Nat, m[q]? = some (j : Int) → (indexSelect aux m)[q]? = some x := by
    intro q hq
    unfold indexSelect
    rw [List.getElem?_map, hq]
    simp only [Option.map_some, Option.some.injEq]
    rw [if_neg (by omega), Int.toNat_natCast, hd]
  refine ⟨?_, ?_, ?_⟩
  · intro hjk
    obtain ⟨_, q2, q3⟩ := fixAux_get aux (startArcs f) m j (by omega)
    by_cases hm1 : x = -1
    · rw [if_pos hm1]
      exact q2 (by omega) ⟨j, hj, by omega, by rw [if_neg (by omega)]⟩
    · rw [if_neg hm1, q3 (by omega), sel j (p1 j hjk).2]
      rintro ⟨i, hi, hi2, he⟩
      by_cases hc : i > startArcs f
      · rw [if_pos hc] at he; omega
      · rw [if_neg hc] at he; subst he; omega
  · intro hjk
    obtain ⟨_, _, q3⟩ := fixAux_get aux (startArcs f) m (j + 1) (by omega)
    rw [q3 (by omega), sel (j + 1) (p3 j (by omega) (by omega)).2]
    rintro ⟨i, hi, hi2, he⟩
    by_cases hc : i > startArcs f
    · rw [if_pos hc] at he; omega
    · rw [if_neg hc] at he; omega
  · intro hjk
    obtain ⟨_, q2, q3⟩ := fixAux_get aux (startArcs f) m (j + 1) (by omega)
    by_cases hm1 : x = -1
    · rw [if_pos hm1]
      exact q2 (by omega) ⟨j, hj, by omega, by rw [if_pos (by omega)]⟩
    · rw [if_neg hm1, q3 (by omega), sel (j + 1) (p3 j (by omega) (by omega)).2]
      rintro ⟨i, hi, hi2, he⟩
      by_cases hc : i > startArcs f
      · rw [if_pos hc] at he
        have : i = j := by omega
        subst this; omega
      · rw [if_neg hc] at he; omega

/-- **C28.** If the first arc that does not leave the start state does not enter the final state,
the aux labels of the closure are `-1` on exactly the arcs that enter the final state.  The
missing case is violated by the code: `closure_aux_misaligned`. -/
theorem closure_aux_partial [Zero W] {f g : Fsa W} {m : List Int} {aux : List Int} (hf : f.Valid)
    (h : closure f = some (g, m)) (ha : AuxAligned f aux)
    (hk : ∀ a, f.arcs[startArcs f]? = some a → a.dst ≠ f.final) :
    AuxAligned g (fixAuxLabels aux (startArcs f) m) := by
  obtain ⟨hal, haux⟩ := ha
  obtain ⟨hgl, hml, p1, p2, p3⟩ := closure_positions hf h
  have hgf : g.final = f.final := by simp only [Fsa.final, (closure_some hf h).2.1]
  have h2 := hf.two
  have hfn : f.final = f.numStates - 1 := rfl
  have hlen : (fixAuxLabels aux (startArcs f) m).length = m.length := by
    unfold fixAuxLabels
    simp only [List.length_set, foldl_set_length, indexSelect, List.length_map]
  refine ⟨by omega, ?_⟩
  intro j b y hb hy
  rw [hgf]
  have hjl : j < g.arcs.length := (List.getElem?_eq_some_iff.mp hb).1
  -- the old arc at a position other than the new one
  have old : ∀ (i : Nat) (a : Arc W) (x : Int), f.arcs[i]? = some a → aux[i]? = some x → b = closureArc f a →
      (y = if x = -1 then 0 else x) → (y = -1 ↔ b.dst = f.final) := by
    intro i a x hia hix hba hyx
    have hi := haux i a x hia hix
    subst hba hyx
    rw [closureArc_dst]
    by_cases hc : x = -1
    · rw [if_pos hc, if_pos (hi.mp hc)]
      constructor
      · intro h; omega
      · intro h; omega
    · rw [if_neg hc, if_neg (fun e => hc (hi.mpr e))]
      constructor
      · intro h; exact absurd h hc
      · intro h; exact absurd (hi.mpr h) hc
  rcases Nat.lt_trichotomy j (startArcs f) with hlt | heq | hgt
  · have hjf : j < f.arcs.length := by have := startArcs_le f; omega
    have hx : aux[j]? = some aux[j] := List.getElem?_eq_getElem (by omega)
    have hfa : f.arcs[j]? = some f.arcs[j] := List.getElem?_eq_getElem hjf
    have e1 := (p1 j hlt).1
    rw [hb, hfa] at e1
    have e2 := (fixAux_value hf h hal j _ hx).1 hlt
    rw [hy] at e2
    exact old j _ _ hfa hx (Option.some.inj e1) (Option.some.inj e2)
  · have e1 := p2.1
    rw [← heq, hb] at e1
    obtain rfl := Option.some.inj e1
    have e2 := (fixAux_get aux (startArcs f) m j (by omega)).1 heq
    rw [hy] at e2
    obtain rfl := Option.some.inj e2
    simp [closureNewArc, Fsa.final]
  · obtain ⟨i, rfl⟩ : ∃ i, j = i + 1 := ⟨j - 1, by omega⟩
    have hif : i < f.arcs.length := by omega
    have hx : aux[i]? = some aux[i] := List.getElem?_eq_getElem (by omega)
    have hfa : f.arcs[i]? = some f.arcs[i] := List.getElem?_eq_getElem hif
    have e1 := (p3 i (by omega) hif).1
    rw [hb, hfa] at e1
    by_cases hik : startArcs f = i
    · have e2 := (fixAux_value hf h hal i _ hx).2.1 hik
      rw [hy] at e2
      have hne : aux[i] ≠ -1 := by
        intro e
        exact hk _ (by rw [hik]; exact hfa) ((haux i _ _ hfa hx).mp e)
      refine old i _ _ hfa hx (Option.some.inj e1) ?_
      rw [if_neg hne]; exact Option.some.inj e2
    · have e2 := (fixAux_value hf h hal i _ hx).2.2 (by omega)
      rw [hy] at e2
      exact old i _ _ hfa hx (Option.some.inj e1) (Option.some.inj e2)

/-- **Disagreement with C28**, for every input of this form: if the first arc that does not leave
the start state enters the final state, its image keeps the aux label `-1` although it goes to the
start state. -/
theorem closure_aux_misaligned [Zero W] {f g : Fsa W} {m : List Int} {aux : List Int} (hf : f.Valid)
    (h : closure f = some (g, m)) (ha : AuxAligned f aux) (a : Arc W)
    (hk : f.arcs[startArcs f]? = some a) (hd : a.dst = f.final) :
    ¬ AuxAligned g (fixAuxLabels aux (startArcs f) m) := by
  rintro ⟨_, hall⟩
  obtain ⟨hal, haux⟩ := ha
  obtain ⟨hgl, hml, p1, p2, p3⟩ := closure_positions hf h
  have hkl := (List.getElem?_eq_some_iff.mp hk).1
  have hx : aux[startArcs f]? = some aux[startArcs f] := List.getElem?_eq_getElem (by omega)
  have e1 := (p3 _ (Nat.le_refl _) hkl).1
  rw [hk] at e1
  have e2 := (fixAux_value hf h hal _ _ hx).2.1 rfl
  have hm1 : aux[startArcs f] = -1 := (haux _ _ _ hk hx).mpr hd
  have := (hall _ _ _ e1 e2).mp hm1
  rw [closureArc_dst, if_pos hd] at this
  have hgf : g.final = f.final := by simp only [Fsa.final, (closure_some hf h).2.1]
  have h2 := hf.two
  rw [hgf] at this
  simp only [Fsa.final] at this; omega

/-- The hypotheses of `closure_aux_misaligned` are met by the two-arc linear FST. -/
example : ∃ (f g : Fsa Int) (m aux : List Int) (a : Arc Int), f.Valid ∧ closure f = some (g, m) ∧
    AuxAligned f aux ∧ f.arcs[startArcs f]? = some a ∧ a.dst = f.final ∧
    fixAuxLabels aux (startArcs f) m = [5, -1, -1] := by
  refine ⟨⟨3, [⟨0, 1, 1, 0⟩, ⟨1, 2, -1, 0⟩]⟩, _, _, [5, -1], ⟨1, 2, -1, 0⟩,
    ⟨by decide, by unfold Fsa.Sorted; decide, by decide, by decide, by decide⟩, rfl,
    ⟨rfl, ?_⟩, by decide, by decide, by decide +kernel⟩
  intro i a x h1 h2
  match i with
  | 0 => simp only [List.getElem?_cons_zero, Option.some.injEq] at h1 h2; subst h1 h2; decide
  | 1 =>
    simp only [List.getElem?_cons_zero, List.getElem?_cons_succ, Option.some.injEq] at h1 h2
    subst h1 h2; decide
  | i + 2 => simp at h1

/-- The hypotheses of `closure_aux_partial` are met by a three-arc FST. -/
example : ∃ (f g : Fsa Int) (m : List Int) , f.Valid ∧ closure f = some (g, m) ∧
    (∀ a, f.arcs[startArcs f]? = some a → a.dst ≠ f.final) ∧
    fixAuxLabels [5, 6, -1] (startArcs f) m = [5, -1, 6, 0] := by
  refine ⟨⟨4, [⟨0, 1, 1, 0⟩, ⟨1, 2, 2, 0⟩, ⟨2, 3, -1, 0⟩]⟩, _, _,
    ⟨by decide, by unfold Fsa.Sorted; decide, by decide, by decide, by decide⟩, rfl, ?_,
    by decide +kernel⟩
  intro a h
  simp [startArcs] at h
  subst h; decide

/-- **Disagreement with C27.** An FSA with no accepting path may be undefined (two states, no
arcs), and the closure of the empty FSA is the empty FSA, which does not accept the empty
string. -/
theorem closure_empty : closure (⟨0, []⟩ : Fsa Int) = some (⟨0, []⟩, []) ∧
    closure (⟨2, []⟩ : Fsa Int) = none ∧ ¬ ∃ s w, Accepts (⟨0, []⟩ : Fsa Int) s w := by
  refine ⟨rfl, rfl, ?_⟩
  rintro ⟨s, w, p, ⟨h, _⟩, _⟩
  simp at h

end Verif.Fsa
