import Verif.Fsa.Ctc.Model

namespace Verif.Fsa
variable {W : Type} [Zero W]

/-! ## Specification of CTC collapsing -/

/-- `collapseFrom prev s`: what CTC makes of the frames `s` after a frame `prev`. A frame is
dropped if it is a blank or repeats the previous frame. -/
def collapseFrom : Int → List Int → List Int
  | _, [] => []
  | prev, x :: xs =>
    if x = 0 ∨ x = prev then collapseFrom x xs else x :: collapseFrom x xs

/-! ## Out-arcs -/

theorem mem_ctcArcs (m : Bool) (syms : List Int) (x : Arc W × Int) :
    x ∈ ctcArcs m syms ↔
      ∃ q k, q < syms.length * 2 + 2 ∧ k < ctcNumArcs m syms q ∧ x = ctcArc m syms q k := by
  simp only [ctcArcs, List.mem_flatMap, List.mem_range, List.mem_map]
  constructor
  · rintro ⟨q, hq, k, hk, rfl⟩; exact ⟨q, k, hq, hk, rfl⟩
  · rintro ⟨q, k, hq, hk, rfl⟩; exact ⟨q, hq, k, hk, rfl⟩

theorem ctcArc_src (m : Bool) (syms : List Int) (q k : Nat) :
    (ctcArc (W := W) m syms q k).1.src = q := by
  simp only [ctcArc]; split
  · split
    · rfl
    · split <;> rfl
  · rfl

theorem ctcArc_score (m : Bool) (syms : List Int) (q k : Nat) :
    (ctcArc (W := W) m syms q k).1.score = 0 := by
  simp only [ctcArc]; split
  · split
    · rfl
    · split <;> rfl
  · rfl

/-- Arcs leaving a given state. -/
theorem mem_ctcArcs_src (m : Bool) (syms : List Int) (q : Nat) (x : Arc W × Int) :
    (x ∈ ctcArcs m syms ∧ x.1.src = q) ↔
      q < syms.length * 2 + 2 ∧ ∃ k, k < ctcNumArcs m syms q ∧ x = ctcArc m syms q k := by
  rw [mem_ctcArcs]
  constructor
  · rintro ⟨⟨q', k, hq, hk, rfl⟩, h⟩
    rw [ctcArc_src] at h; subst h
    exact ⟨hq, k, hk, rfl⟩
  · rintro ⟨hq, k, hk, rfl⟩
    exact ⟨⟨q, k, hq, hk, rfl⟩, ctcArc_src ..⟩

theorem two_mul_div (i : Nat) : (2 * i) / 2 = i := by omega
theorem two_mul_mod (i : Nat) : (2 * i) % 2 = 0 := by omega
theorem two_mul_succ_div (i : Nat) : (2 * i + 1) / 2 = i := by omega
theorem two_mul_succ_mod (i : Nat) : (2 * i + 1) % 2 = 1 := by omega

theorem exists_lt_two {P : Nat → Prop} : (∃ k, k < 2 ∧ P k) ↔ P 0 ∨ P 1 := by
  constructor
  · rintro ⟨k, hk, h⟩
    match k, hk with
    | 0, _ => exact Or.inl h
    | 1, _ => exact Or.inr h
  · rintro (h | h)
    · exact ⟨0, by omega, h⟩
    · exact ⟨1, by omega, h⟩

theorem exists_lt_three {P : Nat → Prop} : (∃ k, k < 3 ∧ P k) ↔ P 0 ∨ P 1 ∨ P 2 := by
  constructor
  · rintro ⟨k, hk, h⟩
    match k, hk with
    | 0, _ => exact Or.inl h
    | 1, _ => exact Or.inr (Or.inl h)
    | 2, _ => exact Or.inr (Or.inr h)
  · rintro (h | h | h)
    · exact ⟨0, by omega, h⟩
    · exact ⟨1, by omega, h⟩
    · exact ⟨2, by omega, h⟩

/-- Arcs leaving the `i`-th blank state. -/
theorem ctc_blank (m : Bool) (syms : List Int) (i : Nat) (hi : i ≤ syms.length)
    (x : Arc W × Int) :
    (x ∈ ctcArcs m syms ∧ x.1.src = 2 * i) ↔
      x = (⟨2 * i, 2 * i, 0, 0⟩, 0) ∨
      x = (⟨2 * i, 2 * i + 1, symAt syms i, 0⟩, symAt syms i) := by
  rw [mem_ctcArcs_src]
  have h1 : 2 * i < syms.length * 2 + 2 := by omega
  have h2 : ctcNumArcs m syms (2 * i) = 2 := by simp [ctcNumArcs]
  rw [h2, exists_lt_two]
  have h3 : (if i = syms.length then (-1 : Int) else symAt syms i) = symAt syms i := by
    split
    · rename_i h; simp [symAt, h]
    · rfl
  simp [ctcArc, h1, h3]

/-- Arcs leaving the `i`-th symbol state. -/
theorem ctc_symbol (m : Bool) (syms : List Int) (i : Nat) (hi : i < syms.length)
    (x : Arc W × Int) :
    (x ∈ ctcArcs m syms ∧ x.1.src = 2 * i + 1) ↔
      x = (⟨2 * i + 1, 2 * i + 2, 0, 0⟩, 0) ∨
      x = (⟨2 * i + 1, 2 * i + 1, symAt syms i, 0⟩, 0) ∨
      ((m = true ∨ symAt syms i ≠ symAt syms (i + 1)) ∧
        x = (⟨2 * i + 1, 2 * i + 3, symAt syms (i + 1), 0⟩, symAt syms (i + 1))) := by
  rw [mem_ctcArcs_src]
  have h1 : 2 * i + 1 < syms.length * 2 + 2 := by omega
  have h0 : i ≠ syms.length := by omega
  have h3 : (if i + 1 = syms.length then (-1 : Int) else symAt syms (i + 1))
      = symAt syms (i + 1) := by
    split
    · rename_i h; simp [symAt, h]
    · rfl
  by_cases hm : m = true ∨ symAt syms i ≠ symAt syms (i + 1)
  · have h2 : ctcNumArcs m syms (2 * i + 1) = 3 := by
      rcases hm with hm | hm <;>
        simp [ctcNumArcs, two_mul_succ_mod, two_mul_succ_div, h0, hm]
    have h4 : ¬ (symAt syms i = symAt syms (i + 1) ∧ m = false) := by
      rcases hm with hm | hm <;> simp [hm]
    rw [h2, exists_lt_three]
    simp [ctcArc, two_mul_succ_mod, two_mul_succ_div, h4, h1, h3, hm]
  · have hm' : m = false ∧ symAt syms i = symAt syms (i + 1) := by
      cases m <;> simp_all
    have h2 : ctcNumArcs m syms (2 * i + 1) = 2 := by
      simp [ctcNumArcs, two_mul_succ_mod, two_mul_succ_div, h0, hm'.1, hm'.2]
    rw [h2, exists_lt_two]
    simp [ctcArc, two_mul_succ_mod, two_mul_succ_div, h1, hm'.1, hm'.2]

/-- No arcs leave the final state. -/
theorem ctc_final (m : Bool) (syms : List Int) (x : Arc W × Int) :
    ¬ (x ∈ ctcArcs m syms ∧ x.1.src = 2 * syms.length + 1) := by
  rw [mem_ctcArcs_src]
  have h2 : ctcNumArcs m syms (2 * syms.length + 1) = 0 := by
    simp [ctcNumArcs, two_mul_succ_mod, two_mul_succ_div]
  rw [h2]
  rintro ⟨_, k, hk, _⟩; omega

theorem symAt_of_lt {syms : List Int} {i : Nat} (h : i < syms.length) :
    symAt syms i = syms[i] := by simp [symAt, h]

theorem symAt_length (syms : List Int) : symAt syms syms.length = -1 := by simp [symAt]

theorem drop_eq_symAt_cons {syms : List Int} {i : Nat} (h : i < syms.length) :
    syms.drop i = symAt syms i :: syms.drop (i + 1) := by
  rw [symAt_of_lt h, List.drop_eq_getElem_cons h]

omit [Zero W] in
/-- Step rule in terms of the arcs leaving the current state. -/
theorem rel_cons' (T : List (Arc W × Int)) (t s : Nat) (i : Int) (l o : List Int) :
    Rel T t s (i :: l) o ↔
      ∃ x, (x ∈ T ∧ x.1.src = s) ∧ x.1.label = i ∧
        ∃ o', o = strip [x.2] ++ o' ∧ Rel T t x.1.dst l o' := by
  rw [rel_cons]
  constructor
  · rintro ⟨x, h1, h2, h⟩; exact ⟨x, ⟨h1, h2⟩, h⟩
  · rintro ⟨x, ⟨h1, h2⟩, h⟩; exact ⟨x, h1, h2, h⟩

theorem strip_zero : strip [0] = [] := rfl
theorem strip_neg_one : strip [-1] = [] := rfl
theorem strip_one {x : Int} (h0 : x ≠ 0) (h1 : x ≠ -1) : strip [x] = [x] := by
  simp [strip, h0, h1]

/-- From the final state only the empty sequence. -/
theorem ctc_rel_final (m : Bool) (syms : List Int) (l o : List Int) :
    Rel (ctcArcs (W := W) m syms) (2 * syms.length + 1) (2 * syms.length + 1) l o ↔
      l = [] ∧ o = [] := by
  cases l with
  | nil => simp [rel_nil]
  | cons i l =>
    rw [rel_cons']
    constructor
    · rintro ⟨x, h, _⟩; exact absurd h (ctc_final m syms x)
    · rintro ⟨h, _⟩; simp at h

theorem ctc_rel_blank_cons (m : Bool) (syms : List Int) (i : Nat) (hi : i ≤ syms.length)
    (t : Nat) (x : Int) (l o : List Int) :
    Rel (ctcArcs (W := W) m syms) t (2 * i) (x :: l) o ↔
      (x = 0 ∧ Rel (ctcArcs (W := W) m syms) t (2 * i) l o) ∨
      (x = symAt syms i ∧ ∃ o', o = strip [x] ++ o' ∧
        Rel (ctcArcs (W := W) m syms) t (2 * i + 1) l o') := by
  rw [rel_cons']
  simp only [ctc_blank m syms i hi]
  constructor
  · rintro ⟨y, rfl | rfl, rfl, o', ho, h⟩
    · refine Or.inl ⟨rfl, ?_⟩
      simp only [strip_zero, List.nil_append] at ho; subst ho; exact h
    · exact Or.inr ⟨rfl, o', ho, h⟩
  · rintro (⟨rfl, h⟩ | ⟨rfl, o', ho, h⟩)
    · exact ⟨_, Or.inl rfl, rfl, o, rfl, h⟩
    · exact ⟨_, Or.inr rfl, rfl, o', ho, h⟩

theorem ctc_rel_symbol_cons (m : Bool) (syms : List Int) (i : Nat) (hi : i < syms.length)
    (t : Nat) (x : Int) (l o : List Int) :
    Rel (ctcArcs (W := W) m syms) t (2 * i + 1) (x :: l) o ↔
      (x = 0 ∧ Rel (ctcArcs (W := W) m syms) t (2 * (i + 1)) l o) ∨
      (x = symAt syms i ∧ Rel (ctcArcs (W := W) m syms) t (2 * i + 1) l o) ∨
      ((m = true ∨ symAt syms i ≠ symAt syms (i + 1)) ∧
        x = symAt syms (i + 1) ∧ ∃ o', o = strip [x] ++ o' ∧
        Rel (ctcArcs (W := W) m syms) t (2 * (i + 1) + 1) l o') := by
  rw [rel_cons']
  simp only [ctc_symbol m syms i hi]
  constructor
  · rintro ⟨y, rfl | rfl | ⟨hm, rfl⟩, rfl, o', ho, h⟩
    · refine Or.inl ⟨rfl, ?_⟩
      simp only [strip_zero, List.nil_append] at ho; subst ho; exact h
    · refine Or.inr (Or.inl ⟨rfl, ?_⟩)
      simp only [strip_zero, List.nil_append] at ho; subst ho; exact h
    · exact Or.inr (Or.inr ⟨hm, rfl, o', ho, h⟩)
  · rintro (⟨rfl, h⟩ | ⟨rfl, h⟩ | ⟨hm, rfl, o', ho, h⟩)
    · exact ⟨_, Or.inl rfl, rfl, o, rfl, h⟩
    · exact ⟨_, Or.inr (Or.inl rfl), rfl, o, rfl, h⟩
    · exact ⟨_, Or.inr (Or.inr ⟨hm, rfl⟩), rfl, o', ho, h⟩

/-! ## The standard CTC graph -/

theorem symAt_mem {syms : List Int} {i : Nat} (h : i < syms.length) : symAt syms i ∈ syms := by
  rw [symAt_of_lt h]; exact List.getElem_mem h

theorem symAt_ne_neg_one {syms : List Int} (h1 : (-1 : Int) ∉ syms) {i : Nat}
    (h : i < syms.length) : symAt syms i ≠ -1 := fun e => h1 (e ▸ symAt_mem h)

theorem symAt_ne_zero {syms : List Int} (h0 : (0 : Int) ∉ syms) (i : Nat) :
    symAt syms i ≠ 0 := by
  by_cases h : i < syms.length
  · exact fun e => h0 (e ▸ symAt_mem h)
  · simp [symAt, h]

theorem ctc_std_rel (syms : List Int) (h0 : (0 : Int) ∉ syms) (h1 : (-1 : Int) ∉ syms)
    (s : List Int) :
    (∀ i, i ≤ syms.length → ∀ o,
      (Rel (ctcArcs (W := W) false syms) (2 * syms.length + 1) (2 * i) (s ++ [-1]) o ↔
        collapseFrom 0 s = syms.drop i ∧ o = syms.drop i)) ∧
    (∀ i, i < syms.length → ∀ o,
      (Rel (ctcArcs (W := W) false syms) (2 * syms.length + 1) (2 * i + 1) (s ++ [-1]) o ↔
        collapseFrom (symAt syms i) s = syms.drop (i + 1) ∧ o = syms.drop (i + 1))) := by
  induction s with
  | nil =>
    constructor
    · intro i hi o
      rw [List.nil_append, ctc_rel_blank_cons _ _ _ hi]
      simp only [rel_nil]
      by_cases h : i = syms.length
      · subst h
        simp [symAt_length, strip_neg_one, collapseFrom]
      · have hlt : i < syms.length := by omega
        have := symAt_ne_neg_one h1 hlt
        simp only [this.symm, false_and, or_false]
        constructor
        · rintro ⟨h, _⟩; simp at h
        · rintro ⟨h, _⟩
          rw [drop_eq_symAt_cons hlt] at h
          simp [collapseFrom] at h
    · intro i hi o
      rw [List.nil_append, ctc_rel_symbol_cons _ _ _ hi]
      simp only [rel_nil, (symAt_ne_neg_one h1 hi).symm, false_and, false_or]
      by_cases h : i + 1 = syms.length
      · rw [h, symAt_length]
        simp [strip_neg_one, collapseFrom, symAt_ne_neg_one h1 hi]
      · have hlt : i + 1 < syms.length := by omega
        simp only [(symAt_ne_neg_one h1 hlt).symm, false_and, and_false, or_false]
        constructor
        · rintro ⟨h, _⟩; simp at h
        · rintro ⟨h, _⟩
          rw [drop_eq_symAt_cons hlt] at h
          simp [collapseFrom] at h
  | cons x s ih =>
    obtain ⟨ihb, ihs⟩ := ih
    constructor
    · intro i hi o
      rw [List.cons_append, ctc_rel_blank_cons _ _ _ hi, ihb i hi]
      by_cases hx : x = 0
      · subst hx
        simp only [true_and, (symAt_ne_zero h0 i).symm, false_and, or_false]
        simp [collapseFrom]
      · simp only [hx, false_and, false_or]
        by_cases h : i = syms.length
        · subst h
          rw [symAt_length]
          simp only [ctc_rel_final]
          constructor
          · rintro ⟨_, _, _, h, _⟩; simp at h
          · rintro ⟨h, _⟩; simp [collapseFrom, hx] at h
        · have hlt : i < syms.length := by omega
          simp only [ihs i hlt, drop_eq_symAt_cons hlt, collapseFrom, hx, or_self, if_false,
            List.cons.injEq]
          constructor
          · rintro ⟨rfl, o', ho, h, rfl⟩
            rw [strip_one hx (symAt_ne_neg_one h1 hlt)] at ho
            exact ⟨⟨rfl, h⟩, ho⟩
          · rintro ⟨⟨rfl, h⟩, rfl⟩
            exact ⟨rfl, _, by rw [strip_one hx (symAt_ne_neg_one h1 hlt)]; rfl, h, rfl⟩
    · intro i hi o
      rw [List.cons_append, ctc_rel_symbol_cons _ _ _ hi, ihb (i + 1) (by omega), ihs i hi]
      by_cases hx : x = 0
      · subst hx
        simp only [true_and, (symAt_ne_zero h0 i).symm, (symAt_ne_zero h0 (i + 1)).symm,
          false_and, and_false, or_false]
        simp [collapseFrom]
      · simp only [hx, false_and, false_or]
        by_cases hxc : x = symAt syms i
        · simp only [hxc, true_and, collapseFrom]
          have : ∀ P : Prop, ¬ ((false = true ∨ symAt syms i ≠ symAt syms (i + 1)) ∧
              symAt syms i = symAt syms (i + 1) ∧ P) := by
            rintro P ⟨h, h', _⟩
            rcases h with h | h
            · simp at h
            · exact h h'
          rw [or_iff_left (this _)]
          simp
        · simp only [hxc, false_and, false_or]
          rw [show collapseFrom (symAt syms i) (x :: s) = x :: collapseFrom x s by
            simp [collapseFrom, hx, hxc]]
          by_cases h : i + 1 = syms.length
          · rw [h, symAt_length]
            simp only [ctc_rel_final]
            constructor
            · rintro ⟨_, _, _, _, h, _⟩; simp at h
            · rintro ⟨h, _⟩; simp at h
          · have hlt : i + 1 < syms.length := by omega
            simp only [ihs (i + 1) hlt, drop_eq_symAt_cons hlt, List.cons.injEq]
            constructor
            · rintro ⟨_, rfl, o', ho, h, rfl⟩
              rw [strip_one hx (symAt_ne_neg_one h1 hlt)] at ho
              exact ⟨⟨rfl, h⟩, ho⟩
            · rintro ⟨⟨rfl, h⟩, rfl⟩
              refine ⟨Or.inr (fun e => hxc e.symm), rfl, _, ?_, h, rfl⟩
              rw [strip_one hx (symAt_ne_neg_one h1 hlt)]; rfl

/-- The standard graph is deterministic. -/
theorem ctc_std_deterministic (syms : List Int) (h0 : (0 : Int) ∉ syms) :
    Deterministic (ctcArcs (W := W) false syms) := by
  intro x hx y hy hsrc hlab
  obtain ⟨q, hq⟩ : ∃ q, x.1.src = q := ⟨_, rfl⟩
  have hyq : y.1.src = q := hsrc ▸ hq
  have hqlt : q < syms.length * 2 + 2 := ((mem_ctcArcs_src _ _ _ _).mp ⟨hx, hq⟩).1
  rcases Nat.mod_two_eq_zero_or_one q with hmod | hmod
  · obtain ⟨i, rfl⟩ : ∃ i, q = 2 * i := ⟨q / 2, by omega⟩
    have hx' := (ctc_blank false syms i (by omega) x).mp ⟨hx, hq⟩
    have hy' := (ctc_blank false syms i (by omega) y).mp ⟨hy, hyq⟩
    have := symAt_ne_zero h0 i
    rcases hx' with rfl | rfl <;> rcases hy' with rfl | rfl <;> simp_all
  · obtain ⟨i, rfl⟩ : ∃ i, q = 2 * i + 1 := ⟨q / 2, by omega⟩
    by_cases h : i = syms.length
    · subst h; exact absurd ⟨hx, hq⟩ (ctc_final false syms x)
    · have hx' := (ctc_symbol false syms i (by omega) x).mp ⟨hx, hq⟩
      have hy' := (ctc_symbol false syms i (by omega) y).mp ⟨hy, hyq⟩
      have := symAt_ne_zero h0 i
      have := symAt_ne_zero h0 (i + 1)
      rcases hx' with rfl | rfl | ⟨hm, rfl⟩ <;> rcases hy' with rfl | rfl | ⟨hm', rfl⟩ <;>
        simp_all

end Verif.Fsa
