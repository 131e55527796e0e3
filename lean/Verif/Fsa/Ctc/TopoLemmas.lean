import Verif.Fsa.Ctc.Lemmas

namespace Verif.Fsa
variable {W : Type} [Zero W]

/-! ## Specification of modified CTC -/

/-- Modified CTC (`ctc_topo(modified=True)`, issue 746 cited at fsa_algo.cu 744): a frame
sequence is cut into blanks and blocks `d d ... d` of one token, each block standing for one
`d`. Two equal neighbouring tokens need no blank between their blocks. -/
inductive ModCtc : List Int → List Int → Prop
  | nil : ModCtc [] []
  | blank {s t} : ModCtc s t → ModCtc (0 :: s) t
  | block {s t} (d : Int) (k : Nat) : d ≠ 0 → ModCtc s t →
      ModCtc (List.replicate (k + 1) d ++ s) (d :: t)

theorem modCtc_nil_left (t : List Int) : ModCtc [] t ↔ t = [] := by
  constructor
  · intro h
    generalize hs : ([] : List Int) = s at h
    cases h with
    | nil => rfl
    | blank h => simp at hs
    | block d k _ h => simp [List.replicate_succ] at hs
  · rintro rfl; exact .nil

/-- Reading modified CTC one frame at a time: `After d s t` says that `s` may continue a block
of `d` (with `t` still to come). -/
def After (d : Int) (s t : List Int) : Prop :=
  ∃ j s', s = List.replicate j d ++ s' ∧ ModCtc s' t

theorem modCtc_cons (x : Int) (s t : List Int) :
    ModCtc (x :: s) t ↔
      (x = 0 ∧ ModCtc s t) ∨ (x ≠ 0 ∧ ∃ t', t = x :: t' ∧ After x s t') := by
  constructor
  · intro h
    generalize hs : x :: s = s0 at h
    cases h with
    | nil => simp at hs
    | blank h => simp only [List.cons.injEq] at hs; obtain ⟨rfl, rfl⟩ := hs; exact Or.inl ⟨rfl, h⟩
    | block d k hd h =>
      rename_i s1 t1
      simp only [List.replicate_succ, List.cons_append, List.cons.injEq] at hs
      obtain ⟨rfl, rfl⟩ := hs
      exact Or.inr ⟨hd, t1, rfl, k, s1, rfl, h⟩
  · rintro (⟨rfl, h⟩ | ⟨hx, t', rfl, j, s', rfl, h⟩)
    · exact .blank h
    · exact ModCtc.block x j hx h

theorem after_nil (d : Int) (t : List Int) : After d [] t ↔ t = [] := by
  constructor
  · rintro ⟨j, s', hs, h⟩
    have : s' = [] := by
      cases s' with
      | nil => rfl
      | cons _ _ => simp at hs
    subst this
    exact (modCtc_nil_left t).mp h
  · rintro rfl; exact ⟨0, [], rfl, .nil⟩

theorem after_cons (d x : Int) (s t : List Int) :
    After d (x :: s) t ↔ ModCtc (x :: s) t ∨ (x = d ∧ After d s t) := by
  constructor
  · rintro ⟨j, s', hs, h⟩
    cases j with
    | zero =>
      simp only [List.replicate_zero, List.nil_append] at hs
      subst hs; exact Or.inl h
    | succ j =>
      simp only [List.replicate_succ, List.cons_append, List.cons.injEq] at hs
      exact Or.inr ⟨hs.1, j, s', hs.2, h⟩
  · rintro (h | ⟨rfl, j, s', rfl, h⟩)
    · exact ⟨0, x :: s, rfl, h⟩
    · exact ⟨j + 1, s', rfl, h⟩

/-- Every output token of modified CTC occurs among the frames and is not a blank. -/
theorem modCtc_mem {s t : List Int} (h : ModCtc s t) : ∀ d ∈ t, d ∈ s ∧ d ≠ 0 := by
  induction h with
  | nil => simp
  | blank _ ih =>
    intro d hd
    exact ⟨List.mem_cons_of_mem _ (ih d hd).1, (ih d hd).2⟩
  | block d k hd _ ih =>
    intro e he
    rcases List.mem_cons.mp he with rfl | he
    · exact ⟨by simp [List.replicate_succ], hd⟩
    · exact ⟨List.mem_append_right _ (ih e he).1, (ih e he).2⟩

/-- Every frame of modified CTC is a blank or an output token. -/
theorem modCtc_mem' {s t : List Int} (h : ModCtc s t) : ∀ x ∈ s, x = 0 ∨ x ∈ t := by
  induction h with
  | nil => simp
  | blank _ ih =>
    intro d hd
    rcases List.mem_cons.mp hd with rfl | hd
    · exact Or.inl rfl
    · exact ih d hd
  | block d k hd _ ih =>
    intro e he
    rcases List.mem_append.mp he with he | he
    · rw [List.eq_of_mem_replicate he]; simp
    · rcases ih e he with h | h
      · exact Or.inl h
      · exact Or.inr (List.mem_cons_of_mem _ h)

/-! ## Modified CTC graph -/

theorem ctc_mod_rel (syms : List Int) (h0 : (0 : Int) ∉ syms) (h1 : (-1 : Int) ∉ syms)
    (s : List Int) :
    (∀ i, i ≤ syms.length → ∀ o,
      (Rel (ctcArcs (W := W) true syms) (2 * syms.length + 1) (2 * i) (s ++ [-1]) o ↔
        ModCtc s (syms.drop i) ∧ o = syms.drop i)) ∧
    (∀ i, i < syms.length → ∀ o,
      (Rel (ctcArcs (W := W) true syms) (2 * syms.length + 1) (2 * i + 1) (s ++ [-1]) o ↔
        After (symAt syms i) s (syms.drop (i + 1)) ∧ o = syms.drop (i + 1))) := by
  induction s with
  | nil =>
    constructor
    · intro i hi o
      rw [List.nil_append, ctc_rel_blank_cons _ _ _ hi, modCtc_nil_left]
      simp only [rel_nil]
      by_cases h : i = syms.length
      · subst h
        simp [symAt_length, strip_neg_one]
      · have hlt : i < syms.length := by omega
        have := symAt_ne_neg_one h1 hlt
        simp only [this.symm, false_and, or_false]
        constructor
        · rintro ⟨h, _⟩; simp at h
        · rintro ⟨h, _⟩
          rw [drop_eq_symAt_cons hlt] at h
          simp at h
    · intro i hi o
      rw [List.nil_append, ctc_rel_symbol_cons _ _ _ hi, after_nil]
      simp only [rel_nil, (symAt_ne_neg_one h1 hi).symm, false_and, false_or]
      by_cases h : i + 1 = syms.length
      · rw [h, symAt_length]
        simp [strip_neg_one]
      · have hlt : i + 1 < syms.length := by omega
        simp only [(symAt_ne_neg_one h1 hlt).symm, false_and, and_false, or_false]
        constructor
        · rintro ⟨h, _⟩; simp at h
        · rintro ⟨h, _⟩
          rw [drop_eq_symAt_cons hlt] at h
          simp at h
  | cons x s ih =>
    obtain ⟨ihb, ihs⟩ := ih
    -- entering the next symbol state
    have enter : ∀ i, i ≤ syms.length → ∀ o,
        (x = symAt syms i ∧ ∃ o', o = strip [x] ++ o' ∧
          Rel (ctcArcs (W := W) true syms) (2 * syms.length + 1) (2 * i + 1) (s ++ [-1]) o') ↔
        (x ≠ 0 ∧ ∃ t', syms.drop i = x :: t' ∧ After x s t') ∧ o = syms.drop i := by
      intro i hi o
      by_cases h : i = syms.length
      · subst h
        simp only [ctc_rel_final]
        constructor
        · rintro ⟨_, _, _, h, _⟩; simp at h
        · rintro ⟨⟨_, _, h, _⟩, _⟩; simp at h
      · have hlt : i < syms.length := by omega
        simp only [ihs i hlt, drop_eq_symAt_cons hlt, List.cons.injEq]
        constructor
        · rintro ⟨rfl, o', ho, h, rfl⟩
          rw [strip_one (symAt_ne_zero h0 i) (symAt_ne_neg_one h1 hlt)] at ho
          exact ⟨⟨symAt_ne_zero h0 i, _, ⟨rfl, rfl⟩, h⟩, ho⟩
        · rintro ⟨⟨hx, _, ⟨rfl, rfl⟩, h⟩, rfl⟩
          exact ⟨rfl, _, by rw [strip_one hx (symAt_ne_neg_one h1 hlt)]; rfl, h, rfl⟩
    constructor
    · intro i hi o
      rw [List.cons_append, ctc_rel_blank_cons _ _ _ hi, ihb i hi, enter i hi, modCtc_cons]
      grind
    · intro i hi o
      rw [List.cons_append, ctc_rel_symbol_cons _ _ _ hi, ihb (i + 1) (by omega), ihs i hi]
      simp only [true_or, true_and]
      rw [enter (i + 1) (by omega), after_cons, modCtc_cons]
      by_cases hx : x = symAt syms i
      · subst hx
        grind
      · grind

/-! ## Standard topology -/

theorem mem_ctcTopo_std (M : Nat) (q : Nat) (x : Arc W × Int) :
    (x ∈ ctcTopo false M ∧ x.1.src = q) ↔
      q < M + 1 ∧ ∃ j, j < M + 2 ∧ x = topoArc M q j := by
  simp only [ctcTopo, Bool.false_eq_true, if_false, List.mem_flatMap, List.mem_range, List.mem_map]
  constructor
  · rintro ⟨⟨i, hi, j, hj, rfl⟩, h⟩
    simp only [topoArc] at h; subst h
    exact ⟨hi, j, hj, rfl⟩
  · rintro ⟨hi, j, hj, rfl⟩
    exact ⟨⟨q, hi, j, hj, rfl⟩, rfl⟩

theorem topo_rel_final (M : Nat) (l o : List Int) :
    Rel (ctcTopo (W := W) false M) (M + 1) (M + 1) l o ↔ l = [] ∧ o = [] := by
  cases l with
  | nil => simp [rel_nil]
  | cons i l =>
    rw [rel_cons']
    simp only [mem_ctcTopo_std]
    constructor
    · rintro ⟨x, ⟨h, _⟩, _⟩; omega
    · rintro ⟨h, _⟩; simp at h

theorem topo_std_rel (M : Nat) (s : List Int) (q : Nat) (hq : q ≤ M) (o : List Int) :
    Rel (ctcTopo (W := W) false M) (M + 1) q (s ++ [-1]) o ↔
      (∀ x ∈ s, 0 ≤ x ∧ x ≤ M) ∧ o = collapseFrom q s := by
  induction s generalizing q o with
  | nil =>
    rw [List.nil_append, rel_cons']
    simp only [mem_ctcTopo_std, rel_nil, collapseFrom]
    constructor
    · rintro ⟨x, ⟨_, j, hj, rfl⟩, hl, o', ho, hd, rfl⟩
      simp only [topoArc] at hl hd ho
      subst hd
      have hne : q ≠ M + 1 := by omega
      rw [if_neg hne, if_pos rfl, strip_neg_one] at ho
      exact ⟨by simp, by simpa using ho⟩
    · rintro ⟨_, rfl⟩
      have hne : q ≠ M + 1 := by omega
      refine ⟨topoArc M q (M + 1), ⟨by omega, M + 1, by omega, rfl⟩, ?_, [], ?_, rfl, rfl⟩
      · simp [topoArc]
      · simp [topoArc, hne, strip_neg_one]
  | cons x s ih =>
    rw [List.cons_append, rel_cons']
    simp only [mem_ctcTopo_std]
    constructor
    · rintro ⟨y, ⟨_, j, hj, rfl⟩, hl, o', ho, h⟩
      simp only [topoArc] at hl h ho
      by_cases hjM : j = M + 1
      · subst hjM
        have := (topo_rel_final M _ _).mp h
        simp at this
      · rw [if_neg hjM] at hl
        have hr := (ih j (by omega) o').mp h
        subst hl
        refine ⟨?_, ?_⟩
        · intro z hz
          rcases List.mem_cons.mp hz with rfl | hz
          · omega
          · exact hr.1 z hz
        · rw [ho, hr.2]
          by_cases hqj : q = j
          · subst hqj; simp [collapseFrom, strip_zero]
          · rw [if_neg hqj, if_neg hjM]
            by_cases hj0 : j = 0
            · subst hj0; simp [collapseFrom, strip]
            · rw [strip_one (by omega) (by omega)]
              simp only [collapseFrom]
              rw [if_neg (by omega)]; rfl
    · rintro ⟨hr, rfl⟩
      obtain ⟨hx0, hxM⟩ := hr x (by simp)
      obtain ⟨j, rfl⟩ := Int.eq_ofNat_of_zero_le hx0
      have hjM : j ≠ M + 1 := by omega
      refine ⟨topoArc M q j, ⟨by omega, j, by omega, rfl⟩, by simp [topoArc, hjM],
        collapseFrom j s, ?_, ?_⟩
      · simp only [topoArc]
        by_cases hqj : q = j
        · subst hqj; simp [collapseFrom, strip_zero]
        · rw [if_neg hqj, if_neg hjM]
          by_cases hj0 : j = 0
          · subst hj0; simp [collapseFrom, strip]
          · rw [strip_one (by omega) (by omega)]
            simp only [collapseFrom]
            rw [if_neg (by omega)]; rfl
      · exact (ih j (by omega) _).mpr ⟨fun z hz => hr z (List.mem_cons_of_mem _ hz), rfl⟩

theorem topo_std_deterministic (M : Nat) : Deterministic (ctcTopo (W := W) false M) := by
  intro x hx y hy hs hl
  obtain ⟨_, j, hj, hx'⟩ := (mem_ctcTopo_std M _ x).mp ⟨hx, rfl⟩
  obtain ⟨_, k, hk, hy'⟩ := (mem_ctcTopo_std M _ y).mp ⟨hy, rfl⟩
  rw [← hs] at hy'
  rw [hx', hy'] at hl ⊢
  have : j = k := by
    simp only [topoArc] at hl
    split at hl <;> split at hl <;> omega
  rw [this]

/-! ## Modified topology -/

theorem mem_ctcTopo_mod (M : Nat) (x : Arc W × Int) :
    x ∈ ctcTopo (W := W) true M ↔
      (∃ d, d ≤ M ∧ x = (⟨0, 0, (d : Int), 0⟩, (d : Int))) ∨
      (∃ d, 1 ≤ d ∧ d ≤ M ∧ x = (⟨0, d, (d : Int), 0⟩, (d : Int))) ∨
      x = (⟨0, M + 1, -1, 0⟩, -1) ∨
      (∃ d, 1 ≤ d ∧ d ≤ M ∧ (x = (⟨d, d, (d : Int), 0⟩, 0) ∨ x = (⟨d, 0, (d : Int), 0⟩, 0))) := by
  simp only [ctcTopo, if_true, List.mem_map, List.mem_range]
  constructor
  · rintro ⟨i, hi, rfl⟩
    simp only [topoModArc]
    by_cases h1 : i < M + 2 - 1
    · rw [if_pos h1]
      exact Or.inl ⟨i, by omega, rfl⟩
    · rw [if_neg h1]
      by_cases h2 : i < (M + 2 - 1) * 2
      · rw [if_pos h2]
        by_cases h3 : i - (M + 2 - 1) + 1 = M + 2 - 1
        · rw [if_pos h3]
          refine Or.inr (Or.inr (Or.inl ?_))
          have : i - (M + 2 - 1) + 1 = M + 1 := by omega
          rw [this]
        · rw [if_neg h3]
          exact Or.inr (Or.inl ⟨_, by omega, by omega, rfl⟩)
      · rw [if_neg h2]
        refine Or.inr (Or.inr (Or.inr ⟨(i - (M + 2 - 1) * 2) / 2 + 1, by omega, by omega, ?_⟩))
        split
        · exact Or.inl rfl
        · exact Or.inr rfl
  · rintro (⟨d, hd, rfl⟩ | ⟨d, hd1, hd, rfl⟩ | rfl | ⟨d, hd1, hd, rfl | rfl⟩)
    · refine ⟨d, by omega, ?_⟩
      simp only [topoModArc]
      rw [if_pos (by omega)]
    · refine ⟨M + 1 + (d - 1), by omega, ?_⟩
      simp only [topoModArc]
      rw [if_neg (by omega), if_pos (by omega)]
      have : M + 1 + (d - 1) - (M + 2 - 1) + 1 = d := by omega
      simp only [this]
      rw [if_neg (by omega)]
    · refine ⟨M + 1 + M, by omega, ?_⟩
      simp only [topoModArc]
      rw [if_neg (by omega), if_pos (by omega)]
      have : M + 1 + M - (M + 2 - 1) + 1 = M + 1 := by omega
      simp only [this]
      rw [if_pos (by omega)]
    · refine ⟨(M + 1) * 2 + 2 * (d - 1), by omega, ?_⟩
      simp only [topoModArc]
      rw [if_neg (by omega), if_neg (by omega)]
      have h1 : ((M + 1) * 2 + 2 * (d - 1) - (M + 2 - 1) * 2) / 2 + 1 = d := by omega
      have h2 : ((M + 1) * 2 + 2 * (d - 1) - (M + 2 - 1) * 2) % 2 = 0 := by omega
      simp only [h1, h2, if_true]
    · refine ⟨(M + 1) * 2 + 2 * (d - 1) + 1, by omega, ?_⟩
      simp only [topoModArc]
      rw [if_neg (by omega), if_neg (by omega)]
      have h1 : ((M + 1) * 2 + 2 * (d - 1) + 1 - (M + 2 - 1) * 2) / 2 + 1 = d := by omega
      have h2 : ((M + 1) * 2 + 2 * (d - 1) + 1 - (M + 2 - 1) * 2) % 2 = 1 := by omega
      simp only [h1, h2]; rfl

theorem topo_mod_final (M : Nat) (l o : List Int) :
    Rel (ctcTopo (W := W) true M) (M + 1) (M + 1) l o ↔ l = [] ∧ o = [] := by
  cases l with
  | nil => simp [rel_nil]
  | cons i l =>
    rw [rel_cons']
    constructor
    · rintro ⟨x, ⟨h, hs⟩, _⟩
      rw [mem_ctcTopo_mod] at h
      rcases h with ⟨d, hd, rfl⟩ | ⟨d, hd1, hd, rfl⟩ | rfl | ⟨d, hd1, hd, rfl | rfl⟩ <;>
        simp at hs <;> omega
    · rintro ⟨h, _⟩; simp at h

/-- Inside token state `d` at least one more `d` has to be read. -/
theorem topo_mod_rel (M : Nat) (s : List Int) :
    (∀ o, Rel (ctcTopo (W := W) true M) (M + 1) 0 (s ++ [-1]) o ↔
      (∀ x ∈ s, 0 ≤ x ∧ x ≤ M) ∧ ModCtc s o) ∧
    (∀ d : Nat, 1 ≤ d → d ≤ M → ∀ o,
      (Rel (ctcTopo (W := W) true M) (M + 1) d (s ++ [-1]) o ↔
        (∀ x ∈ s, 0 ≤ x ∧ x ≤ M) ∧ ∃ s', s = (d : Int) :: s' ∧ After d s' o)) := by
  induction s with
  | nil =>
    constructor
    · intro o
      rw [List.nil_append, rel_cons', modCtc_nil_left]
      simp only [mem_ctcTopo_mod, rel_nil]
      constructor
      · rintro ⟨x, ⟨h, hs⟩, hl, o', ho, hd, rfl⟩
        rcases h with ⟨d, hd, rfl⟩ | ⟨d, hd1, hd, rfl⟩ | rfl | ⟨d, hd1, hd, rfl | rfl⟩ <;>
          simp at hl <;> first | omega | skip
        exact ⟨by simp, by simpa [strip_neg_one] using ho⟩
      · rintro ⟨_, rfl⟩
        exact ⟨_, ⟨Or.inr (Or.inr (Or.inl rfl)), rfl⟩, rfl, [], rfl, rfl, rfl⟩
    · intro d hd1 hd o
      rw [List.nil_append, rel_cons']
      simp only [mem_ctcTopo_mod, rel_nil]
      constructor
      · rintro ⟨x, ⟨h, hs⟩, hl, _⟩
        rcases h with ⟨e, he, rfl⟩ | ⟨e, he1, he, rfl⟩ | rfl | ⟨e, he1, he, rfl | rfl⟩ <;>
          simp at hl hs <;> omega
      · rintro ⟨_, _, h, _⟩; simp at h
  | cons x s ih =>
    obtain ⟨ih0, ihd⟩ := ih
    constructor
    · intro o
      rw [List.cons_append, rel_cons', modCtc_cons]
      simp only [mem_ctcTopo_mod]
      constructor
      · rintro ⟨y, ⟨h, hs⟩, hl, o', ho, hr⟩
        rcases h with ⟨e, he, rfl⟩ | ⟨e, he1, he, rfl⟩ | rfl | ⟨e, he1, he, rfl | rfl⟩
        · subst hl
          obtain ⟨hb, hr'⟩ := (ih0 o').mp hr
          refine ⟨?_, ?_⟩
          · intro z hz
            rcases List.mem_cons.mp hz with rfl | hz
            · simp only; omega
            · exact hb z hz
          · by_cases he0 : e = 0
            · subst he0
              simp only [strip_zero, Int.natCast_zero, List.nil_append] at ho
              subst ho
              exact Or.inl ⟨rfl, hr'⟩
            · rw [strip_one (by simpa using he0) (by simp only; omega)] at ho
              exact Or.inr ⟨by simpa using he0, o', ho, 0, s, rfl, hr'⟩
        · subst hl
          obtain ⟨hb, s', hs', hr⟩ := (ihd e he1 he o').mp hr
          refine ⟨?_, Or.inr ⟨?_, o', ?_, ?_⟩⟩
          · intro z hz
            rcases List.mem_cons.mp hz with rfl | hz
            · simp only; omega
            · exact hb z hz
          · simp only; omega
          · rw [strip_one (by simp only; omega) (by simp only; omega)] at ho; exact ho
          · rw [hs']
            exact (after_cons _ _ _ _).mpr (Or.inr ⟨rfl, hr⟩)
        · have := (topo_mod_final M _ _).mp hr
          simp at this
        · simp at hs; omega
        · simp at hs; omega
      · rintro ⟨hb, h⟩
        obtain ⟨hx0, hxM⟩ := hb x (by simp)
        have hb' : ∀ z ∈ s, 0 ≤ z ∧ z ≤ (M : Int) := fun z hz => hb z (List.mem_cons_of_mem _ hz)
        obtain ⟨e, rfl⟩ := Int.eq_ofNat_of_zero_le hx0
        rcases h with ⟨he, hr⟩ | ⟨he, t', rfl, ha⟩
        · have : e = 0 := by omega
          subst this
          exact ⟨_, ⟨Or.inl ⟨0, by omega, rfl⟩, rfl⟩, rfl, o, rfl, (ih0 o).mpr ⟨hb', hr⟩⟩
        · by_cases hm : ModCtc s t'
          · refine ⟨_, ⟨Or.inl ⟨e, by omega, rfl⟩, rfl⟩, rfl, t', ?_, (ih0 t').mpr ⟨hb', hm⟩⟩
            rw [strip_one (by simpa using he) (by simp only; omega)]; rfl
          · obtain ⟨j, s', rfl, h⟩ := ha
            cases j with
            | zero => exact absurd h hm
            | succ j =>
              refine ⟨_, ⟨Or.inr (Or.inl ⟨e, by omega, by omega, rfl⟩), rfl⟩, rfl, t', ?_,
                (ihd e (by omega) (by omega) t').mpr ⟨hb', _, rfl, j, s', rfl, h⟩⟩
              rw [strip_one (by simpa using he) (by simp only; omega)]; rfl
    · intro d hd1 hd o
      rw [List.cons_append, rel_cons']
      simp only [mem_ctcTopo_mod]
      constructor
      · rintro ⟨y, ⟨h, hs⟩, hl, o', ho, hr⟩
        rcases h with ⟨e, he, rfl⟩ | ⟨e, he1, he, rfl⟩ | rfl | ⟨e, he1, he, rfl | rfl⟩
        · simp at hs; omega
        · simp at hs; omega
        · simp at hs; omega
        · simp only at hs hl hr ho
          subst hs hl
          simp only [strip_zero, List.nil_append] at ho
          subst ho
          obtain ⟨hb, s', hs', hr⟩ := (ihd e he1 he o).mp hr
          refine ⟨?_, s, rfl, ?_⟩
          · intro z hz
            rcases List.mem_cons.mp hz with rfl | hz
            · omega
            · exact hb z hz
          · rw [hs']; exact (after_cons _ _ _ _).mpr (Or.inr ⟨rfl, hr⟩)
        · simp only at hs hl hr ho
          subst hs hl
          simp only [strip_zero, List.nil_append] at ho
          subst ho
          obtain ⟨hb, hr⟩ := (ih0 o).mp hr
          refine ⟨?_, s, rfl, 0, s, rfl, hr⟩
          intro z hz
          rcases List.mem_cons.mp hz with rfl | hz
          · omega
          · exact hb z hz
      · rintro ⟨hb, s', hs', j, s'', rfl, h⟩
        simp only [List.cons.injEq] at hs'
        obtain ⟨rfl, hs'⟩ := hs'
        subst hs'
        have hb' : ∀ z ∈ List.replicate j (d : Int) ++ s'', 0 ≤ z ∧ z ≤ (M : Int) :=
          fun z hz => hb z (List.mem_cons_of_mem _ hz)
        cases j with
        | zero =>
          exact ⟨_, ⟨Or.inr (Or.inr (Or.inr ⟨d, hd1, hd, Or.inr rfl⟩)), rfl⟩, rfl, o, rfl,
            (ih0 o).mpr ⟨hb', h⟩⟩
        | succ j =>
          exact ⟨_, ⟨Or.inr (Or.inr (Or.inr ⟨d, hd1, hd, Or.inl rfl⟩)), rfl⟩, rfl, o, rfl,
            (ihd d hd1 hd o).mpr ⟨hb', _, rfl, j, s'', rfl, h⟩⟩

end Verif.Fsa
