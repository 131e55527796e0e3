import Verif.Fsa.Intersect.Bfs
import Verif.Fsa.Flags.Props

/-!
# What is added for one pair of states
-/

namespace Verif.Fsa.Isect
variable {W : Type}

/-- `l` are the arcs leaving `s`, with positions counted from `o`, sorted by label. -/
structure LRow (f : Fsa W) (o s : Nat) (l : List (Nat × Arc W)) : Prop where
  mem : ∀ x, x ∈ l ↔ ∃ j, x.1 = o + j ∧ f.arcs[j]? = some x.2 ∧ x.2.src = s
  nodup : (l.map Prod.fst).Nodup
  sorted : l.Pairwise (fun x y => u32 x.2.label ≤ u32 y.2.label)

/-- `a` shows the FSA `f`, whose arcs begin at `o`. -/
structure View (f : Fsa W) (a : HostFsa W) (o : Nat) : Prop where
  size : a.size1 = f.numStates
  first : a.indexes[0]? = some o
  rows : ∀ s < f.numStates, ∃ l, leaving a s = some l ∧ LRow f o s l

/-- One arc of the product, by position. -/
def Both [Add W] (f g : Fsa W) (p : Nat × Nat) (e : Emit W) : Prop :=
  ∃ (i j : Nat) (x y : Arc W), f.arcs[i]? = some x ∧ g.arcs[j]? = some y ∧ x.src = p.1 ∧
    y.src = p.2 ∧ x.label = y.label ∧
    e = ⟨(x.dst, y.dst), x.label, x.score + y.score, (i : Int), (j : Int)⟩

/-- An epsilon arc of the first FSA. -/
def Left (f : Fsa W) (p : Nat × Nat) (e : Emit W) : Prop :=
  ∃ (i : Nat) (x : Arc W), f.arcs[i]? = some x ∧ x.src = p.1 ∧ x.label = 0 ∧
    e = ⟨(x.dst, p.2), 0, x.score, (i : Int), -1⟩

/-- An epsilon arc of the second FSA. -/
def Right (g : Fsa W) (p : Nat × Nat) (e : Emit W) : Prop :=
  ∃ (j : Nat) (y : Arc W), g.arcs[j]? = some y ∧ y.src = p.2 ∧ y.label = 0 ∧
    e = ⟨(p.1, y.dst), 0, y.score, -1, (j : Int)⟩

/-- What is added for the pair `p`. -/
def Step [Add W] (eps : Bool) (f g : Fsa W) (p : Nat × Nat) (e : Emit W) : Prop :=
  if eps then Left f p e ∨ Right g p e ∨ (Both f g p e ∧ e.label ≠ 0) else Both f g p e

theorem takeWhile_sorted {X : Type} (q : X → Bool) :
    ∀ (l : List X), l.Pairwise (fun x y => q y = true → q x = true) →
      l.takeWhile q = l.filter q := by
  intro l h
  induction l with
  | nil => rfl
  | cons x l ih =>
    rw [List.pairwise_cons] at h
    by_cases hx : q x = true
    · rw [List.takeWhile_cons_of_pos hx, List.filter_cons_of_pos hx, ih h.2]
    · rw [List.takeWhile_cons_of_neg hx, List.filter_cons_of_neg hx]
      symm
      rw [List.filter_eq_nil_iff]
      intro y hy hq
      exact hx (h.1 y hy hq)

theorem dropWhile_sorted {X : Type} (q : X → Bool) :
    ∀ (l : List X), l.Pairwise (fun x y => q y = true → q x = true) →
      l.dropWhile q = l.filter (fun x => !q x) := by
  intro l h
  induction l with
  | nil => rfl
  | cons x l ih =>
    rw [List.pairwise_cons] at h
    by_cases hx : q x = true
    · rw [List.dropWhile_cons_of_pos hx, List.filter_cons_of_neg (by simp [hx]), ih h.2]
    · rw [List.dropWhile_cons_of_neg hx]
      symm
      rw [List.filter_eq_self]
      intro y hy
      rcases List.mem_cons.mp hy with rfl | hy
      · simpa using hx
      · have : ¬ q y = true := fun hq => hx (h.1 y hy hq)
        simpa using this

theorem zero_first {f : Fsa W} (hf : ∀ a ∈ f.arcs, Int32 a.label) {o s : Nat}
    {l : List (Nat × Arc W)} (h : LRow f o s l) :
    l.Pairwise (fun x y => (y.2.label == 0) = true → (x.2.label == 0) = true) := by
  apply List.Pairwise.imp_of_mem _ h.sorted
  intro x y hx hy hle hz
  rw [beq_iff_eq] at hz ⊢
  obtain ⟨j, _, hj, _⟩ := (h.mem x).mp hx
  have := hf _ (List.mem_of_getElem? hj)
  rw [hz] at hle
  unfold u32 Int32 at *
  omega

theorem equalRange_eq (x : Arc W) (hx : Int32 x.label) (l : List (Nat × Arc W))
    (hs : l.Pairwise (fun x y => u32 x.2.label ≤ u32 y.2.label))
    (hl : ∀ y ∈ l, Int32 y.2.label) :
    equalRange x l = l.filter (fun y => decide (y.2.label = x.label)) := by
  unfold equalRange
  rw [dropWhile_sorted, takeWhile_sorted, List.filter_filter]
  · apply List.filter_congr
    intro y hy
    have h1 := hl y hy
    rw [Bool.eq_iff_iff]
    simp only [Bool.and_eq_true, Bool.not_eq_true', decide_eq_false_iff_not, decide_eq_true_eq]
    constructor
    · rintro ⟨h2, h3⟩
      exact u32_inj _ _ h1 hx (by omega)
    · intro h
      rw [h]
      omega
  · apply (hs.filter _).imp
    intro a b hab hb
    simp only [Bool.not_eq_true', decide_eq_false_iff_not] at hb ⊢
    omega
  · apply hs.imp
    intro a b hab hb
    simp only [decide_eq_true_eq] at hb ⊢
    omega

/-- Which arcs are paired. -/
theorem pairs_mem [Add W] (oa ob : Nat) (la lb : List (Nat × Arc W))
    (ha : la.Pairwise (fun x y => u32 x.2.label ≤ u32 y.2.label))
    (hb : lb.Pairwise (fun x y => u32 x.2.label ≤ u32 y.2.label))
    (ia : ∀ x ∈ la, Int32 x.2.label) (ib : ∀ x ∈ lb, Int32 x.2.label) (e : Emit W) :
    e ∈ pairs oa ob la lb ↔
      ∃ x ∈ la, ∃ y ∈ lb, x.2.label = y.2.label ∧ e = joint oa ob x y := by
  unfold pairs
  split
  · rw [List.mem_flatMap]
    constructor
    · rintro ⟨y, hy, he⟩
      rw [equalRange_eq _ (ib y hy) la ha ia, List.mem_map] at he
      obtain ⟨x, hx, rfl⟩ := he
      rw [List.mem_filter, decide_eq_true_eq] at hx
      exact ⟨x, hx.1, y, hy, hx.2, rfl⟩
    · rintro ⟨x, hx, y, hy, hl, rfl⟩
      refine ⟨y, hy, ?_⟩
      rw [equalRange_eq _ (ib y hy) la ha ia, List.mem_map]
      exact ⟨x, List.mem_filter.mpr ⟨hx, by simpa using hl⟩, rfl⟩
  · rw [List.mem_flatMap]
    constructor
    · rintro ⟨x, hx, he⟩
      rw [equalRange_eq _ (ia x hx) lb hb ib, List.mem_map] at he
      obtain ⟨y, hy, rfl⟩ := he
      rw [List.mem_filter, decide_eq_true_eq] at hy
      exact ⟨x, hx, y, hy.1, hy.2.symm, rfl⟩
    · rintro ⟨x, hx, y, hy, hl, rfl⟩
      refine ⟨x, hx, ?_⟩
      rw [equalRange_eq _ (ia x hx) lb hb ib, List.mem_map]
      exact ⟨y, List.mem_filter.mpr ⟨hy, by simpa using hl.symm⟩, rfl⟩

/-- The entries of the arc maps. -/
def marks (e : Emit W) : Int × Int := (e.ma, e.mb)

theorem equalRange_sublist (x : Arc W) (l : List (Nat × Arc W)) :
    (equalRange x l).Sublist l :=
  (List.takeWhile_sublist _).trans (List.dropWhile_sublist _)

theorem pairs_nodup [Add W] (oa ob : Nat) (la lb : List (Nat × Arc W))
    (ha : (la.map Prod.fst).Nodup) (hb : (lb.map Prod.fst).Nodup) :
    ((pairs oa ob la lb).map marks).Nodup := by
  unfold pairs
  split
  · rw [List.map_flatMap, List.nodup_flatMap]
    constructor
    · intro y _
      rw [List.map_map]
      have hsub := (equalRange_sublist y.2 la).map Prod.fst
      have hnd := hsub.nodup ha
      rw [List.Nodup, List.pairwise_map] at hnd ⊢
      apply hnd.imp
      intro p q hpq h
      simp only [Function.comp, marks, joint, Prod.mk.injEq] at h
      omega
    · rw [List.Nodup, List.pairwise_map] at hb
      apply hb.imp
      intro p q hpq
      simp only [Function.onFun, List.disjoint_left, List.map_map, List.mem_map, not_exists, not_and]
      rintro m ⟨x, _, rfl⟩ z _ h
      simp only [Function.comp, marks, joint, Prod.mk.injEq] at h
      omega
  · rw [List.map_flatMap, List.nodup_flatMap]
    constructor
    · intro x _
      rw [List.map_map]
      have hsub := (equalRange_sublist x.2 lb).map Prod.fst
      have hnd := hsub.nodup hb
      rw [List.Nodup, List.pairwise_map] at hnd ⊢
      apply hnd.imp
      intro p q hpq h
      simp only [Function.comp, marks, joint, Prod.mk.injEq] at h
      omega
    · rw [List.Nodup, List.pairwise_map] at ha
      apply ha.imp
      intro p q hpq
      simp only [Function.onFun, List.disjoint_left, List.map_map, List.mem_map, not_exists, not_and]
      rintro m ⟨x, _, rfl⟩ z _ h
      simp only [Function.comp, marks, joint, Prod.mk.injEq] at h
      omega

theorem map_filter_nodup {l : List (Nat × Arc W)} (h : (l.map Prod.fst).Nodup)
    (q : Nat × Arc W → Bool) : ((l.filter q).map Prod.fst).Nodup :=
  (List.filter_sublist.map Prod.fst).nodup h

/-- What the loops add for a pair of states. -/
theorem emits_mem [Add W] (eps : Bool) (f g : Fsa W) (hf : ∀ a ∈ f.arcs, Int32 a.label)
    (hg : ∀ a ∈ g.arcs, Int32 a.label) (oa ob sa sb : Nat) (la lb : List (Nat × Arc W))
    (ha : LRow f oa sa la) (hb : LRow g ob sb lb) (e : Emit W) :
    e ∈ emits eps oa ob sa sb la lb ↔ Step eps f g (sa, sb) e := by
  have ia : ∀ x ∈ la, Int32 x.2.label := by
    intro x hx
    obtain ⟨j, _, hj, _⟩ := (ha.mem x).mp hx
    exact hf _ (List.mem_of_getElem? hj)
  have ib : ∀ x ∈ lb, Int32 x.2.label := by
    intro x hx
    obtain ⟨j, _, hj, _⟩ := (hb.mem x).mp hx
    exact hg _ (List.mem_of_getElem? hj)
  have za := zero_first hf ha
  have zb := zero_first hg hb
  cases eps with
  | false =>
    show e ∈ pairs oa ob la lb ↔ Both f g (sa, sb) e
    rw [pairs_mem oa ob la lb ha.sorted hb.sorted ia ib]
    constructor
    · rintro ⟨x, hx, y, hy, hl, rfl⟩
      obtain ⟨i, hi1, hi2, hi3⟩ := (ha.mem x).mp hx
      obtain ⟨j, hj1, hj2, hj3⟩ := (hb.mem y).mp hy
      refine ⟨i, j, x.2, y.2, hi2, hj2, hi3, hj3, hl, ?_⟩
      unfold joint
      congr 1 <;> omega
    · rintro ⟨i, j, x, y, hi, hj, hx, hy, hl, rfl⟩
      refine ⟨(oa + i, x), (ha.mem _).mpr ⟨i, rfl, hi, hx⟩, (ob + j, y),
        (hb.mem _).mpr ⟨j, rfl, hj, hy⟩, hl, ?_⟩
      unfold joint
      congr 1 <;> push_cast <;> omega
  | true =>
    show e ∈ epsA oa sb la ++ epsB ob sa lb ++ pairs oa ob (afterEps la) (afterEps lb) ↔
      Left f (sa, sb) e ∨ Right g (sa, sb) e ∨ (Both f g (sa, sb) e ∧ e.label ≠ 0)
    unfold epsA epsB afterEps
    rw [takeWhile_sorted _ la za, takeWhile_sorted _ lb zb, dropWhile_sorted _ la za,
      dropWhile_sorted _ lb zb, List.mem_append, List.mem_append, or_assoc]
    refine or_congr ?_ (or_congr ?_ ?_)
    · rw [List.mem_map]
      constructor
      · rintro ⟨x, hx, rfl⟩
        rw [List.mem_filter, beq_iff_eq] at hx
        obtain ⟨i, hi1, hi2, hi3⟩ := (ha.mem x).mp hx.1
        refine ⟨i, x.2, hi2, hi3, hx.2, ?_⟩
        congr 1
        omega
      · rintro ⟨i, x, hi, hx, hl, rfl⟩
        refine ⟨(oa + i, x), List.mem_filter.mpr ⟨(ha.mem _).mpr ⟨i, rfl, hi, hx⟩, by simpa using hl⟩, ?_⟩
        congr 1
        push_cast
        omega
    · rw [List.mem_map]
      constructor
      · rintro ⟨x, hx, rfl⟩
        rw [List.mem_filter, beq_iff_eq] at hx
        obtain ⟨i, hi1, hi2, hi3⟩ := (hb.mem x).mp hx.1
        refine ⟨i, x.2, hi2, hi3, hx.2, ?_⟩
        congr 1
        omega
      · rintro ⟨i, x, hi, hx, hl, rfl⟩
        refine ⟨(ob + i, x), List.mem_filter.mpr ⟨(hb.mem _).mpr ⟨i, rfl, hi, hx⟩, by simpa using hl⟩, ?_⟩
        congr 1
        push_cast
        omega
    · rw [pairs_mem oa ob _ _ (ha.sorted.filter _) (hb.sorted.filter _)
        (fun x hx => ia x (List.mem_filter.mp hx).1) (fun x hx => ib x (List.mem_filter.mp hx).1)]
      constructor
      · rintro ⟨x, hx, y, hy, hl, rfl⟩
        rw [List.mem_filter] at hx hy
        obtain ⟨i, hi1, hi2, hi3⟩ := (ha.mem x).mp hx.1
        obtain ⟨j, hj1, hj2, hj3⟩ := (hb.mem y).mp hy.1
        refine ⟨⟨i, j, x.2, y.2, hi2, hj2, hi3, hj3, hl, ?_⟩, ?_⟩
        · unfold joint
          congr 1 <;> omega
        · simpa [joint] using hx.2
      · rintro ⟨⟨i, j, x, y, hi, hj, hx, hy, hl, rfl⟩, hne⟩
        have hne' : x.label ≠ 0 := hne
        refine ⟨(oa + i, x), List.mem_filter.mpr ⟨(ha.mem _).mpr ⟨i, rfl, hi, hx⟩, by simpa using hne'⟩,
          (ob + j, y), List.mem_filter.mpr ⟨(hb.mem _).mpr ⟨j, rfl, hj, hy⟩, by simpa [← hl] using hne'⟩,
          hl, ?_⟩
        unfold joint
        congr 1 <;> push_cast <;> omega

theorem emits_nodup [Add W] (eps : Bool) (f g : Fsa W) (hf : ∀ a ∈ f.arcs, Int32 a.label)
    (hg : ∀ a ∈ g.arcs, Int32 a.label) (oa ob sa sb : Nat) (la lb : List (Nat × Arc W))
    (ha : LRow f oa sa la) (hb : LRow g ob sb lb) :
    ((emits eps oa ob sa sb la lb).map marks).Nodup := by
  have za := zero_first hf ha
  have zb := zero_first hg hb
  have pa : ∀ x ∈ la, oa ≤ x.1 := by
    intro x hx
    obtain ⟨j, hj, _⟩ := (ha.mem x).mp hx
    omega
  have pb : ∀ x ∈ lb, ob ≤ x.1 := by
    intro x hx
    obtain ⟨j, hj, _⟩ := (hb.mem x).mp hx
    omega
  cases eps with
  | false => exact pairs_nodup oa ob la lb ha.nodup hb.nodup
  | true =>
    show ((epsA oa sb la ++ epsB ob sa lb ++ pairs oa ob (afterEps la) (afterEps lb)).map marks).Nodup
    have hsa : ∀ x ∈ afterEps la, oa ≤ x.1 := fun x hx => pa x ((List.dropWhile_sublist _).mem hx)
    have hsb : ∀ x ∈ afterEps lb, ob ≤ x.1 := fun x hx => pb x ((List.dropWhile_sublist _).mem hx)
    rw [List.map_append, List.map_append, List.nodup_append, List.nodup_append]
    refine ⟨⟨?_, ?_, ?_⟩, ?_, ?_⟩
    · unfold epsA
      have := ((List.takeWhile_sublist (fun x : Nat × Arc W => x.2.label == 0)).map Prod.fst).nodup ha.nodup
      rw [List.map_map, List.Nodup, List.pairwise_map]
      rw [List.Nodup, List.pairwise_map] at this
      apply this.imp
      intro p q hpq h
      simp only [Function.comp, marks, Prod.mk.injEq] at h
      omega
    · unfold epsB
      have := ((List.takeWhile_sublist (fun x : Nat × Arc W => x.2.label == 0)).map Prod.fst).nodup hb.nodup
      rw [List.map_map, List.Nodup, List.pairwise_map]
      rw [List.Nodup, List.pairwise_map] at this
      apply this.imp
      intro p q hpq h
      simp only [Function.comp, marks, Prod.mk.injEq] at h
      omega
    · intro m hm n hn heq
      unfold epsA at hm
      unfold epsB at hn
      simp only [List.map_map, List.mem_map] at hm hn
      obtain ⟨x, hx, rfl⟩ := hm
      obtain ⟨y, hy, rfl⟩ := hn
      simp only [Function.comp, marks, Prod.mk.injEq] at heq
      have := pa x ((List.takeWhile_sublist _).mem hx)
      omega
    · exact pairs_nodup oa ob _ _ (((List.dropWhile_sublist _).map _).nodup ha.nodup)
        (((List.dropWhile_sublist _).map _).nodup hb.nodup)
    · intro m hm n hn heq
      have hn' : 0 ≤ n.1 ∧ 0 ≤ n.2 := by
        rw [List.mem_map] at hn
        obtain ⟨e, he, rfl⟩ := hn
        unfold pairs at he
        split at he
        · obtain ⟨y, hy, he⟩ := List.mem_flatMap.mp he
          obtain ⟨x, hx, rfl⟩ := List.mem_map.mp he
          have h1 := hsa x ((equalRange_sublist _ _).mem hx)
          have h2 := hsb y hy
          simp only [marks, joint]
          omega
        · obtain ⟨x, hx, he⟩ := List.mem_flatMap.mp he
          obtain ⟨y, hy, rfl⟩ := List.mem_map.mp he
          have h1 := hsa x hx
          have h2 := hsb y ((equalRange_sublist _ _).mem hy)
          simp only [marks, joint]
          omega
      subst heq
      unfold epsA epsB at hm
      rw [List.mem_append] at hm
      simp only [List.map_map, List.mem_map] at hm
      rcases hm with ⟨x, _, rfl⟩ | ⟨x, _, rfl⟩
      · simp only [Function.comp, marks] at hn'
        omega
      · simp only [Function.comp, marks] at hn'
        omega

end Verif.Fsa.Isect
