import Verif.Fsa.Intersect.Graph
import Verif.Fsa.Intersect.Spec
import Mathlib.Algebra.BigOperators.Group.List.Basic
import Mathlib.Tactic.Abel

/-!
# The intersection of two FSAs
-/

namespace Verif.Fsa.Isect
open Verif.Ragged Verif.Util Verif.Fsa.Top
variable {W : Type}

/-! ## Walks and pairs of paths -/

/-- The arcs of the first FSA. -/
def usedA (es : List (Emit W)) : List Nat :=
  es.filterMap (fun e => if e.ma = -1 then none else some e.ma.toNat)

/-- The arcs of the second FSA. -/
def usedB (es : List (Emit W)) : List Nat :=
  es.filterMap (fun e => if e.mb = -1 then none else some e.mb.toNat)

theorem agree_cons (eps : Bool) (x : Int) (l l' : List Int) :
    Agree eps (x :: l) (x :: l') ↔ Agree eps l l' := by
  unfold Agree noEps
  cases eps
  · simp
  · by_cases h : x = 0 <;> simp [h]

theorem agree_zero_left (l l' : List Int) : Agree true (0 :: l) l' ↔ Agree true l l' := by
  simp [Agree, noEps]

theorem agree_zero_right (l l' : List Int) : Agree true l (0 :: l') ↔ Agree true l l' := by
  simp [Agree, noEps]

theorem arcsAt_cons (f : Fsa W) (i : Nat) (is : List Nat) (x : Arc W) (h : f.arcs[i]? = some x) :
    arcsAt f (i :: is) = x :: arcsAt f is := by
  unfold arcsAt
  rw [List.filterMap_cons, h]

/-- The states of a pair. -/
def InRange (f g : Fsa W) (p : Nat × Nat) : Prop := p.1 < f.numStates ∧ p.2 < g.numStates

theorem step_cases [Add W] {eps : Bool} {f g : Fsa W} {p : Nat × Nat} {e : Emit W}
    (h : Step eps f g p e) :
    (eps = true ∧ Left f p e) ∨ (eps = true ∧ Right g p e) ∨
      (Both f g p e ∧ (eps = true → e.label ≠ 0)) := by
  cases eps with
  | false => exact Or.inr (Or.inr ⟨h, by simp⟩)
  | true =>
    rcases (show Left f p e ∨ Right g p e ∨ (Both f g p e ∧ e.label ≠ 0) from h) with h | h | h
    · exact Or.inl ⟨rfl, h⟩
    · exact Or.inr (Or.inl ⟨rfl, h⟩)
    · exact Or.inr (Or.inr ⟨h.1, fun _ => h.2⟩)

theorem step_inRange [Add W] {eps : Bool} {f g : Fsa W}
    (df : ∀ a ∈ f.arcs, a.dst < f.numStates) (dg : ∀ a ∈ g.arcs, a.dst < g.numStates)
    {p : Nat × Nat} (hp : InRange f g p) {e : Emit W} (h : Step eps f g p e) :
    InRange f g e.next := by
  rcases step_cases h with ⟨_, i, x, hi, _, _, rfl⟩ | ⟨_, j, y, hj, _, _, rfl⟩ |
    ⟨⟨i, j, x, y, hi, hj, _, _, _, rfl⟩, _⟩
  · exact ⟨df x (List.mem_of_getElem? hi), hp.2⟩
  · exact ⟨hp.1, dg y (List.mem_of_getElem? hj)⟩
  · exact ⟨df x (List.mem_of_getElem? hi), dg y (List.mem_of_getElem? hj)⟩

/-- The labels of a walk. -/
def elabels (es : List (Emit W)) : List Int := es.map Emit.label

theorem walk_sound [AddCommMonoid W] {eps : Bool} {f g : Fsa W}
    {E : Nat × Nat → List (Emit W)}
    (df : ∀ a ∈ f.arcs, a.dst < f.numStates) (dg : ∀ a ∈ g.arcs, a.dst < g.numStates)
    (hE : ∀ p, InRange f g p → ∀ e, e ∈ E p ↔ Step eps f g p e) (es : List (Emit W)) :
    ∀ p q, InRange f g p → Walk E p es q →
      IPath f.arcs p.1 (usedA es) q.1 ∧ IPath g.arcs p.2 (usedB es) q.2 ∧
      Agree eps (elabels es) (labels (arcsAt f (usedA es))) ∧
      Agree eps (elabels es) (labels (arcsAt g (usedB es))) ∧
      (es.map Emit.score).sum = score (arcsAt f (usedA es)) + score (arcsAt g (usedB es)) := by
  induction es with
  | nil =>
    intro p q _ hw
    have hw : p = q := hw
    subst hw
    refine ⟨(ipath_nil _ _ _).mpr rfl, (ipath_nil _ _ _).mpr rfl, ?_, ?_, ?_⟩
    · cases eps <;> rfl
    · cases eps <;> rfl
    · simp [usedA, usedB, arcsAt, score]
  | cons e es ih =>
    rintro p q hp ⟨he, hw⟩
    have hst := (hE p hp e).mp he
    have hp' := step_inRange df dg hp hst
    obtain ⟨h1, h2, h3, h4, h5⟩ := ih _ _ hp' hw
    rcases step_cases hst with ⟨rfl, i, x, hi, hx, hl, rfl⟩ | ⟨rfl, j, y, hj, hy, hl, rfl⟩ |
      ⟨⟨i, j, x, y, hi, hj, hx, hy, hl, rfl⟩, _⟩
    · have ua : usedA (⟨(x.dst, p.2), 0, x.score, (i : Int), -1⟩ :: es) = i :: usedA es := by
        unfold usedA
        rw [List.filterMap_cons, if_neg (by simp)]
        simp
      have ub : usedB (⟨(x.dst, p.2), 0, x.score, (i : Int), -1⟩ :: es) = usedB es := by
        unfold usedB
        rw [List.filterMap_cons, if_pos rfl]
      rw [ua, ub, arcsAt_cons f i _ x hi]
      refine ⟨(ipath_cons _ _ _ _ _).mpr ⟨x, hi, hx, h1⟩, h2, ?_, ?_, ?_⟩
      · show Agree true (0 :: elabels es) (x.label :: labels (arcsAt f (usedA es)))
        rw [hl, agree_cons]
        exact h3
      · show Agree true (0 :: elabels es) _
        rw [agree_zero_left]
        exact h4
      · show x.score + (es.map Emit.score).sum = (x.score + score (arcsAt f (usedA es))) + _
        rw [h5, add_assoc]
    · have ua : usedA (⟨(p.1, y.dst), 0, y.score, -1, (j : Int)⟩ :: es) = usedA es := by
        unfold usedA
        rw [List.filterMap_cons, if_pos rfl]
      have ub : usedB (⟨(p.1, y.dst), 0, y.score, -1, (j : Int)⟩ :: es) = j :: usedB es := by
        unfold usedB
        rw [List.filterMap_cons, if_neg (by simp)]
        simp
      rw [ua, ub, arcsAt_cons g j _ y hj]
      refine ⟨h1, (ipath_cons _ _ _ _ _).mpr ⟨y, hj, hy, h2⟩, ?_, ?_, ?_⟩
      · show Agree true (0 :: elabels es) _
        rw [agree_zero_left]
        exact h3
      · show Agree true (0 :: elabels es) (y.label :: labels (arcsAt g (usedB es)))
        rw [hl, agree_cons]
        exact h4
      · show y.score + (es.map Emit.score).sum = _ + (y.score + score (arcsAt g (usedB es)))
        rw [h5, add_left_comm]
    · have ua : usedA (⟨(x.dst, y.dst), x.label, x.score + y.score, (i : Int), (j : Int)⟩ :: es) =
          i :: usedA es := by
        unfold usedA
        rw [List.filterMap_cons, if_neg (by simp)]
        simp
      have ub : usedB (⟨(x.dst, y.dst), x.label, x.score + y.score, (i : Int), (j : Int)⟩ :: es) =
          j :: usedB es := by
        unfold usedB
        rw [List.filterMap_cons, if_neg (by simp)]
        simp
      rw [ua, ub, arcsAt_cons f i _ x hi, arcsAt_cons g j _ y hj]
      refine ⟨(ipath_cons _ _ _ _ _).mpr ⟨x, hi, hx, h1⟩,
        (ipath_cons _ _ _ _ _).mpr ⟨y, hj, hy, h2⟩, ?_, ?_, ?_⟩
      · show Agree eps (x.label :: elabels es) (x.label :: labels (arcsAt f (usedA es)))
        rw [agree_cons]
        exact h3
      · show Agree eps (x.label :: elabels es) (y.label :: labels (arcsAt g (usedB es)))
        rw [← hl, agree_cons]
        exact h4
      · show (x.score + y.score) + (es.map Emit.score).sum =
          (x.score + score (arcsAt f (usedA es))) + (y.score + score (arcsAt g (usedB es)))
        rw [h5, add_add_add_comm]

theorem walk_complete [Add W] {eps : Bool} {f g : Fsa W} {E : Nat × Nat → List (Emit W)}
    (df : ∀ a ∈ f.arcs, a.dst < f.numStates) (dg : ∀ a ∈ g.arcs, a.dst < g.numStates)
    (hE : ∀ p, InRange f g p → ∀ e, e ∈ E p ↔ Step eps f g p e) (n : Nat) :
    ∀ (is js : List Nat) (p q : Nat × Nat), is.length + js.length = n → InRange f g p →
      IPath f.arcs p.1 is q.1 → IPath g.arcs p.2 js q.2 →
      Agree eps (labels (arcsAt f is)) (labels (arcsAt g js)) →
      ∃ es, Walk E p es q ∧ usedA es = is ∧ usedB es = js := by
  induction n using Nat.strong_induction_on with
  | _ n ih =>
    intro is js p q hn hp h1 h2 hag
    -- one step in both
    have both : ∀ (i : Nat) (is' : List Nat) (j : Nat) (js' : List Nat) (x y : Arc W),
        is = i :: is' → js = j :: js' → f.arcs[i]? = some x → g.arcs[j]? = some y →
        x.label = y.label → (eps = true → x.label ≠ 0) →
        ∃ es, Walk E p es q ∧ usedA es = is ∧ usedB es = js := by
      intro i is' j js' x y hi hj hx hy hl hz
      subst hi hj
      obtain ⟨x', hx', hsx, h1'⟩ := (ipath_cons _ _ _ _ _).mp h1
      obtain ⟨y', hy', hsy, h2'⟩ := (ipath_cons _ _ _ _ _).mp h2
      rw [hx] at hx'
      rw [hy] at hy'
      obtain rfl := Option.some.inj hx'
      obtain rfl := Option.some.inj hy'
      have hB : Both f g p ⟨(x.dst, y.dst), x.label, x.score + y.score, (i : Int), (j : Int)⟩ :=
        ⟨i, j, x, y, hx, hy, hsx, hsy, hl, rfl⟩
      have hS : Step eps f g p ⟨(x.dst, y.dst), x.label, x.score + y.score, (i : Int), (j : Int)⟩ := by
        cases eps with
        | false => exact hB
        | true => exact Or.inr (Or.inr ⟨hB, hz rfl⟩)
      rw [arcsAt_cons f i _ x hx, arcsAt_cons g j _ y hy] at hag
      have hag' : Agree eps (x.label :: labels (arcsAt f is')) (y.label :: labels (arcsAt g js')) := hag
      rw [hl, agree_cons] at hag'
      obtain ⟨es, hw, ha, hb⟩ := ih (is'.length + js'.length)
        (by simp only [List.length_cons] at hn; omega) is' js' (x.dst, y.dst) q rfl
        (step_inRange df dg hp hS) h1' h2' hag'
      refine ⟨_ :: es, ⟨(hE p hp _).mpr hS, hw⟩, ?_, ?_⟩
      · unfold usedA at ha ⊢
        rw [List.filterMap_cons, if_neg (by simp), ha]
        simp
      · unfold usedB at hb ⊢
        rw [List.filterMap_cons, if_neg (by simp), hb]
        simp
    -- one epsilon step
    have left : ∀ (i : Nat) (is' : List Nat) (x : Arc W), eps = true → is = i :: is' →
        f.arcs[i]? = some x → x.label = 0 → ∃ es, Walk E p es q ∧ usedA es = is ∧ usedB es = js := by
      intro i is' x he hi hx hl
      subst he hi
      obtain ⟨x', hx', hsx, h1'⟩ := (ipath_cons _ _ _ _ _).mp h1
      rw [hx] at hx'
      obtain rfl := Option.some.inj hx'
      have hS : Step true f g p ⟨(x.dst, p.2), 0, x.score, (i : Int), -1⟩ :=
        Or.inl ⟨i, x, hx, hsx, hl, rfl⟩
      rw [arcsAt_cons f i _ x hx] at hag
      have hag' : Agree true (x.label :: labels (arcsAt f is')) (labels (arcsAt g js)) := hag
      rw [hl, agree_zero_left] at hag'
      obtain ⟨es, hw, ha, hb⟩ := ih (is'.length + js.length)
        (by simp only [List.length_cons] at hn; omega) is' js (x.dst, p.2) q rfl
        (step_inRange df dg hp hS) h1' h2 hag'
      refine ⟨_ :: es, ⟨(hE p hp _).mpr hS, hw⟩, ?_, ?_⟩
      · unfold usedA at ha ⊢
        rw [List.filterMap_cons, if_neg (by simp), ha]
        simp
      · unfold usedB at hb ⊢
        rw [List.filterMap_cons, if_pos rfl, hb]
    have right : ∀ (j : Nat) (js' : List Nat) (y : Arc W), eps = true → js = j :: js' →
        g.arcs[j]? = some y → y.label = 0 → ∃ es, Walk E p es q ∧ usedA es = is ∧ usedB es = js := by
      intro j js' y he hj hy hl
      subst he hj
      obtain ⟨y', hy', hsy, h2'⟩ := (ipath_cons _ _ _ _ _).mp h2
      rw [hy] at hy'
      obtain rfl := Option.some.inj hy'
      have hS : Step true f g p ⟨(p.1, y.dst), 0, y.score, -1, (j : Int)⟩ :=
        Or.inr (Or.inl ⟨j, y, hy, hsy, hl, rfl⟩)
      rw [arcsAt_cons g j _ y hy] at hag
      have hag' : Agree true (labels (arcsAt f is)) (y.label :: labels (arcsAt g js')) := hag
      rw [hl, agree_zero_right] at hag'
      obtain ⟨es, hw, ha, hb⟩ := ih (is.length + js'.length)
        (by simp only [List.length_cons] at hn; omega) is js' (p.1, y.dst) q rfl
        (step_inRange df dg hp hS) h1 h2' hag'
      refine ⟨_ :: es, ⟨(hE p hp _).mpr hS, hw⟩, ?_, ?_⟩
      · unfold usedA at ha ⊢
        rw [List.filterMap_cons, if_pos rfl, ha]
      · unfold usedB at hb ⊢
        rw [List.filterMap_cons, if_neg (by simp), hb]
        simp
    cases is with
    | nil =>
      cases js with
      | nil =>
        rw [ipath_nil] at h1 h2
        exact ⟨[], Prod.ext h1 h2, rfl, rfl⟩
      | cons j js' =>
        obtain ⟨y, hy, _, _⟩ := (ipath_cons _ _ _ _ _).mp h2
        rw [arcsAt_cons g j _ y hy] at hag
        cases eps with
        | false => simp [Agree, arcsAt, labels] at hag
        | true =>
          refine right j js' y rfl rfl hy ?_
          by_contra hne
          simp [Agree, noEps, arcsAt, labels, hne] at hag
    | cons i is' =>
      obtain ⟨x, hx, _, _⟩ := (ipath_cons _ _ _ _ _).mp h1
      by_cases hxe : eps = true ∧ x.label = 0
      · exact left i is' x hxe.1 rfl hx hxe.2
      · cases js with
        | nil =>
          exfalso
          rw [arcsAt_cons f i _ x hx] at hag
          cases eps with
          | false => simp [Agree, arcsAt, labels] at hag
          | true =>
            have hne : x.label ≠ 0 := fun h => hxe ⟨rfl, h⟩
            simp [Agree, noEps, arcsAt, labels, hne] at hag
        | cons j js' =>
          obtain ⟨y, hy, _, _⟩ := (ipath_cons _ _ _ _ _).mp h2
          by_cases hye : eps = true ∧ y.label = 0
          · exact right j js' y hye.1 rfl hy hye.2
          · refine both i is' j js' x y rfl rfl hx hy ?_ (fun h hz => hxe ⟨h, hz⟩)
            rw [arcsAt_cons f i _ x hx, arcsAt_cons g j _ y hy] at hag
            cases eps with
            | false =>
              have : x.label :: labels (arcsAt f is') = y.label :: labels (arcsAt g js') := hag
              exact (List.cons.inj this).1
            | true =>
              have hx0 : x.label ≠ 0 := fun h => hxe ⟨rfl, h⟩
              have hy0 : y.label ≠ 0 := fun h => hye ⟨rfl, h⟩
              have : noEps (x.label :: labels (arcsAt f is')) = noEps (y.label :: labels (arcsAt g js')) := hag
              unfold noEps at this
              rw [List.filter_cons_of_pos (by simpa using hx0),
                List.filter_cons_of_pos (by simpa using hy0)] at this
              exact (List.cons.inj this).1

/-! ## The result of `Intersection` -/

theorem reads_used (E : Nat × Nat → List (Emit W)) (order : List (Nat × Nat)) (js : List Nat) :
    ∀ es, Reads E order js es →
      used ((logOf E order order.length).map (fun x => x.2.ma)) js = usedA es ∧
      used ((logOf E order order.length).map (fun x => x.2.mb)) js = usedB es := by
  induction js with
  | nil =>
    intro es h
    unfold Reads at h
    obtain rfl : es = [] := by simpa using h.symm
    exact ⟨rfl, rfl⟩
  | cons j js ih =>
    intro es h
    unfold Reads at h
    cases es with
    | nil => simp at h
    | cons e es =>
      rw [List.map_cons, List.map_cons, List.cons.injEq] at h
      obtain ⟨⟨i, e'⟩, h1, h2⟩ := Option.map_eq_some_iff.mp h.1
      obtain rfl : e' = e := h2
      obtain ⟨ha, hb⟩ := ih es h.2
      constructor
      · unfold used usedA at ha ⊢
        rw [List.filterMap_cons, List.filterMap_cons, ha, List.getElem?_map, h1]
        rfl
      · unfold used usedB at hb ⊢
        rw [List.filterMap_cons, List.filterMap_cons, hb, List.getElem?_map, h1]
        rfl

theorem reads_arcs [Add W] [Zero W] {E : Nat × Nat → List (Emit W)} {pf : Nat × Nat}
    {order : List (Nat × Nat)} (js : List Nat) :
    ∀ es, Reads E order js es →
      labels (arcsAt (rowsFsa (rowsOf E pf order)) js) = elabels es ∧
      score (arcsAt (rowsFsa (rowsOf E pf order)) js) = (es.map Emit.score).sum := by
  induction js with
  | nil =>
    intro es h
    unfold Reads at h
    obtain rfl : es = [] := by simpa using h.symm
    exact ⟨rfl, rfl⟩
  | cons j js ih =>
    intro es h
    unfold Reads at h
    cases es with
    | nil => simp at h
    | cons e es =>
      rw [List.map_cons, List.map_cons, List.cons.injEq] at h
      obtain ⟨⟨i, e'⟩, h1, h2⟩ := Option.map_eq_some_iff.mp h.1
      obtain rfl : e' = e := h2
      obtain ⟨ha, hb⟩ := ih es h.2
      have hc : (rowsFsa (rowsOf E pf order)).arcs[j]? = some (arcOf pf order (i, e')) := by
        show (rowsOf E pf order).flatten[j]? = _
        rw [rowsOf_flatten, List.getElem?_map, h1]
        rfl
      rw [arcsAt_cons _ _ _ _ hc]
      constructor
      · show e'.label :: labels (arcsAt _ js) = e'.label :: elabels es
        rw [ha]
      · show e'.score + score (arcsAt _ js) = e'.score + (es.map Emit.score).sum
        rw [hb]

theorem rowsOk_rowsOf {E : Nat × Nat → List (Emit W)} {pf : Nat × Nat} {order : List (Nat × Nat)} :
    RowsOk (rowsOf E pf order) := by
  intro s row hrow a ha
  unfold rowsOf at hrow
  by_cases hs : s < order.length
  · rw [List.getElem?_append_left (by simpa using hs), List.getElem?_map, List.getElem?_zipIdx] at hrow
    simp only [Option.map_map, Option.map_eq_some_iff] at hrow
    obtain ⟨p, hp, rfl⟩ := hrow
    obtain ⟨e, he, rfl⟩ := List.mem_map.mp ha
    refine ⟨by simp [arcOf], ?_⟩
    rw [rowsOf_length]
    exact Nat.lt_succ_of_le stateOf_le
  · rw [List.getElem?_append_right (by simpa using hs)] at hrow
    have : row = [] := by
      have h := List.mem_of_getElem? hrow
      simpa using h
    subst this
    simp at ha

/-- What `GetSizes` and `GetOutput` compute for two FSAs. -/
theorem intersectHost_spec [AddCommMonoid W] (eps : Bool) (f g : Fsa W) (a b : HostFsa W)
    (oa ob : Nat) (va : View f a oa) (vb : View g b ob)
    (hf : ∀ x ∈ f.arcs, Int32 x.label) (hg : ∀ x ∈ g.arcs, Int32 x.label)
    (df : ∀ x ∈ f.arcs, x.dst < f.numStates) (dg : ∀ x ∈ g.arcs, x.dst < g.numStates)
    (ff : ∀ x ∈ f.arcs, x.src ≠ f.final) (fg : ∀ x ∈ g.arcs, x.src ≠ g.final)
    (nf : f.numStates ≠ 1) (ng : g.numStates ≠ 1) :
    ∃ (rows : List (List (Arc W))) (ma mb : List Int),
      intersectHost a b eps = some ⟨rows.length, psum (rows.map List.length), rows.flatten, ma, mb⟩ ∧
      RowsOk rows ∧ IsIntersection eps f g (rowsFsa rows) ma mb := by
  unfold intersectHost
  rw [va.size, vb.size]
  by_cases h0 : f.numStates = 0 ∨ g.numStates = 0
  · rw [if_pos h0]
    refine ⟨[], [], [], rfl, ?_, ?_⟩
    · intro s row h; simp at h
    · have hno : ∀ js, ¬ IAccepting (rowsFsa ([] : List (List (Arc W)))) js :=
        fun js h => absurd h.1 (by simp [rowsFsa])
      refine ⟨rfl, rfl, ?_, ?_, ?_, ?_, ?_⟩
      · intro k z hz; simp [rowsFsa] at hz
      · intro js h; exact absurd h (hno js)
      · intro is js h1 h2
        rcases h0 with h | h
        · have := h1.1; omega
        · have := h2.1; omega
      · intro ks ks' h; exact absurd h (hno ks)
      · intro h1 h2
        have := h1.two
        have := h2.two
        omega
  · rw [if_neg h0, if_neg (by omega)]
    have two : 2 ≤ f.numStates ∧ 2 ≤ g.numStates := by omega
    -- what is added for each pair
    let E : Nat × Nat → List (Emit W) := fun p =>
      emits eps oa ob p.1 p.2 ((leaving a p.1).getD []) ((leaving b p.2).getD [])
    let pf : Nat × Nat := (f.numStates - 1, g.numStates - 1)
    have hE : ∀ p, InRange f g p → ∀ e, e ∈ E p ↔ Step eps f g p e := by
      rintro ⟨s, t⟩ ⟨h1, h2⟩ e
      obtain ⟨la, hla, hra⟩ := va.rows s h1
      obtain ⟨lb, hlb, hrb⟩ := vb.rows t h2
      show e ∈ emits eps oa ob s t ((leaving a s).getD []) ((leaving b t).getD []) ↔ _
      rw [hla, hlb]
      exact emits_mem eps f g hf hg oa ob s t la lb hra hrb e
    have hEn : ∀ p, InRange f g p → ((E p).map marks).Nodup := by
      rintro ⟨s, t⟩ ⟨h1, h2⟩
      obtain ⟨la, hla, hra⟩ := va.rows s h1
      obtain ⟨lb, hlb, hrb⟩ := vb.rows t h2
      show ((emits eps oa ob s t ((leaving a s).getD []) ((leaving b t).getD [])).map marks).Nodup
      rw [hla, hlb]
      exact emits_nodup eps f g hf hg oa ob s t la lb hra hrb
    have hEr : ∀ p, p.1 < f.numStates → p.2 < g.numStates → ∀ e ∈ E p,
        e.next.1 < f.numStates ∧ e.next.2 < g.numStates := by
      intro p h1 h2 e he
      exact step_inRange df dg ⟨h1, h2⟩ ((hE p ⟨h1, h2⟩ e).mp he)
    have hvisit : ∀ p, p.1 < f.numStates → p.2 < g.numStates → ∀ (st : St W)
        (q : List (Nat × Nat)) (cur : Int), lookup st.map p = some cur →
        visit a b eps st p q = some ((E p).foldl (emit cur)
          { st with starts := st.starts ++ [st.arcs.length], queue := q }) := by
      rintro ⟨s, t⟩ h1 h2 st q cur hcur
      obtain ⟨la, hla, _⟩ := va.rows s h1
      obtain ⟨lb, hlb, _⟩ := vb.rows t h2
      show visit a b eps st (s, t) q = some ((emits eps oa ob s t ((leaving a s).getD [])
        ((leaving b t).getD [])).foldl (emit cur) _)
      unfold visit
      simp only [va.first, vb.first, hcur, hla, hlb, Option.bind_eq_bind, Option.bind_some,
        Option.getD_some]
    have hpf : pf ≠ (0, 0) := by
      intro h
      have := congrArg Prod.fst h
      simp only [pf] at this
      omega
    have hinit : Inv pf [(0, 0)] 0 (logOf E [(0, 0)] 0)
        (startSt (f.numStates - 1) (g.numStates - 1) : St W) := by
      refine ⟨by simp, by simpa using hpf, ?_, rfl, rfl, by simp [logOf], rfl, rfl, rfl⟩
      intro p
      by_cases h1 : p = pf
      · subst h1
        rw [if_pos (Or.inl rfl)]
        have h2 : ((0, 0) : Nat × Nat) ≠ pf := fun h => hpf h.symm
        unfold lookup startSt num
        rw [if_pos rfl]
        simp only [List.find?_cons, decide_eq_false h2]
        simp [pf]
      · by_cases h2 : p = (0, 0)
        · subst h2
          rw [if_pos (Or.inr (by simp))]
          unfold lookup startSt num
          rw [if_neg h1]
          simp
        · rw [if_neg (by simp [h1, h2])]
          have h3 : ¬ ((0, 0) : Nat × Nat) = p := fun h => h2 h.symm
          have h4 : ¬ (f.numStates - 1, g.numStates - 1) = p := fun h => h1 h.symm
          unfold lookup startSt
          simp only [List.find?_cons, decide_eq_false h3, decide_eq_false h4]
          simp
    obtain ⟨order, st, hloop, hdone, hrange⟩ := loop_spec a b eps f.numStates g.numStates pf E hEr
      hvisit (f.numStates * g.numStates + 1) 0 [(0, 0)] _ hinit rfl rfl
      (by simp; omega) (by simp) (by omega)
    have hfin := finish_spec E pf order st hdone
    have hstop : ∀ e, ¬ Step eps f g pf e := by
      intro e he
      rcases step_cases he with ⟨_, i, x, hi, hx, _⟩ | ⟨_, j, y, hj, hy, _⟩ |
        ⟨⟨i, j, x, y, hi, hj, hx, hy, _⟩, _⟩
      · exact ff x (List.mem_of_getElem? hi) hx
      · exact fg y (List.mem_of_getElem? hj) hy
      · exact ff x (List.mem_of_getElem? hi) hx
    have hpfr : InRange f g pf := ⟨by simp only [pf]; omega, by simp only [pf]; omega⟩
    have hG : Graph E pf order := by
      refine ⟨hdone.inv.nodup, hdone.inv.notfinal, ?_, fun p hp => hEn p (hrange p hp), ?_, hdone.first⟩
      · intro p hp e he
        obtain ⟨i, hi⟩ := List.mem_iff_getElem?.mp hp
        exact hdone.inv.closed (i, e) ((log_mem E order i e).mpr ⟨p, hi, he⟩)
      · rw [List.eq_nil_iff_forall_not_mem]
        intro e he
        exact hstop e ((hE pf hpfr e).mp he)
    have hzero : pairOf pf order 0 = (0, 0) := by unfold pairOf; rw [hdone.first]; rfl
    have hlast : pairOf pf order order.length = pf :=
      (pairOf_final hG.notfinal _ (Nat.le_refl _)).mpr rfl
    have hrfinal : (rowsFsa (rowsOf E pf order)).final = order.length := by
      show (rowsOf E pf order).length - 1 = _
      rw [rowsOf_length]
      rfl
    have hrpos : 0 < (rowsFsa (rowsOf E pf order)).numStates := by
      show 0 < (rowsOf E pf order).length
      rw [rowsOf_length]
      omega
    have hpairR : ∀ s, InRange f g (pairOf pf order s) := by
      intro s
      unfold pairOf
      cases hs : order[s]? with
      | none => exact hpfr
      | some p => exact hrange p (List.mem_of_getElem? hs)
    have h00 : InRange f g (0, 0) := ⟨by show 0 < _; omega, by show 0 < _; omega⟩
    refine ⟨rowsOf E pf order, (logOf E order order.length).map (fun x => x.2.ma),
      (logOf E order order.length).map (fun x => x.2.mb), ?_, rowsOk_rowsOf, ?_⟩
    · show (loop a b eps (f.numStates * g.numStates + 1)
        (startSt (f.numStates - 1) (g.numStates - 1))).bind finishOut = _
      rw [hloop, Option.bind_some, hfin, rowsOf_length]
    · refine ⟨?_, ?_, ?_, ?_, ?_, ?_, ?_⟩
      · show _ = (rowsOf E pf order).flatten.length
        rw [rowsOf_flatten, List.length_map, List.length_map]
      · show _ = (rowsOf E pf order).flatten.length
        rw [rowsOf_flatten, List.length_map, List.length_map]
      · intro k z hz
        obtain ⟨e, h1, h2, h3, h4, _, _, h5, h6⟩ := hG.arc k z hz
        refine ⟨e.ma, e.mb, by rw [List.getElem?_map, h1]; rfl, by rw [List.getElem?_map, h1]; rfl, ?_⟩
        rcases step_cases ((hE _ (hpairR _) e).mp h3) with ⟨he, i, x, hi, hx, hl, rfl⟩ |
          ⟨he, j, y, hj, hy, hl, rfl⟩ | ⟨⟨i, j, x, y, hi, hj, hx, hy, hl, rfl⟩, hne⟩
        · exact Or.inr (Or.inl ⟨he, i, x, rfl, rfl, hi, hl, h5, h6⟩)
        · exact Or.inr (Or.inr ⟨he, j, y, rfl, rfl, hj, hl, h5, h6⟩)
        · exact Or.inl ⟨i, j, x, y, rfl, rfl, hi, hj, hl, h5, h6, hne⟩
      · rintro js ⟨_, hjs⟩
        rw [hrfinal] at hjs
        obtain ⟨es, hr, hw⟩ := hG.sound js 0 order.length hjs
        rw [hzero, hlast] at hw
        obtain ⟨h1, h2, h3, h4, h5⟩ := walk_sound df dg hE es _ _ h00 hw
        obtain ⟨ha, hb⟩ := reads_used E order js es hr
        obtain ⟨hl, hs⟩ := reads_arcs (pf := pf) js es hr
        rw [ha, hb, hl, hs]
        exact ⟨⟨by omega, h1⟩, ⟨by omega, h2⟩, h3, h4, h5⟩
      · rintro is js ⟨_, his⟩ ⟨_, hjs⟩ hag
        obtain ⟨es, hw, ha, hb⟩ := walk_complete df dg hE _ is js (0, 0) pf rfl h00 his hjs hag
        rw [← hzero] at hw
        obtain ⟨ks, t, hr, ht, hpt, hk⟩ := hG.complete es 0 pf (Nat.zero_le _) hw
        have := (pairOf_final hG.notfinal t ht).mp hpt
        subst this
        obtain ⟨ha', hb'⟩ := reads_used E order ks es hr
        refine ⟨ks, ⟨hrpos, ?_⟩, ha'.trans ha, hb'.trans hb⟩
        rw [hrfinal]
        exact hk
      · rintro ks ks' ⟨_, hk⟩ ⟨_, hk'⟩ hma hmb
        rw [hrfinal] at hk hk'
        refine hG.unique ks ks' 0 _ _ hk hk' ?_
        clear hk hk'
        induction ks generalizing ks' with
        | nil =>
          cases ks' with
          | nil => rfl
          | cons k' ks' => simp at hma
        | cons k ks ih =>
          cases ks' with
          | nil => simp at hma
          | cons k' ks' =>
            rw [List.map_cons, List.map_cons, List.cons.injEq] at hma hmb
            rw [List.map_cons, List.map_cons, ih ks' hma.2 hmb.2]
            congr 1
            have e1 := hma.1
            have e2 := hmb.1
            rw [List.getElem?_map, List.getElem?_map] at e1 e2 ⊢
            cases hx : (logOf E order order.length)[k]? with
            | none =>
              cases hy : (logOf E order order.length)[k']? with
              | none => rfl
              | some y => rw [hx, hy] at e1; simp at e1
            | some x =>
              cases hy : (logOf E order order.length)[k']? with
              | none => rw [hx, hy] at e1; simp at e1
              | some y =>
                rw [hx, hy] at e1 e2
                simp only [Option.map_some, Option.some.injEq] at e1 e2 ⊢
                unfold marks
                rw [e1, e2]
      · intro hvf hvg
        have hsrc : ∀ z ∈ (rowsOf E pf order).flatten, z.src < order.length := by
          intro z hz
          obtain ⟨k, hk⟩ := List.mem_iff_getElem?.mp hz
          obtain ⟨e, _, h2, _⟩ := hG.arc k z hk
          exact h2
        refine ⟨?_, ?_, ?_, ?_, ?_⟩
        · show 2 ≤ (rowsOf E pf order).length
          rw [rowsOf_length]
          have := (List.getElem?_eq_some_iff.mp hdone.first).1
          omega
        · show (rowsOf E pf order).flatten.Pairwise (fun a b => a.src ≤ b.src)
          rw [List.pairwise_flatten]
          constructor
          · intro row hrow
            obtain ⟨s, hs⟩ := List.mem_iff_getElem?.mp hrow
            rw [List.pairwise_iff_forall_sublist]
            intro x y hxy
            have hx := (rowsOk_rowsOf s row hs x (hxy.mem (by simp))).1
            have hy := (rowsOk_rowsOf s row hs y (hxy.mem (by simp))).1
            omega
          · rw [List.pairwise_iff_getElem]
            intro i j hi hj hij x hx y hy
            have h1 := (rowsOk_rowsOf i _ (List.getElem?_eq_getElem hi) x hx).1
            have h2 := (rowsOk_rowsOf j _ (List.getElem?_eq_getElem hj) y hy).1
            omega
        · intro z hz
          rw [hrfinal]
          exact hsrc z hz
        · intro z hz
          show z.dst < (rowsOf E pf order).length
          obtain ⟨k, hk⟩ := List.mem_iff_getElem?.mp hz
          obtain ⟨e, _, _, _, _, h5, _⟩ := hG.arc k z hk
          rw [rowsOf_length]
          omega
        · intro z hz
          rw [hrfinal]
          obtain ⟨k, hk⟩ := List.mem_iff_getElem?.mp hz
          obtain ⟨e, _, h2, h3, h4, h5, h6, h7, h8⟩ := hG.arc k z hk
          rw [h7, ← pairOf_final hG.notfinal z.dst h5, h4]
          have hrng := hpairR z.src
          rcases step_cases ((hE _ hrng e).mp h3) with ⟨he, i, x, hi, hx, hl, rfl⟩ |
            ⟨he, j, y, hj, hy, hl, rfl⟩ | ⟨⟨i, j, x, y, hi, hj, hx, hy, hl, rfl⟩, hne⟩
          · have := hvf.final_iff x (List.mem_of_getElem? hi)
            rw [hl] at this
            constructor
            · intro h; simp at h
            · intro h
              have h := congrArg Prod.fst h
              exact absurd (this.mpr h) (by simp)
          · have := hvg.final_iff y (List.mem_of_getElem? hj)
            rw [hl] at this
            constructor
            · intro h; simp at h
            · intro h
              have h := congrArg Prod.snd h
              exact absurd (this.mpr h) (by simp)
          · have h9 := hvf.final_iff x (List.mem_of_getElem? hi)
            have h10 := hvg.final_iff y (List.mem_of_getElem? hj)
            constructor
            · intro h
              have h : x.label = -1 := h
              exact Prod.ext (h9.mp h) (h10.mp (hl ▸ h))
            · intro h
              exact h9.mpr (congrArg Prod.fst h)

end Verif.Fsa.Isect
