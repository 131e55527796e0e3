import Verif.Fsa.Intersect.Vec
import Mathlib.Algebra.Group.Int.Defs

/-!
# C34: intersection
-/

namespace Verif.Fsa.Isect
open Verif.Ragged Verif.Util Verif.Fsa.Top
variable {W : Type}

/-- **C34**: `Intersect` of two vectors of arc-sorted FSAs (one of them may have a single FSA, which
is then used with every FSA of the other one) returns the vector of the intersections, and the arc
maps name the arcs of the two vectors. -/
theorem intersect_correct [AddCommMonoid W] (eps : Bool) (Ta Tb : List (List (List (Arc W))))
    (ha : Ta ≠ []) (hb : Tb ≠ []) (hn : Ta.length = Tb.length ∨ Ta.length = 1 ∨ Tb.length = 1)
    (ka : ∀ f ∈ Ta, Input f) (kb : ∀ f ∈ Tb, Input f) :
    ∃ R : List (List (List (Arc W)) × List Int × List Int),
      R.length = max Ta.length Tb.length ∧
      intersect (flat Ta) (flat Tb) eps = some (flat (R.map Prod.fst),
        joinShift ((List.range R.length).map (fun i => base Ta (pick Ta i))) (R.map (fun x => x.2.1)),
        joinShift ((List.range R.length).map (fun i => base Tb (pick Tb i))) (R.map (fun x => x.2.2))) ∧
      ∀ (i : Nat) (x : List (List (Arc W)) × List Int × List Int), R[i]? = some x →
        ∃ f g, Ta[pick Ta i]? = some f ∧ Tb[pick Tb i]? = some g ∧ RowsOk x.1 ∧
          IsIntersection eps (rowsFsa f) (rowsFsa g) (rowsFsa x.1) x.2.1 x.2.2 :=
  intersect_vec eps Ta Tb ha hb hn ka kb

/-! ## Languages -/

theorem accepting_iff (f : Fsa W) (p : List (Arc W)) :
    Accepting f p ↔ 2 ≤ f.numStates ∧
      ∃ js, js.map (fun i => f.arcs[i]?) = p.map some ∧ IAccepting f js := by
  unfold Accepting
  rw [path_iff_ipath]
  constructor
  · rintro ⟨h2, js, h1, h3⟩
    exact ⟨h2, js, h1, by omega, h3⟩
  · rintro ⟨h2, js, h1, _, h3⟩
    exact ⟨h2, js, h1, h3⟩

theorem arcsAt_of_map (f : Fsa W) (js : List Nat) :
    ∀ p, js.map (fun i => f.arcs[i]?) = p.map some → arcsAt f js = p := by
  induction js with
  | nil =>
    intro p h
    have : p = [] := by simpa using h.symm
    rw [this]
    rfl
  | cons j js ih =>
    intro p h
    cases p with
    | nil => simp at h
    | cons a p =>
      rw [List.map_cons, List.map_cons, List.cons.injEq] at h
      rw [arcsAt_cons f j js a h.1, ih p h.2]

theorem map_of_iaccepting {f : Fsa W} {js : List Nat} (h : IAccepting f js) :
    js.map (fun i => f.arcs[i]?) = (arcsAt f js).map some := by
  obtain ⟨_, p, _, hp⟩ := h
  rw [arcsAt_of_map f js p hp]
  exact hp

/-- Along an accepting path of a valid FSA the label -1 appears once, at the end. -/
theorem noEps_valid {f : Fsa W} (hf : f.Valid) (p : List (Arc W)) :
    ∀ s, s < f.final → Path f.arcs s p f.final → noEps (labels p) = strip (labels p) ++ [-1] := by
  induction p with
  | nil =>
    intro s hs h
    rw [path_nil] at h
    omega
  | cons a p ih =>
    intro s hs h
    obtain ⟨ha, hsrc, hr⟩ := (path_cons _ _ _ _ _).mp h
    have hdst := hf.dst_lt a ha
    have hiff := hf.final_iff a ha
    by_cases hfin : a.dst = f.final
    · have hlab := hiff.mpr hfin
      have : p = [] := by
        cases p with
        | nil => rfl
        | cons b p =>
          obtain ⟨hb, hbs, _⟩ := (path_cons _ _ _ _ _).mp hr
          have := hf.src_lt b hb
          omega
      subst this
      simp [labels, hlab, noEps, strip]
    · have hlab : a.label ≠ -1 := fun h => hfin (hiff.mp h)
      have hlt : a.dst < f.final := by unfold Fsa.final at *; omega
      have := ih a.dst hlt hr
      show noEps (a.label :: labels p) = strip (a.label :: labels p) ++ [-1]
      unfold noEps strip at *
      by_cases h0 : a.label = 0
      · rw [List.filter_cons_of_neg (by simp [h0]), List.filter_cons_of_neg (by simp [h0]), this]
      · rw [List.filter_cons_of_pos (by simp [h0]), List.filter_cons_of_pos (by simp [h0, hlab]), this]
        rfl

theorem noEps_accepting {f : Fsa W} (hf : f.Valid) {p : List (Arc W)} (hp : Accepting f p) :
    noEps (labels p) = strip (labels p) ++ [-1] :=
  noEps_valid hf p 0 (by unfold Fsa.final; have := hf.two; omega) hp.2

/-- **C34**, special treatment of epsilons: what the intersection accepts. -/
theorem intersection_accepts [AddCommMonoid W] {f g c : Fsa W} {ma mb : List Int}
    (hf : f.Valid) (hg : g.Valid) (h : IsIntersection true f g c ma mb) (s : List Int) (w : W) :
    Accepts c s w ↔ ∃ w1 w2, Accepts f s w1 ∧ Accepts g s w2 ∧ w = w1 + w2 := by
  have hc := h.valid hf hg
  constructor
  · rintro ⟨p, hp, hs, hw⟩
    obtain ⟨_, js, hm, hj⟩ := (accepting_iff c p).mp hp
    have hpe := arcsAt_of_map c js p hm
    obtain ⟨h1, h2, h3, h4, h5⟩ := h.sound js hj
    rw [hpe] at h3 h4 h5
    have hpf : Accepting f (arcsAt f (used ma js)) :=
      (accepting_iff f _).mpr ⟨hf.two, _, map_of_iaccepting h1, h1⟩
    have hpg : Accepting g (arcsAt g (used mb js)) :=
      (accepting_iff g _).mpr ⟨hg.two, _, map_of_iaccepting h2, h2⟩
    have h3' : noEps (labels p) = noEps (labels (arcsAt f (used ma js))) := h3
    have h4' : noEps (labels p) = noEps (labels (arcsAt g (used mb js))) := h4
    rw [noEps_accepting hc hp, noEps_accepting hf hpf] at h3'
    rw [noEps_accepting hc hp, noEps_accepting hg hpg] at h4'
    exact ⟨_, _, ⟨_, hpf, (List.append_cancel_right h3').symm.trans hs, rfl⟩,
      ⟨_, hpg, (List.append_cancel_right h4').symm.trans hs, rfl⟩, hw.symm.trans h5⟩
  · rintro ⟨w1, w2, ⟨p, hp, hs, rfl⟩, ⟨q, hq, hs', rfl⟩, rfl⟩
    obtain ⟨_, is, hm, hi⟩ := (accepting_iff f p).mp hp
    obtain ⟨_, js, hm', hj⟩ := (accepting_iff g q).mp hq
    have hpe := arcsAt_of_map f is p hm
    have hqe := arcsAt_of_map g js q hm'
    have hag : Agree true (labels (arcsAt f is)) (labels (arcsAt g js)) := by
      rw [hpe, hqe]
      show noEps (labels p) = noEps (labels q)
      rw [noEps_accepting hf hp, noEps_accepting hg hq, hs, hs']
    obtain ⟨ks, hk, hua, hub⟩ := h.complete is js hi hj hag
    obtain ⟨_, _, h3, _, h5⟩ := h.sound ks hk
    rw [hua, hub, hpe, hqe] at h5
    rw [hua, hpe] at h3
    have hacc : Accepting c (arcsAt c ks) :=
      (accepting_iff c _).mpr ⟨hc.two, _, map_of_iaccepting hk, hk⟩
    have h3' : noEps (labels (arcsAt c ks)) = noEps (labels p) := h3
    rw [noEps_accepting hc hacc, noEps_accepting hf hp] at h3'
    exact ⟨_, hacc, (List.append_cancel_right h3').trans hs, h5⟩

/-- **C34**, epsilons are treated like other labels: what the intersection accepts. -/
theorem intersection_accepts_literal [AddCommMonoid W] {f g c : Fsa W} {ma mb : List Int}
    (hf : f.Valid) (hg : g.Valid) (h : IsIntersection false f g c ma mb) (l : List Int) (w : W) :
    AcceptsLabels c l w ↔ ∃ w1 w2, AcceptsLabels f l w1 ∧ AcceptsLabels g l w2 ∧ w = w1 + w2 := by
  have hc := h.valid hf hg
  constructor
  · rintro ⟨p, hp, hs, hw⟩
    obtain ⟨_, js, hm, hj⟩ := (accepting_iff c p).mp hp
    have hpe := arcsAt_of_map c js p hm
    obtain ⟨h1, h2, h3, h4, h5⟩ := h.sound js hj
    rw [hpe] at h3 h4 h5
    have h3' : labels p = labels (arcsAt f (used ma js)) := h3
    have h4' : labels p = labels (arcsAt g (used mb js)) := h4
    exact ⟨_, _, ⟨_, (accepting_iff f _).mpr ⟨hf.two, _, map_of_iaccepting h1, h1⟩, h3'.symm.trans hs, rfl⟩,
      ⟨_, (accepting_iff g _).mpr ⟨hg.two, _, map_of_iaccepting h2, h2⟩, h4'.symm.trans hs, rfl⟩,
      hw.symm.trans h5⟩
  · rintro ⟨w1, w2, ⟨p, hp, hs, rfl⟩, ⟨q, hq, hs', rfl⟩, rfl⟩
    obtain ⟨_, is, hm, hi⟩ := (accepting_iff f p).mp hp
    obtain ⟨_, js, hm', hj⟩ := (accepting_iff g q).mp hq
    have hpe := arcsAt_of_map f is p hm
    have hqe := arcsAt_of_map g js q hm'
    have hag : Agree false (labels (arcsAt f is)) (labels (arcsAt g js)) := by
      rw [hpe, hqe]
      exact hs.trans hs'.symm
    obtain ⟨ks, hk, hua, hub⟩ := h.complete is js hi hj hag
    obtain ⟨_, _, h3, _, h5⟩ := h.sound ks hk
    rw [hua, hub, hpe, hqe] at h5
    rw [hua, hpe] at h3
    exact ⟨_, (accepting_iff c _).mpr ⟨hc.two, _, map_of_iaccepting hk, hk⟩, Eq.trans h3 hs, h5⟩

/-- When epsilons are not special, a path of the intersection is a pair of paths with the same
labels, and a pair of paths is one path of the intersection. -/
theorem intersection_literal_pairs [AddCommMonoid W] {f g c : Fsa W} {ma mb : List Int}
    (h : IsIntersection false f g c ma mb) (is js : List Nat) :
    (IAccepting f is ∧ IAccepting g js ∧ labels (arcsAt f is) = labels (arcsAt g js)) ↔
      ∃! ks, IAccepting c ks ∧ used ma ks = is ∧ used mb ks = js := by
  have hmaps : ∀ ks, (∀ k ∈ ks, k < c.arcs.length) →
      ks.map (fun k => ma[k]?) = (used ma ks).map (fun (i : Nat) => some (i : Int)) ∧
      ks.map (fun k => mb[k]?) = (used mb ks).map (fun (i : Nat) => some (i : Int)) := by
    intro ks hk
    induction ks with
    | nil => exact ⟨rfl, rfl⟩
    | cons k ks ih =>
      obtain ⟨ih1, ih2⟩ := ih (fun x hx => hk x (List.mem_cons_of_mem _ hx))
      have hlt := hk k List.mem_cons_self
      obtain ⟨a, b, h1, h2, hm⟩ := h.arcs k _ (List.getElem?_eq_getElem hlt)
      rcases hm with ⟨i, j, x, y, rfl, rfl, _⟩ | ⟨he, _⟩ | ⟨he, _⟩
      · have hi : ((i : Int) = -1) = False := by simp
        have hj : ((j : Int) = -1) = False := by simp
        constructor
        · unfold used at ih1 ⊢
          rw [List.map_cons, List.filterMap_cons, h1]
          simp only [Option.bind_some, hi, if_false, Int.toNat_natCast, List.map_cons]
          rw [ih1]
        · unfold used at ih2 ⊢
          rw [List.map_cons, List.filterMap_cons, h2]
          simp only [Option.bind_some, hj, if_false, Int.toNat_natCast, List.map_cons]
          rw [ih2]
      · simp at he
      · simp at he
  have hbound : ∀ ks, IAccepting c ks → ∀ k ∈ ks, k < c.arcs.length := by
    intro ks hk k hmem
    have := map_of_iaccepting hk
    have h1 : c.arcs[k]? ∈ (arcsAt c ks).map some := by
      rw [← this]
      exact List.mem_map.mpr ⟨k, hmem, rfl⟩
    obtain ⟨a, _, ha⟩ := List.mem_map.mp h1
    exact (List.getElem?_eq_some_iff.mp ha.symm).1
  constructor
  · rintro ⟨h1, h2, h3⟩
    obtain ⟨ks, hk, ha, hb⟩ := h.complete is js h1 h2 h3
    refine ⟨ks, ⟨hk, ha, hb⟩, ?_⟩
    rintro ks' ⟨hk', ha', hb'⟩
    obtain ⟨e1, e2⟩ := hmaps ks (hbound ks hk)
    obtain ⟨e1', e2'⟩ := hmaps ks' (hbound ks' hk')
    refine h.unique ks' ks hk' hk ?_ ?_
    · rw [e1, e1', ha, ha']
    · rw [e2, e2', hb, hb']
  · rintro ⟨ks, ⟨hk, rfl, rfl⟩, _⟩
    obtain ⟨h1, h2, h3, h4, _⟩ := h.sound ks hk
    exact ⟨h1, h2, Eq.trans (Eq.symm h3) h4⟩

/-- Vectors of different sizes, neither of which has one FSA, are rejected. -/
theorem intersect_sizes [Add W] (eps : Bool) (Ta Tb : List (List (List (Arc W))))
    (h : Ta.length ≠ Tb.length) (h1 : Ta.length ≠ 1) (h2 : Tb.length ≠ 1) :
    intersect (flat Ta) (flat Tb) eps = none := by
  have hla : (flat Ta).sp1.length - 1 = Ta.length := by rw [flat_sp1_length]; rfl
  have hlb : (flat Tb).sp1.length - 1 = Tb.length := by rw [flat_sp1_length]; rfl
  unfold intersect
  simp only [hla, hlb]
  split
  · rfl
  · have : strides Ta.length Tb.length = none := by
      unfold strides
      rw [if_neg h, if_neg h1, if_neg h2]
    rw [this]
    rfl

/-! ## Examples -/

/-- `0 -eps-> 1`, `0 -5-> 1`, `1 -6-> 1`, `1 --1-> 2`. -/
def exA : List (List (Arc Int)) := [[⟨0, 1, 0, 1⟩, ⟨0, 1, 5, 2⟩], [⟨1, 1, 6, 4⟩, ⟨1, 2, -1, 8⟩], []]

/-- `0 -5-> 0`, `0 -6-> 1`, `1 -eps-> 0`, `1 --1-> 2`. -/
def exB : List (List (Arc Int)) := [[⟨0, 0, 5, 16⟩, ⟨0, 1, 6, 32⟩], [⟨1, 0, 0, 64⟩, ⟨1, 2, -1, 128⟩], []]

theorem input_of_check (f : List (List (Arc Int)))
    (h : ((List.range f.length).all (fun s => (f.getD s []).all (fun a =>
        decide (a.src = s ∧ a.dst < f.length ∧ a.src ≠ f.length - 1 ∧ -2147483648 ≤ a.label ∧
          a.label < 2147483648)))) = true)
    (hs : ∀ row ∈ f, row.Pairwise (fun x y => u32 x.label ≤ u32 y.label)) (h1 : f.length ≠ 1) :
    Input f := by
  have key : ∀ (s : Nat) (row : List (Arc Int)), f[s]? = some row → ∀ a ∈ row, a.src = s ∧
      a.dst < f.length ∧ a.src ≠ f.length - 1 ∧ -2147483648 ≤ a.label ∧ a.label < 2147483648 := by
    intro s row hrow a ha
    have hlt := (List.getElem?_eq_some_iff.mp hrow).1
    have := (List.all_eq_true.mp h) s (List.mem_range.mpr hlt)
    rw [List.getD_eq_getElem?_getD, hrow, Option.getD_some] at this
    have := (List.all_eq_true.mp this) a ha
    exact of_decide_eq_true this
  have key2 : ∀ a ∈ f.flatten, a.src ≠ f.length - 1 ∧ -2147483648 ≤ a.label ∧ a.label < 2147483648 := by
    intro a ha
    obtain ⟨row, hrow, harow⟩ := List.mem_flatten.mp ha
    obtain ⟨s, hsr⟩ := List.mem_iff_getElem?.mp hrow
    exact (key s row hsr a harow).2.2
  exact ⟨fun s row hrow a ha => ⟨(key s row hrow a ha).1, (key s row hrow a ha).2.1⟩, hs,
    fun a ha => (key2 a ha).2, h1, fun a ha => (key2 a ha).1⟩

example : (∀ f ∈ [exA], Input f) ∧ (∀ f ∈ [exB, exA], Input f) := by
  have hA : Input exA := input_of_check exA (by decide) (by decide) (by decide)
  have hB : Input exB := input_of_check exB (by decide) (by decide) (by decide)
  constructor
  · intro f hf
    simp at hf
    subst hf
    exact hA
  · intro f hf
    simp at hf
    rcases hf with rfl | rfl
    · exact hB
    · exact hA

/-- The intersection of `exA` with `exB` and with itself: the arc maps of the second FSA count the
arcs of `exB`. -/
example : intersect (flat [exA]) (flat [exB, exA]) true = some (flat
    [[[⟨0, 1, 0, 1⟩, ⟨0, 1, 5, 18⟩], [⟨1, 2, 6, 36⟩], [⟨2, 1, 0, 64⟩, ⟨2, 3, -1, 136⟩], []],
     [[⟨0, 1, 0, 1⟩, ⟨0, 2, 0, 1⟩, ⟨0, 3, 5, 4⟩], [⟨1, 3, 0, 1⟩], [⟨2, 3, 0, 1⟩],
      [⟨3, 3, 6, 8⟩, ⟨3, 4, -1, 16⟩], []]],
    [0, 1, 2, -1, 3, 0, -1, 1, -1, 0, 2, 3], [-1, 0, 1, 2, 3, -1, 4, 5, 4, -1, 6, 7]) := by
  decide +kernel

/-- Literal matching of the same FSAs. -/
example : intersect (flat [exA]) (flat [exB, exA]) false = some (flat
    [[[⟨0, 1, 5, 18⟩], [⟨1, 2, 6, 36⟩], [⟨2, 3, -1, 136⟩], []],
     [[⟨0, 1, 0, 2⟩, ⟨0, 1, 5, 4⟩], [⟨1, 1, 6, 8⟩, ⟨1, 2, -1, 16⟩], []]],
    [1, 2, 3, 0, 1, 2, 3], [0, 1, 3, 4, 5, 6, 7]) := by
  decide +kernel

/-- An FSA that the basic properties call valid although an arc leaves its final state. -/
def exLoop : List (List (Arc Int)) := [[⟨0, 1, -1, 0⟩], [⟨1, 1, -1, 0⟩]]

/-- The condition that no arc leaves the final states is needed: the path with labels -1, -1 of
`exLoop` is not in its intersection with itself. -/
theorem intersect_leaving_final :
    intersect (flat [exLoop]) (flat [exLoop]) false = some (flat [[[⟨0, 1, -1, 0⟩], []]], [0], [0]) ∧
      IAccepting (rowsFsa exLoop) [0, 1] ∧
      ¬ IAccepting (rowsFsa ([[⟨0, 1, -1, 0⟩], []] : List (List (Arc Int)))) [0, 1] ∧
      ¬ IAccepting (rowsFsa ([[⟨0, 1, -1, 0⟩], []] : List (List (Arc Int)))) [0, 0] := by
  refine ⟨by decide +kernel, ⟨by decide, ?_⟩, ?_, ?_⟩
  · exact ⟨[⟨0, 1, -1, 0⟩, ⟨1, 1, -1, 0⟩], ⟨rfl, rfl, rfl⟩, rfl⟩
  · rintro ⟨_, p, _, hp⟩
    have := congrArg (fun l => l[1]?) hp
    simp [rowsFsa] at this
  · rintro ⟨_, p, hc, hp⟩
    rcases p with _ | ⟨a, _ | ⟨b, _ | ⟨c, p⟩⟩⟩ <;> simp [rowsFsa] at hp
    obtain ⟨rfl, rfl⟩ := hp
    simp [Chain] at hc

end Verif.Fsa.Isect
