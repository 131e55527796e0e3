import Verif.Fsa.Intersect.Props

/-!
# Graphs whose states stand for pairs of states

Several states may stand for the same pair.
-/

namespace Verif.Fsa.Idv
open Verif.Fsa.Top Verif.Fsa.Isect
variable {W : Type}

/-- The states of `c` stand for the pairs `P`, and the arcs that leave a state are the pairs of arcs with the
same label. -/
structure Covers [Add W] (f g c : Fsa W) (P : List (Nat × Nat)) (ma mb : List Nat) : Prop where
  size : c.numStates = P.length
  lenA : ma.length = c.arcs.length
  lenB : mb.length = c.arcs.length
  sorted : c.Sorted
  two : 2 ≤ P.length
  first : P[0]? = some (0, 0)
  last : ∀ (s : Nat) (p : Nat × Nat), P[s]? = some p → (p = (f.final, g.final) ↔ s + 1 = P.length)
  arc : ∀ (k : Nat) (z : Arc W), c.arcs[k]? = some z → ∃ (i j : Nat) (x y : Arc W),
    ma[k]? = some i ∧ mb[k]? = some j ∧ f.arcs[i]? = some x ∧ g.arcs[j]? = some y ∧
    P[z.src]? = some (x.src, y.src) ∧ P[z.dst]? = some (x.dst, y.dst) ∧ x.label = y.label ∧
    z.label = x.label ∧ z.score = x.score + y.score
  all : ∀ (s i j : Nat) (x y : Arc W), P[s]? = some (x.src, y.src) → f.arcs[i]? = some x →
    g.arcs[j]? = some y → x.label = y.label → ∃ (k : Nat) (z : Arc W), c.arcs[k]? = some z ∧ z.src = s ∧
      ma[k]? = some i ∧ mb[k]? = some j
  inj : ∀ (k k' : Nat) (z z' : Arc W), c.arcs[k]? = some z → c.arcs[k']? = some z' → z.src = z'.src →
    ma[k]? = ma[k']? → mb[k]? = mb[k']? → k = k'

/-- Numbers as elements of an arc map. -/
def ints (l : List Nat) : List Int := l.map (fun n : Nat => (n : Int))

theorem ints_get (l : List Nat) (k : Nat) : (ints l)[k]? = (l[k]?).map (fun n : Nat => (n : Int)) := by
  rw [ints, List.getElem?_map]

theorem used_cons (m : List Nat) (k i : Nat) (ks : List Nat) (h : m[k]? = some i) :
    used (ints m) (k :: ks) = i :: used (ints m) ks := by
  have e : ((ints m)[k]?).bind (fun x => if x = -1 then none else some x.toNat) = some i := by
    rw [ints_get, h]
    have : ((i : Nat) : Int) ≠ -1 := by omega
    simp [this]
  rw [used, List.filterMap_cons, e]
  rfl

variable [AddCommMonoid W] {f g c : Fsa W} {P : List (Nat × Nat)} {ma mb : List Nat}

theorem Covers.sound (h : Covers f g c P ma mb) (ks : List Nat) (s t : Nat) (p q : Nat × Nat)
    (hp : P[s]? = some p) (hq : P[t]? = some q) (hk : IPath c.arcs s ks t) :
    IPath f.arcs p.1 (used (ints ma) ks) q.1 ∧ IPath g.arcs p.2 (used (ints mb) ks) q.2 ∧
    labels (arcsAt c ks) = labels (arcsAt f (used (ints ma) ks)) ∧
    labels (arcsAt c ks) = labels (arcsAt g (used (ints mb) ks)) ∧
    score (arcsAt c ks) = score (arcsAt f (used (ints ma) ks)) + score (arcsAt g (used (ints mb) ks)) := by
  induction ks generalizing s p with
  | nil =>
    rw [ipath_nil] at hk
    subst hk
    rw [hp] at hq
    obtain rfl := Option.some.inj hq
    refine ⟨(ipath_nil _ _ _).mpr rfl, (ipath_nil _ _ _).mpr rfl, rfl, rfl, ?_⟩
    simp [score, arcsAt, used]
  | cons k ks ih =>
    obtain ⟨z, hz, rfl, hr⟩ := (ipath_cons _ _ _ _ _).mp hk
    obtain ⟨i, j, x, y, h1, h2, h3, h4, h5, h6, h7, h8, h9⟩ := h.arc k z hz
    rw [hp] at h5
    obtain rfl := Option.some.inj h5
    obtain ⟨e1, e2, e3, e4, e5⟩ := ih z.dst _ h6 hr
    rw [used_cons _ _ _ _ h1, used_cons _ _ _ _ h2]
    refine ⟨(ipath_cons _ _ _ _ _).mpr ⟨x, h3, rfl, e1⟩, (ipath_cons _ _ _ _ _).mpr ⟨y, h4, rfl, e2⟩, ?_, ?_, ?_⟩
    · rw [arcsAt_cons _ _ _ _ hz, arcsAt_cons _ _ _ _ h3]
      simp only [labels, List.map_cons] at e3 ⊢
      rw [e3, h8]
    · rw [arcsAt_cons _ _ _ _ hz, arcsAt_cons _ _ _ _ h4]
      simp only [labels, List.map_cons] at e4 ⊢
      rw [e4, h8, h7]
    · rw [arcsAt_cons _ _ _ _ hz, arcsAt_cons _ _ _ _ h3, arcsAt_cons _ _ _ _ h4]
      simp only [score, List.map_cons, List.sum_cons] at e5 ⊢
      rw [e5, h9]
      exact add_add_add_comm _ _ _ _

theorem Covers.complete (h : Covers f g c P ma mb) (is : List Nat) :
    ∀ (js : List Nat) (s : Nat) (p q : Nat × Nat), P[s]? = some p → IPath f.arcs p.1 is q.1 →
      IPath g.arcs p.2 js q.2 → labels (arcsAt f is) = labels (arcsAt g js) →
      ∃ ks t, IPath c.arcs s ks t ∧ P[t]? = some q ∧ used (ints ma) ks = is ∧ used (ints mb) ks = js := by
  induction is with
  | nil =>
    intro js s p q hs h1 h2 h3
    cases js with
    | nil =>
      rw [ipath_nil] at h1 h2
      exact ⟨[], s, (ipath_nil _ _ _).mpr rfl, by rw [hs]; congr 1; exact Prod.ext h1 h2, rfl, rfl⟩
    | cons j js =>
      obtain ⟨y, hy, -⟩ := (ipath_cons _ _ _ _ _).mp h2
      rw [arcsAt_cons _ _ _ _ hy] at h3
      simp [labels, arcsAt] at h3
  | cons i is ih =>
    intro js s p q hs h1 h2 h3
    obtain ⟨x, hx, hxs, hx2⟩ := (ipath_cons _ _ _ _ _).mp h1
    cases js with
    | nil =>
      rw [arcsAt_cons _ _ _ _ hx] at h3
      simp [labels, arcsAt] at h3
    | cons j js =>
      obtain ⟨y, hy, hys, hy2⟩ := (ipath_cons _ _ _ _ _).mp h2
      rw [arcsAt_cons _ _ _ _ hx, arcsAt_cons _ _ _ _ hy] at h3
      simp only [labels, List.map_cons, List.cons.injEq] at h3
      obtain ⟨k, z, e1, e2, e3, e4⟩ := h.all s i j x y (by rw [hs, hxs, hys]) hx hy h3.1
      obtain ⟨i', j', x', y', f1, f2, f3, f4, f5, f6, -⟩ := h.arc k z e1
      rw [e3] at f1
      obtain rfl := Option.some.inj f1
      rw [e4] at f2
      obtain rfl := Option.some.inj f2
      rw [hx] at f3
      obtain rfl := Option.some.inj f3
      rw [hy] at f4
      obtain rfl := Option.some.inj f4
      obtain ⟨ks, t, g1, g2, g3, g4⟩ := ih js z.dst _ q f6 hx2 hy2 h3.2
      refine ⟨k :: ks, t, (ipath_cons _ _ _ _ _).mpr ⟨z, e1, e2, g1⟩, g2, ?_, ?_⟩
      · rw [used_cons _ _ _ _ e3, g3]
      · rw [used_cons _ _ _ _ e4, g4]

omit [AddCommMonoid W] in
theorem Covers.unique [Add W] (h : Covers f g c P ma mb) (ks : List Nat) :
    ∀ (ks' : List Nat) (s t t' : Nat), IPath c.arcs s ks t → IPath c.arcs s ks' t' →
      ks.map (fun k => (ints ma)[k]?) = ks'.map (fun k => (ints ma)[k]?) →
      ks.map (fun k => (ints mb)[k]?) = ks'.map (fun k => (ints mb)[k]?) → ks = ks' := by
  induction ks with
  | nil =>
    intro ks' s t t' _ _ hm _
    symm
    simpa using hm.symm
  | cons k ks ih =>
    intro ks' s t t' hp hp' hm hn
    cases ks' with
    | nil => simp at hm
    | cons k' ks' =>
      obtain ⟨z, hz, hs, hr⟩ := (ipath_cons _ _ _ _ _).mp hp
      obtain ⟨z', hz', hs', hr'⟩ := (ipath_cons _ _ _ _ _).mp hp'
      rw [List.map_cons, List.map_cons, List.cons.injEq] at hm hn
      have hinj : Function.Injective (fun n : Nat => (n : Int)) := fun _ _ h => Int.ofNat.inj h
      have e1 : ma[k]? = ma[k']? := by
        have := hm.1
        rw [ints_get, ints_get] at this
        exact Option.map_injective hinj this
      have e2 : mb[k]? = mb[k']? := by
        have := hn.1
        rw [ints_get, ints_get] at this
        exact Option.map_injective hinj this
      have hk := h.inj k k' z z' hz hz' (by rw [hs, hs']) e1 e2
      subst hk
      rw [hz] at hz'
      obtain rfl := Option.some.inj hz'
      rw [ih ks' _ _ _ hr hr' hm.2 hn.2]

theorem Covers.isIntersection (h : Covers f g c P ma mb) (hf : f.Valid) (hg : g.Valid) :
    IsIntersection false f g c (ints ma) (ints mb) := by
  have hlast : ∀ s : Nat, P[s]? = some (f.final, g.final) ↔ s = c.final := by
    intro s
    have h2 := h.two
    rw [show c.final = P.length - 1 by rw [Fsa.final, h.size]]
    constructor
    · intro hs
      have := (h.last s _ hs).mp rfl
      omega
    · rintro rfl
      obtain ⟨p, hp⟩ : ∃ p, P[P.length - 1]? = some p := ⟨_, List.getElem?_eq_getElem (by omega)⟩
      rw [hp, (h.last _ p hp).mpr (by omega)]
  refine ⟨by simp [ints, h.lenA], by simp [ints, h.lenB], ?_, ?_, ?_, ?_, ?_⟩
  · intro k z hz
    obtain ⟨i, j, x, y, h1, h2, h3, h4, -, -, h7, h8, h9⟩ := h.arc k z hz
    refine ⟨i, j, by rw [ints_get, h1]; rfl, by rw [ints_get, h2]; rfl, Or.inl ?_⟩
    exact ⟨i, j, x, y, rfl, rfl, h3, h4, h7, h8, h9, by simp⟩
  · rintro ks ⟨hk1, hk2⟩
    obtain ⟨e1, e2, e3, e4, e5⟩ := h.sound ks _ _ _ _ h.first ((hlast _).mpr rfl) hk2
    exact ⟨⟨by have := hf.two; omega, e1⟩, ⟨by have := hg.two; omega, e2⟩, e3, e4, e5⟩
  · rintro is js ⟨-, hi⟩ ⟨-, hj⟩ ha
    obtain ⟨ks, t, e1, e2, e3, e4⟩ := h.complete is js 0 (0, 0) (f.final, g.final) h.first hi hj ha
    rw [hlast] at e2
    subst e2
    exact ⟨ks, ⟨by rw [h.size]; have := h.two; omega, e1⟩, e3, e4⟩
  · rintro ks ks' ⟨-, hk⟩ ⟨-, hk'⟩ hm hn
    exact h.unique ks ks' _ _ _ hk hk' hm hn
  · intro _ _
    have harc : ∀ z ∈ c.arcs, ∃ x ∈ f.arcs, ∃ y ∈ g.arcs, P[z.src]? = some (x.src, y.src) ∧
        P[z.dst]? = some (x.dst, y.dst) ∧ x.label = y.label ∧ z.label = x.label := by
      intro z hz
      obtain ⟨k, hk⟩ := List.getElem?_of_mem hz
      obtain ⟨i, j, x, y, h1, h2, h3, h4, h5, h6, h7, h8, h9⟩ := h.arc k z hk
      exact ⟨x, List.mem_of_getElem? h3, y, List.mem_of_getElem? h4, h5, h6, h7, h8⟩
    refine ⟨by rw [h.size]; exact h.two, h.sorted, ?_, ?_, ?_⟩
    · intro z hz
      obtain ⟨x, hx, y, hy, h5, h6, -, -⟩ := harc z hz
      have hlt := (List.getElem?_eq_some_iff.mp h5).1
      rw [Fsa.final, h.size]
      by_contra hc
      have := (h.last _ _ h5).mpr (by omega)
      have h1 := hf.src_lt x hx
      rw [Prod.mk.injEq] at this
      omega
    · intro z hz
      obtain ⟨x, hx, y, hy, h5, h6, -, -⟩ := harc z hz
      rw [h.size]
      exact (List.getElem?_eq_some_iff.mp h6).1
    · intro z hz
      obtain ⟨x, hx, y, hy, h5, h6, h7, h8⟩ := harc z hz
      rw [h8, ← hlast, h6]
      constructor
      · intro hl
        rw [(hf.final_iff x hx).mp hl, (hg.final_iff y hy).mp (h7 ▸ hl)]
      · intro he
        have := Option.some.inj he
        rw [Prod.mk.injEq] at this
        exact (hf.final_iff x hx).mpr this.1

end Verif.Fsa.Idv
