import Verif.Fsa.Compose.Vec
import Mathlib.Tactic.IntervalCases

/-!
# Composition
-/

namespace Verif.Fsa.Comp
open Verif.Fsa Verif.Fsa.Isect Verif.Fsa.Att Verif.Fsa.Top Verif.Ragged
variable {W : Type}

/-- One FSA of the result with its aux labels, the labels that were matched, and the arcs it is made from. -/
structure Piece (W : Type) where
  rows : List (List (Arc W))
  aux : List Int
  inner : List Int
  ma : List Int
  mb : List Int

/-- The output labels of the second input: its labels if it is an acceptor. -/
def auxB (hasAux : Bool) (g : TRows W) : List Int := if hasAux then auxs g else labels (rowsFsa (arcsOf g)).arcs

/-- The arcs of each state are in order, as `arc_sort` leaves them. -/
def InOrder (g : List (List (Arc W))) : Prop :=
  ∀ row ∈ g, row.Pairwise (fun a b => u32 a.label < u32 b.label ∨ (a.label = b.label ∧ a.dst ≤ b.dst))

theorem isSorted_of (g : List (List (Arc W))) (h : InOrder g) : isSorted g = true := by
  unfold isSorted
  rw [List.all_eq_true]
  intro row hr
  rw [List.all_eq_true]
  rintro ⟨a, b⟩ hab
  obtain ⟨i, hi⟩ := List.mem_iff_getElem?.mp hab
  obtain ⟨h1, h2⟩ := List.getElem?_zip_eq_some.mp hi
  rw [List.getElem?_tail] at h2
  have hp := List.pairwise_iff_getElem.mp (h row hr) i (i + 1) (List.getElem?_eq_some_iff.mp h1).1
    (List.getElem?_eq_some_iff.mp h2).1 (by omega)
  rw [(List.getElem?_eq_some_iff.mp h1).2, (List.getElem?_eq_some_iff.mp h2).2] at hp
  show (!arcLess b a) = true
  change u32 a.label < u32 b.label ∨ (a.label = b.label ∧ a.dst ≤ b.dst) at hp
  unfold arcLess
  rcases hp with hp | ⟨hp, hp'⟩
  · by_cases hl : b.label = a.label
    · rw [hl] at hp; omega
    · rw [if_pos hl]; simp; omega
  · rw [if_neg (by simp [hp])]; simp; omega

theorem attrOf_eq {A : Type} (p : Arc W × Int → A) (T : List (TRows W)) :
    attrOf p T = (T.map (fun f => f.flatten.map p)).flatten := by
  unfold attrOf
  rw [List.flatten_flatten, List.map_flatten, List.map_map]
  rfl

theorem gather_eq {A : Type} (l : List A) (m : List Int) (d : A) (n : Nat) (r : List A) (h : pickAll l m d = some r)
    (hr : r.length = n) (hm : m.length = n) (hne : l = [] → m = []) : gather l m d n = some r := by
  unfold gather indexSelect
  by_cases h0 : m.length = 0 ∨ l.length = 0
  · rw [if_pos h0]
    have : m = [] := by
      rcases h0 with h0 | h0
      · exact List.length_eq_zero_iff.mp h0
      · exact hne (List.length_eq_zero_iff.mp h0)
    subst this
    have : r = [] := by
      have : pickAll l [] d = some [] := rfl
      rw [this] at h; cases h; rfl
    subst this
    simp only [Option.bind_eq_bind, Option.bind_some]
    rw [if_pos (by simpa using hm)]
  · rw [if_neg h0, h]
    simp only [Option.bind_eq_bind, Option.bind_some]
    rw [if_pos hr]

/-- An attribute of all FSAs of one input along the arc maps of the intersections. -/
theorem gather_vec {A X : Type} (p : Arc W × Int → A) (d : A) (T : List (TRows W))
    (R : List X) (m : X → List Int) (n : Nat)
    (hm : ∀ i x, R[i]? = some x → ∃ f, T[if T.length = 1 then 0 else i]? = some f ∧
      ∀ y ∈ m x, y = -1 ∨ ∃ k : Nat, y = k ∧ k < f.flatten.length)
    (hn : (R.map (fun x => (m x).length)).sum = n)
    (hne : T.flatten.flatten = [] → n = 0) :
    gather (attrOf p T)
      (joinShift ((List.range R.length).map (fun i => base (T.map arcsOf) (Isect.pick (T.map arcsOf) i))) (R.map m)) d n =
    some (R.zipIdx.map (fun q => (m q.1).map (val ((T.getD (if T.length = 1 then 0 else q.2) []).flatten.map p) d))).flatten := by
  have hj : joinShift ((List.range R.length).map (fun i => base (T.map arcsOf) (Isect.pick (T.map arcsOf) i))) (R.map m) =
      (R.zipIdx.map (fun q => shiftMap (base (T.map arcsOf) (Isect.pick (T.map arcsOf) q.2)) (m q.1))).flatten := by
    unfold joinShift
    congr 1
    have e1 : List.range R.length = R.zipIdx.map Prod.snd := by rw [List.zipIdx_map_snd, List.range_eq_range']
    have e2 : R.map m = R.zipIdx.map (fun q => m q.1) := by
      conv_lhs => rw [← List.zipIdx_map_fst 0 R, List.map_map]
      rfl
    rw [e1, e2, List.map_map, List.zipWith_map, List.zipWith_self]
    rfl
  have hlen : ∀ q : X × Nat → List A, (∀ y ∈ R.zipIdx, (q y).length = (m y.1).length) →
      (R.zipIdx.map q).flatten.length = n := by
    intro q hq
    rw [List.length_flatten, List.map_map, ← hn]
    congr 1
    conv_rhs => rw [← List.zipIdx_map_fst 0 R, List.map_map]
    refine List.map_congr_left (fun y hy => hq y hy)
  have hget : ∀ q ∈ R.zipIdx, R[q.2]? = some q.1 := fun q hq => List.mem_zipIdx_iff_getElem?.mp hq
  rw [hj]
  have hl0 : (R.zipIdx.map (fun q => shiftMap (base (T.map arcsOf) (Isect.pick (T.map arcsOf) q.2)) (m q.1))).flatten.length = n := by
    rw [List.length_flatten, List.map_map, ← hn]
    congr 1
    conv_rhs => rw [← List.zipIdx_map_fst 0 R, List.map_map]
    refine List.map_congr_left (fun y _ => ?_)
    show (shiftMap _ _).length = _
    unfold shiftMap; rw [List.length_map]; rfl
  apply gather_eq
  · apply pickAll_join
    · intro q hq x hx
      obtain ⟨f, h1, h2⟩ := hm q.2 q.1 (hget q hq)
      rw [List.getD_eq_getElem?_getD, h1, Option.getD_some, List.length_map]
      exact h2 x hx
    · intro q hq k hk
      obtain ⟨f, h1, h2⟩ := hm q.2 q.1 (hget q hq)
      rw [List.getD_eq_getElem?_getD, h1, Option.getD_some] at hk ⊢
      rw [attrOf_eq]
      have hpick : Isect.pick (T.map arcsOf) q.2 = if T.length = 1 then 0 else q.2 := by unfold Isect.pick; rw [List.length_map]
      have hb : base (T.map arcsOf) (Isect.pick (T.map arcsOf) q.2) =
          (((T.map (fun f => f.flatten.map p)).map List.length).take (if T.length = 1 then 0 else q.2)).sum := by
        unfold base
        rw [hpick, List.map_map, List.map_map]
        congr 2
        refine List.map_congr_left (fun f _ => ?_)
        show (arcsOf f).flatten.length = (f.flatten.map p).length
        unfold arcsOf
        rw [← List.map_flatten, List.length_map, List.length_map]
      rw [hb]
      exact flatten_at _ _ _ (by rw [List.getElem?_map, h1]; rfl) k hk
  · exact hlen _ (fun y _ => List.length_map _)
  · exact hl0
  · intro h0
    have : T.flatten.flatten = [] := by unfold attrOf at h0; exact List.map_eq_nil_iff.mp h0
    rw [← List.length_eq_zero_iff, hl0]
    exact hne this

section
variable [AddCommMonoid W]

/-- The arc `k` of an FSA of the result. -/
def newArc (F : List (Arc W × Int)) (G : List (Arc W × Int)) (ma mb : List Int) (k : Nat) (z : Arc W) : Arc W :=
  setArc z (val (F.map Prod.snd) 0 (ma.getD k (-1)))
    (val (F.map (fun x => x.1.score)) 0 (ma.getD k (-1)) + val (G.map (fun x => x.1.score)) 0 (mb.getD k (-1)))

theorem newArc_zip (F G : List (Arc W × Int)) (ma mb : List Int) (A : List (Arc W)) (h1 : ma.length = A.length) (h2 : mb.length = A.length) :
    List.zipWith (fun z (q : Int × W × W) => setArc z q.1 (q.2.1 + q.2.2)) A
      ((ma.map (val (F.map Prod.snd) 0)).zip ((ma.map (val (F.map (fun x => x.1.score)) 0)).zip
        (mb.map (val (G.map (fun x => x.1.score)) 0)))) = A.mapIdx (newArc F G ma mb) := by
  apply List.ext_getElem
  · simp [h1, h2]
  · intro k hk hk'
    have ha : k < A.length := by simpa using hk'
    simp only [List.getElem_zipWith, List.getElem_zip, List.getElem_map, List.getElem_mapIdx]
    unfold newArc
    rw [List.getD_eq_getElem?_getD, List.getD_eq_getElem?_getD, List.getElem?_eq_getElem (by omega),
      List.getElem?_eq_getElem (by omega), Option.getD_some, Option.getD_some]

/-- Which FSA of a vector is used: vectors with one FSA are broadcast. -/
def which {A : Type} (T : List A) (i : Nat) : Nat := if T.length = 1 then 0 else i

/-- C93.  `compose` of two vectors of FSAs (one of them may have a single FSA, which is then used with every FSA of
the other) returns the vector of the compositions. -/
theorem compose_correct (eps hasAux inner : Bool) (Ta Tb : List (TRows W))
    (ha : Ta ≠ []) (hb : Tb ≠ []) (hn : Ta.length = Tb.length ∨ Ta.length = 1 ∨ Tb.length = 1)
    (ka : ∀ f ∈ Ta, Left f) (kb : ∀ g ∈ Tb, Input (arcsOf g)) (ks : ∀ g ∈ Tb, InOrder (arcsOf g))
    (hin : inner = true → hasAux = true)
    (hne : eps = true → Ta.flatten.flatten ≠ [] ∧ Tb.flatten.flatten ≠ []) :
    ∃ C : List (Piece W), C.length = max Ta.length Tb.length ∧
      compose eps hasAux inner Ta Tb = some ⟨flat (C.map Piece.rows), (C.map Piece.aux).flatten,
        if inner then some (C.map Piece.inner).flatten else none⟩ ∧
      ∀ (i : Nat) (x : Piece W), C[i]? = some x → ∃ f g, Ta[which Ta i]? = some f ∧ Tb[which Tb i]? = some g ∧
        RowsOk x.rows ∧ IsComposition eps (rowsFsa (arcsOf f)) (auxs f) (rowsFsa (arcsOf g)) (auxB hasAux g)
          (rowsFsa x.rows) x.aux x.inner x.ma x.mb := by
  have hinv : (Ta.mapM invertRows).map (fun l => l.map sortRows) = some (Ta.map prep) := by
    rw [mapM_total Ta invertRows invR (fun f hf => invertRows_eq f (ka f hf)), Option.map_some, List.map_map]
    rfl
  have hsorted : Tb.all (fun g => isSorted (arcsOf g)) = true := by
    rw [List.all_eq_true]
    exact fun g hg => isSorted_of _ (ks g hg)
  obtain ⟨R, hR, hI, hall⟩ := intersect_correct eps ((Ta.map prep).map arcsOf) (Tb.map arcsOf) (by simpa using ha)
    (by simpa using hb) (by simpa using hn)
    (by
      intro f hf
      obtain ⟨f', hf', rfl⟩ := List.mem_map.mp hf
      obtain ⟨f0, hf0, rfl⟩ := List.mem_map.mp hf'
      exact input_prep f0 (ka f0 hf0))
    (by
      intro g hg
      obtain ⟨g0, hg0, rfl⟩ := List.mem_map.mp hg
      exact kb g0 hg0)
  have hlp : (Ta.map prep).length = Ta.length := List.length_map _
  -- each intersection
  have hall' : ∀ (i : Nat) (x : List (List (Arc W)) × List Int × List Int), R[i]? = some x →
      ∃ f g, Ta[which Ta i]? = some f ∧ Tb[which Tb i]? = some g ∧ RowsOk x.1 ∧
        IsIntersection eps (rowsFsa (arcsOf (prep f))) (rowsFsa (arcsOf g)) (rowsFsa x.1) x.2.1 x.2.2 := by
    intro i x hx
    obtain ⟨f, g, h1, h2, h3, h4⟩ := hall i x hx
    unfold Isect.pick at h1 h2
    rw [List.length_map, hlp, List.getElem?_map, List.getElem?_map, Option.map_map, Option.map_eq_some_iff] at h1
    rw [List.length_map, List.getElem?_map, Option.map_eq_some_iff] at h2
    obtain ⟨f0, h1, rfl⟩ := h1
    obtain ⟨g0, h2, rfl⟩ := h2
    exact ⟨f0, g0, h1, h2, h3, h4⟩
  have harcs : ∀ f : TRows W, (rowsFsa (arcsOf f)).arcs = f.flatten.map Prod.fst := by
    intro f; unfold rowsFsa arcsOf; rw [List.map_flatten]
  -- entries of the arc maps
  have hentries : ∀ (f g : Fsa W) (c : Fsa W) (ma mb : List Int), IsIntersection eps f g c ma mb →
      (∀ y ∈ ma, y = -1 ∨ ∃ k : Nat, y = k ∧ k < f.arcs.length) ∧ (∀ y ∈ mb, y = -1 ∨ ∃ k : Nat, y = k ∧ k < g.arcs.length) ∧
      (eps = false → c.arcs ≠ [] → f.arcs ≠ [] ∧ g.arcs ≠ []) := by
    intro f g c ma mb h
    have key : ∀ k : Nat, k < c.arcs.length → ∃ a b, ma[k]? = some a ∧ mb[k]? = some b ∧ (a = -1 ∨ ∃ k : Nat, a = k ∧ k < f.arcs.length) ∧
        (b = -1 ∨ ∃ k : Nat, b = k ∧ k < g.arcs.length) ∧ (eps = false → f.arcs ≠ [] ∧ g.arcs ≠ []) := by
      intro k hk
      obtain ⟨a, b, h1, h2, h3⟩ := h.arcs k _ (List.getElem?_eq_getElem hk)
      refine ⟨a, b, h1, h2, ?_⟩
      rcases h3 with ⟨i, j, x, y, rfl, rfl, hx, hy, _⟩ | ⟨he, i, x, rfl, rfl, hx, _⟩ | ⟨he, j, y, rfl, rfl, hy, _⟩
      · refine ⟨Or.inr ⟨i, rfl, (List.getElem?_eq_some_iff.mp hx).1⟩, Or.inr ⟨j, rfl, (List.getElem?_eq_some_iff.mp hy).1⟩, fun _ => ⟨?_, ?_⟩⟩
        · intro h0; rw [h0] at hx; simp at hx
        · intro h0; rw [h0] at hy; simp at hy
      · exact ⟨Or.inr ⟨i, rfl, (List.getElem?_eq_some_iff.mp hx).1⟩, Or.inl rfl, fun h => by rw [he] at h; cases h⟩
      · exact ⟨Or.inl rfl, Or.inr ⟨j, rfl, (List.getElem?_eq_some_iff.mp hy).1⟩, fun h => by rw [he] at h; cases h⟩
    refine ⟨?_, ?_, ?_⟩
    · intro y hy
      obtain ⟨k, hk⟩ := List.mem_iff_getElem?.mp hy
      obtain ⟨a, b, h1, _, h2, _⟩ := key k (by rw [← h.lenA]; exact (List.getElem?_eq_some_iff.mp hk).1)
      rw [hk] at h1; cases h1; exact h2
    · intro y hy
      obtain ⟨k, hk⟩ := List.mem_iff_getElem?.mp hy
      obtain ⟨a, b, _, h1, _, h2, _⟩ := key k (by rw [← h.lenB]; exact (List.getElem?_eq_some_iff.mp hk).1)
      rw [hk] at h1; cases h1; exact h2
    · intro he hc
      obtain ⟨a, b, _, _, _, _, h3⟩ := key 0 (List.length_pos_iff.mpr hc)
      exact h3 he
  -- the number of arcs
  have hfl : (flat (R.map Prod.fst)).arcs = (R.zipIdx.map (fun q => q.1.1.flatten)).flatten := by
    unfold flat
    simp only
    rw [List.flatten_flatten, List.map_map]
    congr 1
    conv_lhs => rw [← List.zipIdx_map_fst 0 R, List.map_map]
    rfl
  have hcount : ∀ m : List (List (Arc W)) × List Int × List Int → List Int,
      (∀ (i : Nat) (x : List (List (Arc W)) × List Int × List Int), R[i]? = some x → (m x).length = x.1.flatten.length) →
      (R.map (fun x => (m x).length)).sum = (flat (R.map Prod.fst)).arcs.length := by
    intro m hm
    unfold flat
    simp only
    rw [List.flatten_flatten, List.map_map, List.length_flatten, List.map_map]
    congr 1
    refine List.map_congr_left (fun x hx => ?_)
    obtain ⟨i, hi⟩ := List.mem_iff_getElem?.mp hx
    exact hm i x hi
  have hzero : ∀ T : List (TRows W), (T = Ta.map prep ∨ T = Tb) → T.flatten.flatten = [] → (flat (R.map Prod.fst)).arcs.length = 0 := by
    intro T hT h0
    have hsub : ∀ f ∈ T, f.flatten = [] := by
      intro f hf
      rw [List.flatten_flatten] at h0
      exact List.flatten_eq_nil_iff.mp h0 _ (List.mem_map.mpr ⟨f, hf, rfl⟩)
    cases he : eps with
    | true =>
      obtain ⟨h1, h2⟩ := hne he
      rcases hT with rfl | rfl
      · exfalso
        apply h1
        rw [List.flatten_flatten, List.flatten_eq_nil_iff]
        intro l hl
        obtain ⟨f, hf, rfl⟩ := List.mem_map.mp hl
        have h3 := hsub (prep f) (List.mem_map.mpr ⟨f, hf, rfl⟩)
        have h4 := (invOf_prep f (ka f hf)).lenF
        rw [h3, harcs, List.length_map] at h4
        exact List.length_eq_zero_iff.mp h4.symm
      · exact absurd h0 h2
    | false =>
      rw [hfl, List.length_eq_zero_iff, List.flatten_eq_nil_iff]
      intro l hl
      obtain ⟨q, hq, rfl⟩ := List.mem_map.mp hl
      have hq' : R[q.2]? = some q.1 := List.mem_zipIdx_iff_getElem?.mp hq
      obtain ⟨f, g, h1, h2, h3, h4⟩ := hall' q.2 q.1 hq'
      by_contra hcn
      obtain ⟨h5, h6⟩ := (hentries _ _ _ _ _ h4).2.2 he hcn
      rcases hT with rfl | rfl
      · apply h5
        rw [harcs, hsub (prep f) (List.mem_map.mpr ⟨f, List.mem_of_getElem? h1, rfl⟩)]
        rfl
      · apply h6
        rw [harcs, hsub g (List.mem_of_getElem? h2)]
        rfl
  have hwa : ∀ i, which (Ta.map prep) i = which Ta i := by intro i; unfold which; rw [hlp]
  have hma : ∀ (i : Nat) (x : List (List (Arc W)) × List Int × List Int), R[i]? = some x → ∃ f, (Ta.map prep)[if (Ta.map prep).length = 1 then 0 else i]? = some f ∧
      ∀ y ∈ x.2.1, y = -1 ∨ ∃ k : Nat, y = k ∧ k < f.flatten.length := by
    intro i x hx
    obtain ⟨f, g, h1, h2, h3, h4⟩ := hall' i x hx
    refine ⟨prep f, ?_, ?_⟩
    · show (Ta.map prep)[which (Ta.map prep) i]? = _
      rw [hwa, List.getElem?_map, h1]; rfl
    · have := (hentries _ _ _ _ _ h4).1
      rwa [harcs, List.length_map] at this
  have hmb : ∀ (i : Nat) (x : List (List (Arc W)) × List Int × List Int), R[i]? = some x → ∃ g, Tb[if Tb.length = 1 then 0 else i]? = some g ∧
      ∀ y ∈ x.2.2, y = -1 ∨ ∃ k : Nat, y = k ∧ k < g.flatten.length := by
    intro i x hx
    obtain ⟨f, g, h1, h2, h3, h4⟩ := hall' i x hx
    refine ⟨g, h2, ?_⟩
    have := (hentries _ _ _ _ _ h4).2.1
    rwa [harcs, List.length_map] at this
  have hca := hcount (fun x => x.2.1) (fun i x hx => by
    obtain ⟨f, g, h1, h2, h3, h4⟩ := hall' i x hx; exact h4.lenA)
  have hcb := hcount (fun x => x.2.2) (fun i x hx => by
    obtain ⟨f, g, h1, h2, h3, h4⟩ := hall' i x hx; exact h4.lenB)
  -- the attributes
  have gsa := gather_vec (fun x => x.1.score) (0 : W) (Ta.map prep) R (fun x => x.2.1) _ hma hca (hzero _ (Or.inl rfl))
  have gsb := gather_vec (fun x => x.1.score) (0 : W) Tb R (fun x => x.2.2) _ hmb hcb (hzero _ (Or.inr rfl))
  have gl := gather_vec Prod.snd (0 : Int) (Ta.map prep) R (fun x => x.2.1) _ hma hca (hzero _ (Or.inl rfl))
  have gx := gather_vec Prod.snd (0 : Int) Tb R (fun x => x.2.2) _ hmb hcb (hzero _ (Or.inr rfl))
  let F : (List (List (Arc W)) × List Int × List Int) × Nat → List (Arc W × Int) := fun q =>
    ((Ta.map prep).getD (if (Ta.map prep).length = 1 then 0 else q.2) []).flatten
  let G : (List (List (Arc W)) × List Int × List Int) × Nat → List (Arc W × Int) := fun q =>
    (Tb.getD (if Tb.length = 1 then 0 else q.2) []).flatten
  let piece : (List (List (Arc W)) × List Int × List Int) × Nat → Piece W := fun q =>
    ⟨mapPos (newArc (F q) (G q) q.1.2.1 q.1.2.2) 0 q.1.1,
      if hasAux then q.1.2.2.map (val ((G q).map Prod.snd) 0) else q.1.1.flatten.map Arc.label,
      q.1.1.flatten.map Arc.label, moveMap (sigma (Ta.getD (which Ta q.2) [])) q.1.2.1, q.1.2.2⟩
  have hmemR : ∀ q ∈ R.zipIdx, R[q.2]? = some q.1 := fun q hq => List.mem_zipIdx_iff_getElem?.mp hq
  have hlens : ∀ q ∈ R.zipIdx, q.1.2.1.length = q.1.1.flatten.length ∧ q.1.2.2.length = q.1.1.flatten.length := by
    intro q hq
    obtain ⟨f, g, h1, h2, h3, h4⟩ := hall' q.2 q.1 (hmemR q hq)
    exact ⟨h4.lenA, h4.lenB⟩
  refine ⟨R.zipIdx.map piece, ?_, ?_, ?_⟩
  · rw [List.length_map, List.length_zipIdx, hR, List.length_map, List.length_map, List.length_map]
  · unfold compose
    rw [hinv]
    simp only [Option.bind_eq_bind, Option.bind_some, hsorted, Bool.true_eq_false, if_false, hI, gsa, gsb, gl]
    have hfin : hasAux = false ∧ inner = true → False := by
      rintro ⟨h1, h2⟩
      rw [hin h2] at h1; cases h1
    have hlab : (flat (R.map Prod.fst)).arcs.map Arc.label = ((R.zipIdx.map piece).map Piece.inner).flatten := by
      rw [hfl, List.map_flatten, List.map_map, List.map_map]
      rfl
    have haux : outAttr hasAux (attrOf Prod.snd Tb) (joinShift ((List.range R.length).map
          (fun i => base (Tb.map arcsOf) (Isect.pick (Tb.map arcsOf) i))) (R.map (fun x => x.2.2)))
        ((flat (R.map Prod.fst)).arcs.map Arc.label) = some ((R.zipIdx.map piece).map Piece.aux).flatten := by
      unfold outAttr
      rw [List.length_map]
      cases hh : hasAux with
      | true =>
        rw [if_pos rfl, gx, List.map_map]
        congr 2
        refine List.map_congr_left (fun q _ => ?_)
        simp only [Function.comp, piece, hh, if_true]
        rfl
      | false =>
        rw [if_neg (by simp), hlab, List.map_map, List.map_map]
        congr 2
        refine List.map_congr_left (fun q _ => ?_)
        simp [Function.comp, piece, hh]
    rw [haux]
    simp only [Option.bind_some]
    rw [if_neg hfin, hlab]
    congr 1
    have hz1 := zipWith_join Prod.mk (fun q : (List (List (Arc W)) × List Int × List Int) × Nat =>
        q.1.2.1.map (val ((F q).map (fun x => x.1.score)) (0 : W)))
      (fun q => q.1.2.2.map (val ((G q).map (fun x => x.1.score)) (0 : W))) R.zipIdx (fun q hq => by
        rw [List.length_map, List.length_map, (hlens q hq).1, (hlens q hq).2])
    have hz2 := zipWith_join Prod.mk (fun q : (List (List (Arc W)) × List Int × List Int) × Nat =>
        q.1.2.1.map (val ((F q).map Prod.snd) (0 : Int)))
      (fun q => List.zipWith Prod.mk (q.1.2.1.map (val ((F q).map (fun x => x.1.score)) (0 : W)))
        (q.1.2.2.map (val ((G q).map (fun x => x.1.score)) (0 : W)))) R.zipIdx (fun q hq => by
        rw [List.length_zipWith, List.length_map, List.length_map, List.length_map, (hlens q hq).1, (hlens q hq).2, Nat.min_self])
    have hz3 := zipWith_join (fun z (q : Int × W × W) => setArc z q.1 (q.2.1 + q.2.2))
      (fun q : (List (List (Arc W)) × List Int × List Int) × Nat => q.1.1.flatten)
      (fun q => List.zipWith Prod.mk (q.1.2.1.map (val ((F q).map Prod.snd) (0 : Int)))
        (List.zipWith Prod.mk (q.1.2.1.map (val ((F q).map (fun x => x.1.score)) (0 : W)))
        (q.1.2.2.map (val ((G q).map (fun x => x.1.score)) (0 : W))))) R.zipIdx (fun q hq => by
        rw [List.length_zipWith, List.length_zipWith, List.length_map, List.length_map, List.length_map, (hlens q hq).1, (hlens q hq).2, Nat.min_self,
          Nat.min_self])
    have hflat := flat_mapPos (fun q : (List (List (Arc W)) × List Int × List Int) × Nat => newArc (F q) (G q) q.1.2.1 q.1.2.2)
      (fun q => q.1.1) R.zipIdx
    have hrows : R.zipIdx.map (fun q => q.1.1) = R.map Prod.fst := by
      conv_rhs => rw [← List.zipIdx_map_fst 0 R, List.map_map]
      rfl
    have hrows' : (R.zipIdx.map piece).map Piece.rows =
        R.zipIdx.map (fun q => mapPos (newArc (F q) (G q) q.1.2.1 q.1.2.2) 0 q.1.1) := by
      rw [List.map_map]; rfl
    rw [hrows', hflat, hrows]
    congr 2
    rw [hfl]
    show List.zipWith _ _ (List.zipWith Prod.mk _ (List.zipWith Prod.mk _ _)) = _
    rw [hz1, hz2, hz3]
    congr 1
    refine List.map_congr_left (fun q hq => ?_)
    exact newArc_zip (F q) (G q) q.1.2.1 q.1.2.2 _ (hlens q hq).1 (hlens q hq).2
  · intro i x hx
    rw [List.getElem?_map, List.getElem?_zipIdx, Option.map_map, Option.map_eq_some_iff] at hx
    obtain ⟨r, hr, rfl⟩ := hx
    obtain ⟨f, g, h1, h2, h3, h4⟩ := hall' i r hr
    have hF : F (r, 0 + i) = (prep f).flatten := by
      show ((Ta.map prep).getD (which (Ta.map prep) (0 + i)) []).flatten = _
      rw [Nat.zero_add, hwa, List.getD_eq_getElem?_getD, List.getElem?_map, h1]; rfl
    have hG : G (r, 0 + i) = g.flatten := by
      show (Tb.getD (which Tb (0 + i)) []).flatten = _
      rw [Nat.zero_add, List.getD_eq_getElem?_getD, h2]; rfl
    have hs : sigma (Ta.getD (which Ta (0 + i)) []) = sigma f := by
      rw [Nat.zero_add, List.getD_eq_getElem?_getD, h1]; rfl
    have hLf := ka f (List.mem_of_getElem? h1)
    refine ⟨f, g, h1, h2, mapPos_rowsOk (newArc (F (r, 0 + i)) (G (r, 0 + i)) r.2.1 r.2.2) (fun _ _ => ⟨rfl, rfl⟩) 0 _ h3, ?_⟩
    have hfs : fsaOf (rowsFsa (arcsOf f)) (prep f).flatten = rowsFsa (arcsOf (prep f)) := by
      unfold fsaOf
      rw [← harcs (prep f)]
      unfold rowsFsa arcsOf
      simp only [List.length_map, prep_length]
    have hsort : (fsaOf (rowsFsa (arcsOf f)) (prep f).flatten).Sorted := by
      rw [hfs]; exact rowsOk_sorted _ (input_prep f hLf).ok
    rw [← hfs] at h4
    have hgl : (auxB hasAux g).length = (rowsFsa (arcsOf g)).arcs.length := by
      unfold auxB auxs labels
      cases hasAux
      · rw [if_neg (by simp), List.length_map]
      · rw [if_pos rfl, List.length_map, harcs, List.length_map]
    have := composition_of_intersection (invOf_prep f hLf) hsort hgl h4
      (c := rowsFsa (mapPos (newArc (prep f).flatten g.flatten r.2.1 r.2.2) 0 r.1))
      (ca := if hasAux then r.2.2.map (val (g.flatten.map Prod.snd) 0) else r.1.flatten.map Arc.label)
      (ci := r.1.flatten.map Arc.label) (by
        refine ⟨?_, ?_, ?_, rfl, ?_, ?_⟩
        · exact mapPos_length _ _ _
        · show (mapPos _ 0 r.1).flatten.length = _
          rw [mapPos_flatten, List.length_mapIdx]; rfl
        · show _ = r.1.flatten.length
          split
          · rw [List.length_map, h4.lenB]; rfl
          · rw [List.length_map]
        · intro k z hk a b hka hkb
          have hk' : r.1.flatten[k]? = some z := hk
          show (mapPos _ 0 r.1).flatten[k]? = _
          rw [mapPos_flatten, List.getElem?_mapIdx, hk', Option.map_some, Nat.zero_add]
          unfold newArc
          rw [List.getD_eq_getElem?_getD, List.getD_eq_getElem?_getD, hka, hkb, harcs, List.map_map]
          rfl
        · cases hh : hasAux with
          | true =>
            left
            intro k b hkb
            rw [if_pos rfl, List.getElem?_map, hkb]
            rfl
          | false =>
            right
            exact ⟨rfl, rfl⟩)
    simp only [Function.comp, piece, hF, hG, hs]
    exact this

end

/-! ## Languages -/

/-- The inverse as an FSA, in the order of the arcs of `f`. -/
def outFsa (f : Fsa W) (fa : List Int) : Fsa W :=
  ⟨f.numStates, List.zipWith (fun a u => { a with label := outLabel f a u }) f.arcs fa⟩

theorem invOf_id (f : Fsa W) (fa : List Int) (h : fa.length = f.arcs.length) :
    InvOf f fa (List.zipWith (fun a u => (({ a with label := outLabel f a u } : Arc W), a.label)) f.arcs fa) id id := by
  refine ⟨h, by simp [h], fun _ h => h, fun _ h => h, fun _ _ => rfl, fun _ _ => rfl, ?_⟩
  intro i y hy
  rw [List.getElem?_zipWith] at hy
  cases ha : f.arcs[i]? with
  | none => rw [ha] at hy; simp at hy
  | some a => cases hu : fa[i]? with
    | none => rw [ha, hu] at hy; simp at hy
    | some u => rw [ha, hu] at hy; exact ⟨a, u, ha, hu, (Option.some.inj hy).symm⟩

/-- Along an accepting path of a valid transducer the output labels end with -1, which appears nowhere else. -/
theorem noEps_outs {f : Fsa W} {fa : List Int} (hf : f.Valid) (h : fa.length = f.arcs.length) (is : List Nat)
    (hi : IAccepting f is) : noEps (outs f fa is) = strip (outs f fa is) ++ [-1] := by
  have hI := invOf_id f fa h
  have hacc := hI.accept' is hi
  rw [List.map_id] at hacc
  have hs : (fsaOf f (List.zipWith (fun a u => (({ a with label := outLabel f a u } : Arc W), a.label)) f.arcs fa)).Sorted := by
    have hs := hf.sorted
    unfold Fsa.Sorted at hs ⊢
    rw [List.pairwise_iff_getElem] at hs ⊢
    intro i j hi hj hij
    simp only [fsaOf, List.map_zipWith, List.getElem_zipWith]
    exact hs i j _ _ hij
  have hv := hI.valid hs hf
  obtain ⟨p1, -, -⟩ := hI.path is (fun i hm => by
    have := iaccepting_lt hacc i hm
    simpa [fsaOf] using this)
  rw [List.map_id] at p1
  rw [← p1]
  exact noEps_accepting hv ((accepting_iff _ _).mpr ⟨hf.two, _, map_of_iaccepting hacc, hacc⟩)

theorem strip_noEps (l : List Int) : strip (noEps l) = strip l := by
  unfold strip noEps
  rw [List.filter_filter]
  congr 1
  funext x
  by_cases h : x = 0 <;> simp [h]

theorem strip_of_agree {l l' : List Int} (h : Agree true l l') : strip l = strip l' := by
  have h' : noEps l = noEps l' := h
  rw [← strip_noEps l, h', strip_noEps]

/-- The output labels of a path, without epsilons, are its aux labels without epsilons. -/
theorem strip_outs {f : Fsa W} {fa : List Int} (h : fa.length = f.arcs.length)
    (hfin : ∀ (i : Nat) (a : Arc W) (u : Int), f.arcs[i]? = some a → fa[i]? = some u → a.dst = f.final → u = 0 ∨ u = -1)
    (is : List Nat) (hi : ∀ i ∈ is, i < f.arcs.length) : strip (outs f fa is) = strip (along fa is) := by
  induction is with
  | nil => rfl
  | cons i is ih =>
    have ih := ih (fun j hj => hi j (List.mem_cons_of_mem _ hj))
    have hlt := hi i (by simp)
    have ha := List.getElem?_eq_getElem hlt
    have hu : fa[i]? = some (fa[i]'(by omega)) := List.getElem?_eq_getElem (by omega)
    have e1 : outs f fa (i :: is) = outLabel f f.arcs[i] (fa[i]'(by omega)) :: outs f fa is := by
      unfold outs; rw [List.filterMap_cons, ha, Option.bind_some, hu, Option.map_some]
    have e2 : along fa (i :: is) = (fa[i]'(by omega)) :: along fa is := by
      unfold along; rw [List.filterMap_cons, hu]
    rw [e1, e2]
    have hs : ∀ (x : Int) (l : List Int), strip (x :: l) = strip [x] ++ strip l := by
      intro x l; unfold strip; rw [show x :: l = [x] ++ l from rfl, List.filter_append]
    rw [hs, hs (fa[i]'(by omega)), ih]
    congr 1
    unfold outLabel
    by_cases hd : (f.arcs[i]).dst = f.final
    · rw [if_pos hd]
      rcases hfin i _ _ ha hu hd with h0 | h0 <;> rw [h0] <;> rfl
    · rw [if_neg hd]
      split
      · rename_i h0; rw [h0]; rfl
      · rfl

/-- C93, epsilons treated specially.  The composition maps `x` to `z` exactly if the first transducer maps `x` to some
`y` that the second maps to `z`, and the score is the sum. -/
theorem composition_relates [AddCommMonoid W] {f g c : Fsa W} {fa gb ca ci ma mb : List Int} (hf : f.Valid) (hg : g.Valid)
    (hl : fa.length = f.arcs.length)
    (hfin : ∀ (i : Nat) (a : Arc W) (u : Int), f.arcs[i]? = some a → fa[i]? = some u → a.dst = f.final → u = 0 ∨ u = -1)
    (h : IsComposition true f fa g gb c ca ci ma mb) (x z : List Int) (w : W) :
    Relates c ca x z w ↔ ∃ y w1 w2, Relates f fa x y w1 ∧ Relates g gb y z w2 ∧ w = w1 + w2 := by
  constructor
  · rintro ⟨ks, h1, rfl, rfl, rfl⟩
    obtain ⟨s1, s2, s3, s4, s5, s6, s7⟩ := h.sound ks h1
    refine ⟨_, _, _, ⟨used ma ks, s1, (strip_of_agree s4).symm, rfl, rfl⟩, ⟨used mb ks, s2, ?_, (strip_of_agree s5).symm, rfl⟩, s7⟩
    rw [← strip_outs hl hfin _ (iaccepting_lt s1)]
    exact (strip_of_agree s3).symm
  · rintro ⟨y, w1, w2, ⟨is, h1, rfl, rfl, rfl⟩, ⟨js, h2, h3, rfl, rfl⟩, rfl⟩
    have hag : Agree true (outs f fa is) (labels (arcsAt g js)) := by
      show noEps _ = noEps _
      rw [noEps_outs hf hl is h1, noEps_accepting hg ((accepting_iff g _).mpr ⟨hg.two, _, map_of_iaccepting h2, h2⟩),
        h3, strip_outs hl hfin _ (iaccepting_lt h1)]
    obtain ⟨ks, k1, rfl, rfl⟩ := h.complete is js h1 h2 hag
    obtain ⟨s1, s2, s3, s4, s5, s6, s7⟩ := h.sound ks k1
    exact ⟨ks, k1, strip_of_agree s4, strip_of_agree s5, s7⟩

/-- C93, epsilons as normal symbols: the paths of the composition are the pairs of paths that match, each once. -/
theorem composition_pairs [AddCommMonoid W] {f g c : Fsa W} {fa gb ca ci ma mb : List Int}
    (h : IsComposition false f fa g gb c ca ci ma mb) (is js : List Nat) :
    (IAccepting f is ∧ IAccepting g js ∧ outs f fa is = labels (arcsAt g js)) ↔
      ∃! ks, IAccepting c ks ∧ used ma ks = is ∧ used mb ks = js := by
  have hcast : ∀ k, k < c.arcs.length → (∃ i : Nat, ma[k]? = some (i : Int)) ∧ ∃ j : Nat, mb[k]? = some (j : Int) := by
    intro k hk
    obtain ⟨a, b, o, n, h1, h2, -, -, h3⟩ := h.arcs k _ (List.getElem?_eq_getElem hk)
    rcases h3 with ⟨i, j, x, y, u, v, rfl, rfl, _⟩ | ⟨he, _⟩ | ⟨he, _⟩
    · exact ⟨⟨i, h1⟩, ⟨j, h2⟩⟩
    · cases he
    · cases he
  have hused : ∀ (m : List Int) (ks : List Nat), (∀ k ∈ ks, ∃ i : Nat, m[k]? = some (i : Int)) →
      ks.map (fun k => m[k]?) = (used m ks).map (fun i : Nat => some (i : Int)) := by
    intro m ks
    induction ks with
    | nil => intro _; rfl
    | cons k ks ih =>
      intro hm
      obtain ⟨i, hi⟩ := hm k (by simp)
      have e : used m (k :: ks) = i :: used m ks := by
        unfold used; rw [List.filterMap_cons, hi]
        simp only [Option.bind_some]
        rw [if_neg (by omega)]; rfl
      rw [e, List.map_cons, List.map_cons, hi, ih (fun k hk => hm k (List.mem_cons_of_mem _ hk))]
  constructor
  · rintro ⟨h1, h2, h3⟩
    obtain ⟨ks, k1, k2, k3⟩ := h.complete is js h1 h2 h3
    refine ⟨ks, ⟨k1, k2, k3⟩, ?_⟩
    rintro ks' ⟨k1', k2', k3'⟩
    apply h.unique ks' ks k1' k1
    · rw [hused ma ks' (fun k hk => (hcast k (iaccepting_lt k1' k hk)).1), hused ma ks (fun k hk => (hcast k (iaccepting_lt k1 k hk)).1), k2, k2']
    · rw [hused mb ks' (fun k hk => (hcast k (iaccepting_lt k1' k hk)).2), hused mb ks (fun k hk => (hcast k (iaccepting_lt k1 k hk)).2), k3, k3']
  · rintro ⟨ks, ⟨k1, rfl, rfl⟩, _⟩
    obtain ⟨s1, s2, s3, -⟩ := h.sound ks k1
    exact ⟨s1, s2, s3⟩

/-! ## Examples and witnesses -/

/-- A transducer that maps 1 2 to 5 6, with an epsilon, and 1 to 5. -/
def exA : TRows Int := [[(⟨0, 1, 1, 10⟩, 5)], [(⟨1, 2, 2, 3⟩, 6), (⟨1, 3, -1, 7⟩, 0), (⟨1, 1, 0, 2⟩, 0)], [(⟨2, 3, -1, 4⟩, -1)], []]
/-- A transducer that maps 5 6 to 8. -/
def exB : TRows Int := [[(⟨0, 1, 5, 100⟩, 8)], [(⟨1, 2, 6, 200⟩, 0)], [(⟨2, 3, -1, 300⟩, -1)], []]

theorem exA_left : Left exA := by
  refine ⟨?_, by decide, by decide, by decide, by decide⟩
  intro s row hs a ha
  have : s < 4 := (List.getElem?_eq_some_iff.mp hs).1
  interval_cases s <;> (cases hs; revert a; decide)

theorem exB_input : Input (arcsOf exB) := by
  refine ⟨?_, by unfold RowSorted; decide, by unfold Int32; decide, by decide, by decide⟩
  intro s row hs a ha
  have : s < 4 := (List.getElem?_eq_some_iff.mp hs).1
  interval_cases s <;> (cases hs; revert a; decide)

theorem exB_order : InOrder (arcsOf exB) := by unfold InOrder; decide

theorem exA_prep : ([exA].mapM invertRows).map (fun l => l.map sortRows) =
    some [[[(⟨0, 1, 5, 10⟩, 1)], [(⟨1, 1, 0, 2⟩, 0), (⟨1, 2, 6, 3⟩, 2), (⟨1, 3, -1, 7⟩, -1)], [(⟨2, 3, -1, 4⟩, -1)], []]] := by
  have h : [exA].mapM invertRows = some [[[(⟨0, 1, 5, 10⟩, 1)], [(⟨1, 2, 6, 3⟩, 2), (⟨1, 3, -1, 7⟩, -1), (⟨1, 1, 0, 2⟩, 0)],
      [(⟨2, 3, -1, 4⟩, -1)], []]] := by decide +kernel
  rw [h]
  simp [sortRows, List.mergeSort, List.MergeSort.Internal.splitInTwo, List.merge, arcLess, u32]

/-- The theorem applies to these transducers, and the result is not trivial: the path with the labels 1 2 and the
output 8. -/
theorem ex_compose :
    (∃ C : List (Piece Int), C.length = 1 ∧ compose true true true [exA] [exB] = some ⟨flat (C.map Piece.rows),
      (C.map Piece.aux).flatten, some (C.map Piece.inner).flatten⟩) ∧
    (compose true true true [exA] [exB]).map (fun r => (r.fsa.arcs.map Arc.label, r.aux, r.inner, r.fsa.arcs.map Arc.score)) =
      some ([1, 0, 2, -1], [8, 0, 0, -1], some [5, 0, 6, -1], [110, 2, 203, 304]) := by
  constructor
  · obtain ⟨C, h1, h2, _⟩ := compose_correct true true true [exA] [exB] (by simp) (by simp) (Or.inl rfl)
      (by simpa using exA_left) (by simpa using exB_input) (by simpa using exB_order) (fun _ => rfl) (fun _ => ⟨by decide, by decide⟩)
    exact ⟨C, h1, h2⟩
  · unfold compose
    rw [exA_prep]
    decide +kernel

/-- Without aux labels of the second input the matched labels become the aux labels. -/
theorem ex_acceptor : (compose true false false [exA] [exB]).map (fun r => (r.fsa.arcs.map Arc.label, r.aux, r.inner)) =
    some ([1, 0, 2, -1], [5, 0, 6, -1], none) := by
  unfold compose
  rw [exA_prep]
  decide +kernel

/-- `inner_labels` raises an exception if the second input has no aux labels. -/
theorem inner_needs_aux [AddCommMonoid W] (eps : Bool) (Ta Tb : List (TRows W)) : compose eps false true Ta Tb = none := by
  unfold compose
  cases (Ta.mapM invertRows).map (fun l => l.map sortRows) with
  | none => rfl
  | some a =>
    simp only [Option.bind_eq_bind, Option.bind_some]
    split
    · rfl
    · cases intersect (flat (a.map arcsOf)) (flat (Tb.map arcsOf)) eps with
      | none => rfl
      | some r =>
        obtain ⟨v, ma, mb⟩ := r
        simp only [Option.bind_some]
        cases gather (attrOf (fun x => x.1.score) a) ma 0 v.arcs.length <;> [rfl; skip]
        cases gather (attrOf (fun x => x.1.score) Tb) mb 0 v.arcs.length <;> [rfl; skip]
        cases gather (attrOf Prod.snd a) ma 0 v.arcs.length <;> [rfl; skip]
        cases outAttr false (attrOf Prod.snd Tb) mb (v.arcs.map Arc.label) <;> rfl

/-- A valid transducer without arcs and one with an epsilon arc. -/
def noArcs : TRows Int := [[], []]
def oneEps : TRows Int := [[(⟨0, 1, 0, 0⟩, 0)], [], []]

/-- If the first input has no arcs at all, an epsilon arc of the second input makes `compose` raise an exception: the
intersection has an arc but `index_select` returns nothing from empty attributes. -/
theorem no_arcs_raises : Left noArcs ∧ Input (arcsOf oneEps) ∧ InOrder (arcsOf oneEps) ∧
    (rowsFsa (arcsOf noArcs)).Valid ∧ (rowsFsa (arcsOf oneEps)).Valid ∧
    compose true true false [noArcs] [oneEps] = none ∧ (compose false true false [noArcs] [oneEps]).isSome := by
  refine ⟨⟨?_, by decide, by decide, by decide, by decide⟩,
    ⟨?_, by unfold RowSorted; decide, by unfold Int32; decide, by decide, by decide⟩, by unfold InOrder; decide, ?_, ?_, by decide +kernel, by decide +kernel⟩
  · intro s row hs a ha
    have : s < 2 := (List.getElem?_eq_some_iff.mp hs).1
    interval_cases s <;> (cases hs; cases ha)
  · intro s row hs a ha
    have : s < 3 := (List.getElem?_eq_some_iff.mp hs).1
    interval_cases s <;> (cases hs; revert a; decide)
  · exact ⟨by decide, List.Pairwise.nil, by decide, by decide, by decide⟩
  · exact ⟨by decide, List.pairwise_singleton _ _, by decide, by decide, by decide⟩

end Verif.Fsa.Comp
