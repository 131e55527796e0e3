import Verif.Fsa.Device.Result
import Mathlib.Algebra.Group.Int.Defs

/-!
# C104: `IntersectDevice`
-/

namespace Verif.Fsa.Idv
open Verif.Ragged Verif.Util Verif.Fsa.Top Verif.Fsa.Isect
variable {W : Type}

theorem isIntersection_empty [AddCommMonoid W] (f g : List (List (Arc W))) (h : f = [] ∨ g = []) :
    IsIntersection false (rowsFsa f) (rowsFsa g) (rowsFsa ([] : List (List (Arc W)))) [] [] := by
  have hno : ∀ js, ¬ IAccepting (rowsFsa ([] : List (List (Arc W)))) js := by
    intro js hj
    have := hj.1
    simp [rowsFsa] at this
  have hv : ¬ (rowsFsa ([] : List (List (Arc W)))).Valid := by
    intro hv
    have := hv.two
    simp [rowsFsa] at this
  refine ⟨rfl, rfl, ?_, ?_, ?_, ?_, ?_⟩
  · intro k z hz
    simp [rowsFsa] at hz
  · intro js hj
    exact absurd hj (hno js)
  · intro is js h1 h2 _
    rcases h with rfl | rfl
    · exact absurd h1 (hno is)
    · exact absurd h2 (hno js)
  · intro ks ks' hk
    exact absurd hk (hno ks)
  · intro h1 h2
    rcases h with rfl | rfl
    · exact absurd h1 hv
    · exact absurd h2 hv

theorem foldl_max_lt (l : List Nat) (m n : Nat) (hm : m < n) (h : ∀ x ∈ l, x < n) : l.foldl max m < n := by
  induction l generalizing m with
  | nil => exact hm
  | cons x l ih =>
    rw [List.foldl_cons]
    apply ih
    · have := h x (by simp)
      omega
    · intro y hy
      exact h y (List.mem_cons_of_mem _ hy)

theorem ints_join {X : Type} [AddCommMonoid W] (T : List (List (List (Arc W)))) (n : Nat) (b : Nat → Nat) (val : Nat → X)
    (get : X → Nat) (L : Nat → List Nat) (hb : ∀ i < n, ∀ k ∈ L i, b i ≤ get (val k)) :
    ints ((((List.range n).map (fun i => (L i).map val)).flatten).map get) =
      joinShift ((List.range n).map b) ((List.range n).map (fun i => ints ((L i).map (fun k => get (val k) - b i)))) := by
  unfold joinShift ints
  rw [List.map_flatten, List.map_flatten, List.map_map, List.map_map, List.zipWith_map, List.zipWith_self]
  congr 1
  apply List.map_congr_left
  intro i hi
  simp only [Function.comp_apply, shiftMap, List.map_map]
  apply List.map_congr_left
  intro k hk
  have := hb i (List.mem_range.mp hi) k hk
  simp only [Function.comp_apply]
  rw [if_pos (by omega)]
  omega

/-- **C104**: `IntersectDevice` returns for every FSA of `b` the intersection with the FSA of `a` that
`b_to_a_map` names, in whatever order the threads enter the states into the hash, on both devices and with
both values of `sorted_match_a`; the arc maps name the arcs of the two vectors.  All states but the last one
are reached from the first one.  If the arcs that match go from one level of pairs to the next one, as they do
when `a` is a lattice with one step for each frame, the result is topologically sorted. -/
theorem intersect_device_correct [AddCommMonoid W] (Ta Tb : List (List (List (Arc W)))) (p : Args W)
    (hc : Ctx Ta Tb p) (hne : Ta ≠ []) (order : Nat → Nat → List Nat) (ho : ∀ t n, (order t n).Perm (List.range n)) :
    ∃ (R : List (List (List (Arc W)) × List Int × List Int)) (ma mb : List Nat),
      R.length = Tb.length ∧
      intersectDevice p order = some (flat (R.map Prod.fst), ma, mb) ∧
      ints ma = joinShift ((List.range R.length).map (fun i => base Ta (p.map.getD i 0))) (R.map (fun x => x.2.1)) ∧
      ints mb = joinShift ((List.range R.length).map (fun i => base Tb i)) (R.map (fun x => x.2.2)) ∧
      ∀ (i : Nat) (x : List (List (Arc W)) × List Int × List Int), R[i]? = some x →
        ∃ j f g, p.map[i]? = some j ∧ Ta[j]? = some f ∧ Tb[i]? = some g ∧ RowsOk x.1 ∧
          IsIntersection false (rowsFsa f) (rowsFsa g) (rowsFsa x.1) x.2.1 x.2.2 ∧
          ((f = [] ∨ g = []) ↔ x.1 = []) ∧
          (∀ t, t + 1 < x.1.length → ∃ ks, IPath (rowsFsa x.1).arcs 0 ks t) ∧
          ∀ lev : Nat × Nat → Nat, lev (0, 0) = 0 → (∀ y ∈ f.flatten, ∀ z ∈ g.flatten, y.label = z.label →
            y.label ≠ -1 → lev (y.dst, z.dst) = lev (y.src, z.src) + 1) → ∀ a ∈ x.1.flatten, a.src < a.dst := by
  obtain ⟨s1, B, h1, h2⟩ := hc.forward order ho ((lives Ta Tb p).map (startOf Ta Tb p)) p.fuel 0 _ []
    ((lives Ta Tb p).map (startOf Ta Tb p)) rfl hc.start (fun _ => by rw [Args.fuel]; omega) (fun _ => by
      rw [Args.fuel, hc.a]
      have : (flat Ta).sp2.length - 1 = Ta.flatten.length := by
        rw [flat, psum_length, List.length_map]; rfl
      rw [this]
      simp)
  obtain ⟨s, h3, hd⟩ := hc.last s1 B h2
  have h4 := format_eq hc hd.whole
  have hdev : intersectDevice p order = some (flat ((outVec Tb p s).map arcsOnly),
      (outVec Tb p s).flatten.flatten.map (fun x => x.2.1), (outVec Tb p s).flatten.flatten.map (fun x => x.2.2)) := by
    unfold intersectDevice
    rw [if_pos]
    · simp only [hc.firstIter, Option.bind_eq_bind, Option.bind_some, h1, h3, h4]
    · refine ⟨by rw [hc.mapLen, hc.fsas], ?_⟩
      rw [hc.a, flat_sp1_length, Nat.add_sub_cancel]
      exact foldl_max_lt _ _ _ (List.length_pos_of_ne_nil hne) hc.mapLt
  have hrows : (outVec Tb p s).flatten.flatten =
      ((List.range Tb.length).map (fun i => (fsaArcs Tb s i).map (val Tb p s))).flatten := by
    rw [List.flatten_flatten, outVec, List.map_map]
    congr 1
    apply List.map_congr_left
    intro i _
    exact outRows_flatten i
  refine ⟨(List.range Tb.length).map (fun i => (arcsOnly (outRows Tb p s i),
    ints (mapA Ta Tb p s i (p.map.getD i 0)), ints (mapB Tb p s i))), (outVec Tb p s).flatten.flatten.map (fun x => x.2.1),
    (outVec Tb p s).flatten.flatten.map (fun x => x.2.2), by simp, ?_, ?_, ?_, ?_⟩
  · rw [hdev, outVec, List.map_map, List.map_map]
    rfl
  · rw [hrows, ints_join Ta Tb.length (fun i => base Ta (p.map.getD i 0)) (val Tb p s) (fun x => x.2.1)
      (fsaArcs Tb s), List.length_map, List.length_range, List.map_map]
    · rfl
    · intro i hi k hk
      obtain ⟨j, f, g, e1, e2, e3, e4, e5, e6⟩ := hc.pos i hi
      obtain ⟨c, k1, k2⟩ := (mem_fsaArcs hd.whole i k).mp hk
      obtain ⟨i0, j0, x, y, dst, g1, -⟩ := hd.arc hc e1 e3 e5 k1 k2
      rw [g1, e2]
      simp
  · rw [hrows, ints_join Tb Tb.length (fun i => base Tb i) (val Tb p s) (fun x => x.2.2)
      (fsaArcs Tb s), List.length_map, List.length_range, List.map_map]
    · rfl
    · intro i hi k hk
      obtain ⟨j, f, g, e1, e2, e3, e4, e5, e6⟩ := hc.pos i hi
      obtain ⟨c, k1, k2⟩ := (mem_fsaArcs hd.whole i k).mp hk
      obtain ⟨i0, j0, x, y, dst, g1, -⟩ := hd.arc hc e1 e3 e5 k1 k2
      rw [g1]
      simp
  · intro i x hx
    rw [List.getElem?_map] at hx
    obtain ⟨i', hi', rfl⟩ := Option.map_eq_some_iff.mp hx
    obtain ⟨hlt, e0⟩ := List.getElem?_eq_some_iff.mp hi'
    rw [List.getElem_range] at e0
    subst e0
    obtain ⟨j, f, g, e1, e2, e3, e4, e5, e6⟩ := hc.pos i (by simpa using hlt)
    refine ⟨j, f, g, e1, e3, e5, hd.rowsOk hc e1 e3 e5, ?_⟩
    simp only
    rw [e2]
    by_cases h0 : f = [] ∨ g = []
    · have hg := hd.empty e1 e3 e5 h0
      have r1 : arcsOnly (outRows Tb p s i) = [] := by rw [outRows, hg]; rfl
      have r2 : fsaArcs Tb s i = [] := by rw [fsaArcs, hg]; rfl
      have r3 : mapA Ta Tb p s i j = [] := by rw [mapA, r2]; rfl
      have r4 : mapB Tb p s i = [] := by rw [mapB, r2]; rfl
      rw [r1, r3, r4]
      refine ⟨isIntersection_empty f g h0, by simp [h0], ?_, ?_⟩
      · intro t ht
        simp at ht
      · intro lev _ _ a ha
        simp at ha
    · have hf0 : f ≠ [] := fun h => h0 (Or.inl h)
      have hg0 : g ≠ [] := fun h => h0 (Or.inr h)
      have hcov := hd.covers hc e1 e3 e5 hf0 hg0
      have hlen : (arcsOnly (outRows Tb p s i)).length = (gr Tb s i).length := by simp [arcsOnly, outRows]
      refine ⟨hcov.isIntersection (hc.validA f (List.mem_of_getElem? e3) hf0) (hc.validB g (List.mem_of_getElem? e5) hg0),
        ?_, ?_, fun lev l0 l1 => hd.ahead hc e1 e3 e5 lev l0 l1⟩
      · have : arcsOnly (outRows Tb p s i) ≠ [] := by
          intro he
          have h2 := hcov.two
          have h3 := hcov.size
          rw [he] at h3
          simp only [rowsFsa, List.length_nil] at h3
          omega
        simp [h0, this]
      · intro t ht
        rw [hlen] at ht
        exact hd.reach hc e1 e3 e5 hf0 hg0 _ t _ (le_refl _) (List.getElem?_eq_getElem (by omega)) ht

/-! ## Cases -/

/-- `a`: an FSA with two arcs for label 1, a loop and a final arc; an empty FSA. -/
def exA : List (List (List (Arc Int))) :=
  [[[⟨0, 1, 1, 5⟩, ⟨0, 0, 1, 7⟩, ⟨0, 1, 2, 1⟩], [⟨1, 2, -1, 2⟩], []], []]

/-- `b`: 1 1 and 1 2 as one FSA; an empty FSA; 2. -/
def exB : List (List (List (Arc Int))) :=
  [[[⟨0, 1, 1, 10⟩], [⟨1, 2, 1, 20⟩, ⟨1, 2, 2, 30⟩], [⟨2, 3, -1, 40⟩], []], [], [[⟨0, 1, 2, 3⟩], [⟨1, 2, -1, 4⟩], []]]

def exArgs (sorted gpu : Bool) : Args Int := ⟨flat exA, flat exB, [0, 0, 0], sorted, gpu⟩

theorem exCtx (sorted gpu : Bool) : Ctx exA exB (exArgs sorted gpu) := by
  refine ⟨rfl, rfl, ?_, ?_, ?_, ?_, ?_, ?_, ?_, rfl, ?_⟩
  · intro f hf
    simp only [exA, List.mem_cons, List.not_mem_nil, or_false] at hf
    rcases hf with rfl | rfl <;> intro s row hs a ha <;>
      (rcases s with _ | _ | _ | s <;> simp at hs <;> subst hs <;> simp at ha <;>
        first | (rcases ha with rfl | rfl | rfl <;> simp) | (subst ha; simp))
  · intro f hf
    simp only [exB, List.mem_cons, List.not_mem_nil, or_false] at hf
    rcases hf with rfl | rfl | rfl <;> intro s row hs a ha <;>
      (rcases s with _ | _ | _ | _ | s <;> simp at hs <;> subst hs <;> simp at ha <;>
        first | (rcases ha with rfl | rfl <;> simp) | (subst ha; simp))
  · intro f hf hne
    simp only [exA, List.mem_cons, List.not_mem_nil, or_false] at hf
    rcases hf with rfl | rfl
    · refine ⟨by decide, by unfold Fsa.Sorted; decide, by decide, by decide, by decide⟩
    · exact absurd rfl hne
  · intro f hf hne
    simp only [exB, List.mem_cons, List.not_mem_nil, or_false] at hf
    rcases hf with rfl | rfl | rfl
    · refine ⟨by decide, by unfold Fsa.Sorted; decide, by decide, by decide, by decide⟩
    · exact absurd rfl hne
    · refine ⟨by decide, by unfold Fsa.Sorted; decide, by decide, by decide, by decide⟩
  · unfold Int32; decide
  · unfold Int32; decide
  · intro _
    unfold RowSorted
    decide
  · show ∀ j ∈ [0, 0, 0], j < exA.length
    decide

/-- The threads insert in the order of their numbers. -/
def exOrder (_ n : Nat) : List Nat := List.range n

/-- In the reverse order. -/
def exReverse (_ n : Nat) : List Nat := (List.range n).reverse

example : ∃ R ma mb, R.length = exB.length ∧ intersectDevice (exArgs true true) exReverse = some (flat R, ma, mb) := by
  obtain ⟨R, ma, mb, h1, h2, -⟩ := intersect_device_correct exA exB (exArgs true true) (exCtx true true) (by decide)
    exReverse (fun t n => List.reverse_perm _)
  exact ⟨R.map Prod.fst, ma, mb, by simpa using h1, h2⟩

/-- The order of the insertions decides how the states are numbered. -/
example : (intersectDevice (exArgs false false) exOrder).map (fun r => (r.1.sp1, r.1.arcs, r.2)) =
    some ([0, 6, 6, 9], [⟨0, 1, 1, 15⟩, ⟨0, 2, 1, 17⟩, ⟨2, 3, 1, 25⟩, ⟨2, 4, 1, 27⟩, ⟨2, 3, 2, 31⟩, ⟨3, 5, -1, 42⟩,
      ⟨0, 1, 2, 4⟩, ⟨1, 2, -1, 6⟩], [0, 1, 0, 1, 2, 3, 2, 3], [0, 0, 1, 1, 2, 3, 4, 5]) := by
  decide +kernel

example : (intersectDevice (exArgs true true) exReverse).map (fun r => (r.1.sp1, r.1.arcs, r.2)) =
    some ([0, 6, 6, 9], [⟨0, 1, 1, 15⟩, ⟨0, 2, 1, 17⟩, ⟨2, 4, 1, 25⟩, ⟨2, 3, 1, 27⟩, ⟨2, 4, 2, 31⟩, ⟨4, 5, -1, 42⟩,
      ⟨0, 1, 2, 4⟩, ⟨1, 2, -1, 6⟩], [0, 1, 0, 1, 2, 3, 2, 3], [0, 0, 1, 1, 2, 3, 4, 5]) := by
  decide +kernel

end Verif.Fsa.Idv
