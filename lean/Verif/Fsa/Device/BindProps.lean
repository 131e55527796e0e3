import Verif.Fsa.Device.Props
import Verif.Fsa.Device.BindModel
import Verif.Fsa.Intersect.Props

/-!
# C105: `intersect` on the two devices
-/

namespace Verif.Fsa.Idv
open Verif.Ragged Verif.Util Verif.Fsa.Top Verif.Fsa.Isect
variable {W : Type}

/-- What both ways of computing the intersection need. -/
structure Both (Ta Tb : List (List (List (Arc W)))) : Prop where
  neA : Ta ≠ []
  neB : Tb ≠ []
  inA : ∀ f ∈ Ta, Input f
  inB : ∀ f ∈ Tb, Input f
  validA : ∀ f ∈ Ta, f ≠ [] → (rowsFsa f).Valid
  validB : ∀ f ∈ Tb, f ≠ [] → (rowsFsa f).Valid

theorem Both.ctx {Ta Tb : List (List (List (Arc W)))} (h : Both Ta Tb) (hn : Ta.length = 1 ∨ Tb.length ≤ Ta.length)
    (sorted gpu : Bool) : Ctx Ta Tb ⟨flat Ta, flat Tb, bToA Ta.length Tb.length, sorted, gpu⟩ := by
  refine ⟨rfl, rfl, fun f hf => (h.inA f hf).ok, fun f hf => (h.inB f hf).ok, h.validA, h.validB,
    fun f hf => (h.inA f hf).labels, fun f hf => (h.inB f hf).labels, fun _ f hf => (h.inA f hf).sorted, ?_, ?_⟩
  · unfold bToA
    split <;> simp
  · intro j hj
    have h1 := List.length_pos_of_ne_nil h.neA
    unfold bToA at hj
    split at hj
    · obtain ⟨-, rfl⟩ := List.mem_replicate.mp hj
      exact h1
    · have := List.mem_range.mp hj
      rcases hn with hn | hn
      · contradiction
      · omega

/-- On the GPU the result has as many FSAs as `b`.  FSA `i` is the intersection with FSA `i` of `a`, or with its
only FSA. -/
theorem intersect_gpu [AddCommMonoid W] (Ta Tb : List (List (List (Arc W)))) (h : Both Ta Tb)
    (hn : Ta.length = 1 ∨ Tb.length ≤ Ta.length) (sortedA : Bool)
    (order : Nat → Nat → List Nat) (ho : ∀ t n, (order t n).Perm (List.range n)) :
    ∃ R : List (List (List (Arc W)) × List Int × List Int),
      R.length = Tb.length ∧
      intersectAny true false sortedA (flat Ta) (flat Tb) order = some (flat (R.map Prod.fst),
        joinShift ((List.range R.length).map (fun i => base Ta (pick Ta i))) (R.map (fun x => x.2.1)),
        joinShift ((List.range R.length).map (fun i => base Tb i)) (R.map (fun x => x.2.2))) ∧
      ∀ (i : Nat) (x : List (List (Arc W)) × List Int × List Int), R[i]? = some x →
        ∃ f g, Ta[pick Ta i]? = some f ∧ Tb[i]? = some g ∧ RowsOk x.1 ∧
          IsIntersection false (rowsFsa f) (rowsFsa g) (rowsFsa x.1) x.2.1 x.2.2 := by
  have hc := h.ctx hn sortedA true
  obtain ⟨R, ma, mb, h1, h2, h3, h4, h5⟩ := intersect_device_correct Ta Tb _ hc h.neA order ho
  have hpick : ∀ i, i < Tb.length → (bToA Ta.length Tb.length)[i]? = some (Isect.pick Ta i) := by
    intro i hi
    unfold bToA Isect.pick
    split
    · rw [List.getElem?_replicate, if_pos hi]
    · rw [List.getElem?_range hi]
  refine ⟨R, h1, ?_, ?_⟩
  · unfold intersectAny
    rw [if_pos ⟨rfl, rfl⟩, flat_sp1_length, flat_sp1_length, Nat.add_sub_cancel, Nat.add_sub_cancel, h2, Option.map_some]
    unfold ints at h3 h4
    simp only [h3, h4]
    congr 4
    apply List.map_congr_left
    intro i hi
    have := hpick i (by rw [← h1]; exact List.mem_range.mp hi)
    rw [List.getD_eq_getElem?_getD, this]
    rfl
  · intro i x hx
    obtain ⟨j, f, g, e1, e2, e3, e4, e5, -⟩ := h5 i x hx
    have hi : i < Tb.length := by rw [← h1]; exact (List.getElem?_eq_some_iff.mp hx).1
    rw [hpick i hi] at e1
    obtain rfl := Option.some.inj e1
    exact ⟨f, g, e2, e3, e4, e5⟩

theorem accepts_empty [AddCommMonoid W] {f g c : Fsa W} {ma mb : List Int} (h : IsIntersection false f g c ma mb)
    (h0 : ¬ 2 ≤ f.numStates ∨ ¬ 2 ≤ g.numStates) (h1 : f.numStates ≠ 1) (h2 : g.numStates ≠ 1) (l : List Int) (w : W) :
    ¬ AcceptsLabels c l w := by
  rintro ⟨q, hq, -, -⟩
  obtain ⟨-, js, -, hj⟩ := (accepting_iff c q).mp hq
  obtain ⟨k1, k2, -⟩ := h.sound js hj
  have := k1.1
  have := k2.1
  omega

/-- Two intersections of the same FSAs accept the same. -/
theorem same_language [AddCommMonoid W] {f g : List (List (Arc W))} {c d : Fsa W} {ma mb ma' mb' : List Int}
    (hf : f ≠ [] → (rowsFsa f).Valid) (hg : g ≠ [] → (rowsFsa g).Valid)
    (h : IsIntersection false (rowsFsa f) (rowsFsa g) c ma mb) (h' : IsIntersection false (rowsFsa f) (rowsFsa g) d ma' mb')
    (l : List Int) (w : W) : AcceptsLabels c l w ↔ AcceptsLabels d l w := by
  by_cases h0 : f = [] ∨ g = []
  · have hs : ∀ f : List (List (Arc W)), (f ≠ [] → (rowsFsa f).Valid) → (rowsFsa f).numStates ≠ 1 := by
      intro f hf
      by_cases h : f = []
      · subst h
        simp [rowsFsa]
      · have := (hf h).two
        omega
    have hz : ¬ 2 ≤ (rowsFsa f).numStates ∨ ¬ 2 ≤ (rowsFsa g).numStates := by
      rcases h0 with rfl | rfl
      · left; simp [rowsFsa]
      · right; simp [rowsFsa]
    constructor
    · intro hx
      exact absurd hx (accepts_empty h hz (hs f hf) (hs g hg) l w)
    · intro hx
      exact absurd hx (accepts_empty h' hz (hs f hf) (hs g hg) l w)
  · rw [intersection_accepts_literal (hf fun e => h0 (Or.inl e)) (hg fun e => h0 (Or.inr e)) h,
      intersection_accepts_literal (hf fun e => h0 (Or.inl e)) (hg fun e => h0 (Or.inr e)) h']

/-- **C105**, if `a` has one FSA or as many as `b`: on both devices `intersect` returns as many FSAs, and they
accept the same label sequences with the same scores.  Missing: several FSAs in `a` and one in `b`, for which
it is false (`intersect_gpu_no_broadcast`). -/
theorem intersect_devices_partial [AddCommMonoid W] (Ta Tb : List (List (List (Arc W)))) (h : Both Ta Tb)
    (hn : Ta.length = 1 ∨ Ta.length = Tb.length) (sortedA : Bool)
    (order : Nat → Nat → List Nat) (ho : ∀ t n, (order t n).Perm (List.range n)) :
    ∃ (R S : List (List (List (Arc W)))) (ma mb ma' mb' : List Int),
      intersectAny true false sortedA (flat Ta) (flat Tb) order = some (flat R, ma, mb) ∧
      intersectAny false false sortedA (flat Ta) (flat Tb) order = some (flat S, ma', mb') ∧
      R.length = S.length ∧
      ∀ (i : Nat) (c d : List (List (Arc W))), R[i]? = some c → S[i]? = some d →
        ∀ l w, AcceptsLabels (rowsFsa c) l w ↔ AcceptsLabels (rowsFsa d) l w := by
  obtain ⟨R, h1, h2, h3⟩ := intersect_gpu Ta Tb h (by omega) sortedA order ho
  obtain ⟨S, k1, k2, k3⟩ := intersect_correct false Ta Tb h.neA h.neB (by omega) h.inA h.inB
  have k4 : intersectAny false false sortedA (flat Ta) (flat Tb) order = Isect.intersect (flat Ta) (flat Tb) false := by
    unfold intersectAny
    rw [if_neg (by simp), if_neg (by simp)]
  rw [← k4] at k2
  have hb := List.length_pos_of_ne_nil h.neB
  have hlen : R.length = S.length := by omega
  refine ⟨R.map Prod.fst, S.map Prod.fst, _, _, _, _, h2, k2, by simp [hlen], ?_⟩
  · intro i c d hc hd l w
    rw [List.getElem?_map] at hc hd
    obtain ⟨x, hx, rfl⟩ := Option.map_eq_some_iff.mp hc
    obtain ⟨y, hy, rfl⟩ := Option.map_eq_some_iff.mp hd
    obtain ⟨f, g, e1, e2, -, e3⟩ := h3 i x hx
    obtain ⟨f', g', e1', e2', -, e3'⟩ := k3 i y hy
    have hi : i < Tb.length := by rw [← h1]; exact (List.getElem?_eq_some_iff.mp hx).1
    have hpb : Isect.pick Tb i = i := by
      unfold Isect.pick
      split
      · omega
      · rfl
    rw [hpb, e2] at e2'
    rw [e1] at e1'
    obtain rfl := Option.some.inj e1'
    obtain rfl := Option.some.inj e2'
    exact same_language (h.validA f (List.mem_of_getElem? e1)) (h.validB g (List.mem_of_getElem? e2)) e3 e3' l w

/-- Several FSAs in `a` and one in `b`: on the CPU one FSA per FSA of `a` is returned, on the GPU only the
intersection with the first one. -/
theorem intersect_gpu_no_broadcast [AddCommMonoid W] (Ta Tb : List (List (List (Arc W)))) (h : Both Ta Tb)
    (ha : 2 ≤ Ta.length) (hb : Tb.length = 1) (sortedA : Bool)
    (order : Nat → Nat → List Nat) (ho : ∀ t n, (order t n).Perm (List.range n)) :
    ∃ (R S : List (List (List (Arc W)))) (ma mb ma' mb' : List Int),
      intersectAny true false sortedA (flat Ta) (flat Tb) order = some (flat R, ma, mb) ∧
      intersectAny false false sortedA (flat Ta) (flat Tb) order = some (flat S, ma', mb') ∧
      R.length = 1 ∧ S.length = Ta.length := by
  obtain ⟨R, h1, h2, -⟩ := intersect_gpu Ta Tb h (by omega) sortedA order ho
  obtain ⟨S, k1, k2, -⟩ := intersect_correct false Ta Tb h.neA h.neB (by omega) h.inA h.inB
  have k4 : intersectAny false false sortedA (flat Ta) (flat Tb) order = Isect.intersect (flat Ta) (flat Tb) false := by
    unfold intersectAny
    rw [if_neg (by simp), if_neg (by simp)]
  rw [← k4] at k2
  refine ⟨R.map Prod.fst, S.map Prod.fst, _, _, _, _, h2, k2, by simp [h1, hb], ?_⟩
  · rw [List.length_map, k1]
    omega

/-- Different numbers of FSAs, both more than one: the CPU refuses, the GPU leaves out the last FSAs of `a`. -/
theorem intersect_gpu_mismatch [AddCommMonoid W] (Ta Tb : List (List (List (Arc W)))) (h : Both Ta Tb)
    (hb : 2 ≤ Tb.length) (hn : Tb.length < Ta.length) (sortedA : Bool)
    (order : Nat → Nat → List Nat) (ho : ∀ t n, (order t n).Perm (List.range n)) :
    (∃ (R : List (List (List (Arc W)))) (ma mb : List Int), R.length = Tb.length ∧
      intersectAny true false sortedA (flat Ta) (flat Tb) order = some (flat R, ma, mb)) ∧
    intersectAny false false sortedA (flat Ta) (flat Tb) order = none := by
  obtain ⟨R, h1, h2, -⟩ := intersect_gpu Ta Tb h (by omega) sortedA order ho
  refine ⟨⟨R.map Prod.fst, _, _, by simp [h1], h2⟩, ?_⟩
  unfold intersectAny
  rw [if_neg (by simp), if_neg (by simp)]
  unfold Isect.intersect
  simp only [flat_sp1_length, Nat.add_sub_cancel]
  rw [if_neg (by omega)]
  have : strides Ta.length Tb.length = none := by
    unfold strides
    rw [if_neg (by omega), if_neg (by omega), if_neg (by omega)]
  rw [this]
  rfl

/-! ## Cases -/

/-- 1 | 2 and 2, in this order. -/
def exTwo : List (List (List (Arc Int))) :=
  [[[⟨0, 1, 1, 5⟩, ⟨0, 1, 2, 7⟩], [⟨1, 2, -1, 2⟩], []], [[⟨0, 1, 2, 3⟩], [⟨1, 2, -1, 4⟩], []]]

/-- 2 -/
def exOne : List (List (List (Arc Int))) := [[[⟨0, 1, 2, 3⟩], [⟨1, 2, -1, 4⟩], []]]

theorem exBoth : Both exTwo exOne := by
  refine ⟨by decide, by decide, ?_, ?_, ?_, ?_⟩
  · intro f hf
    simp only [exTwo, List.mem_cons, List.not_mem_nil, or_false] at hf
    rcases hf with rfl | rfl <;> exact input_of_check _ (by decide) (by decide) (by decide)
  · intro f hf
    simp only [exOne, List.mem_cons, List.not_mem_nil, or_false] at hf
    subst hf
    exact input_of_check _ (by decide) (by decide) (by decide)
  · intro f hf hne
    simp only [exTwo, List.mem_cons, List.not_mem_nil, or_false] at hf
    rcases hf with rfl | rfl <;>
      exact ⟨by decide, by unfold Fsa.Sorted; decide, by decide, by decide, by decide⟩
  · intro f hf hne
    simp only [exOne, List.mem_cons, List.not_mem_nil, or_false] at hf
    subst hf
    exact ⟨by decide, by unfold Fsa.Sorted; decide, by decide, by decide, by decide⟩

/-- The hypotheses of `intersect_devices_partial` (with the arguments the other way round) and of
`intersect_gpu_no_broadcast` are met. -/
theorem exBoth' : Both exOne exTwo := ⟨exBoth.neB, exBoth.neA, exBoth.inB, exBoth.inA, exBoth.validB, exBoth.validA⟩

example : ∃ (R S : List (List (List (Arc Int)))) (ma mb ma' mb' : List Int),
      intersectAny true false true (flat exTwo) (flat exOne) exReverse = some (flat R, ma, mb) ∧
      intersectAny false false true (flat exTwo) (flat exOne) exReverse = some (flat S, ma', mb') ∧
      R.length = 1 ∧ S.length = 2 :=
  intersect_gpu_no_broadcast exTwo exOne exBoth (by decide) (by decide) true exReverse (fun t n => List.reverse_perm _)

/-- The GPU returns the intersection with the first FSA of `a` only. -/
example : (intersectAny true false true (flat exTwo) (flat exOne) exReverse).map (fun r => (r.1.sp1, r.1.arcs, r.2)) =
    some ([0, 3], [⟨0, 1, 2, 10⟩, ⟨1, 2, -1, 6⟩], [1, 2], [0, 1]) := by decide +kernel

example : (intersectAny true false true (flat exOne) (flat exTwo) exReverse).map (fun r => (r.1.sp1, r.1.arcs, r.2)) =
    some ([0, 3, 6], [⟨0, 1, 2, 10⟩, ⟨1, 2, -1, 6⟩, ⟨0, 1, 2, 6⟩, ⟨1, 2, -1, 8⟩], [0, 1, 0, 1], [1, 2, 3, 4]) := by
  decide +kernel

end Verif.Fsa.Idv
