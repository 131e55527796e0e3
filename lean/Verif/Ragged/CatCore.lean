import Verif.Ragged.CatZip

/-! `Stack` and `Cat` on the leaves below common layers. -/

namespace Verif.Ragged
open Verif.Util
variable {α X : Type}

/-! ## The layers below the axis -/

/-- From layer `l` on, the sources represent the lists `Vs`. -/
structure Below (srcs : List Shape) (l m : Nat) (Vs : List (List (Nest α m))) : Prop where
  len : srcs.length = Vs.length
  drop : ∀ (j : Nat) (s : Shape) (V : List (Nest α m)), srcs[j]? = some s → Vs[j]? = some V →
    s.drop l = fullLayers m V ∧ (0 < m → totSize s l = some V.length)

theorem Below.layer {srcs : List Shape} {l m : Nat} {Vs : List (List (List (Nest α m)))}
    (h : Below srcs l (m + 1) (Vs : List (List (Nest α (m + 1))))) : LayerIs srcs l Vs := by
  have hget : ∀ (j : Nat) (s : Shape) (V : List (List (Nest α m))), srcs[j]? = some s →
      Vs[j]? = some V →
      s[l]? = some (psum (V.map List.length), idsFrom 0 (V.map List.length)) := by
    intro j s V hs hV
    have h1 := (h.drop j s V hs hV).1
    have h2 := fullLayers_succ m V
    have h3 : (s.drop l)[0]? = some (psum (V.map List.length), idsFrom 0 (V.map List.length)) := by
      rw [h1]
      exact (congrArg (fun x => x[0]?) h2)
    rw [List.getElem?_drop] at h3
    exact h3
  have hV : ∀ (j : Nat) (s : Shape), srcs[j]? = some s → ∃ V, Vs[j]? = some V := by
    intro j s hs
    have := (List.getElem?_eq_some_iff.mp hs).1
    exact ⟨_, List.getElem?_eq_getElem (by rw [← h.len]; exact this)⟩
  refine ⟨h.len, ?_, ?_, ?_⟩
  · apply mapM_some_of
    · rw [List.length_map, h.len]
    · intro j s hs
      obtain ⟨V, hV⟩ := hV j s hs
      rw [(h.drop j s V hs hV).2 (by omega), List.getElem?_map, hV]
      rfl
  · apply mapM_some_of
    · rw [List.length_map, h.len]
    · intro j s hs
      obtain ⟨V, hV⟩ := hV j s hs
      rw [totSize, if_neg (by omega), Nat.add_sub_cancel, hget j s V hs hV, List.getElem?_map, hV,
        Option.map_some, Option.map_some, psum_getLastD, List.length_flatten]
  · apply mapM_some_of
    · rw [List.length_map, h.len]
    · intro j s hs
      obtain ⟨V, hV⟩ := hV j s hs
      rw [hget j s V hs hV, List.getElem?_map, hV]
      rfl

theorem Below.next {srcs : List Shape} {l m : Nat} {Vs : List (List (List (Nest α m)))}
    (h : Below srcs l (m + 1) (Vs : List (List (Nest α (m + 1))))) :
    Below srcs (l + 1) m (Vs.map List.flatten) := by
  refine ⟨by rw [List.length_map, h.len], ?_⟩
  intro j s V hs hV
  rw [List.getElem?_map] at hV
  obtain ⟨W, hW, rfl⟩ := Option.map_eq_some_iff.mp hV
  have h1 := (h.drop j s W hs hW).1
  have h2 := fullLayers_succ m W
  have h3 : s.drop l = (psum (W.map List.length), idsFrom 0 (W.map List.length)) ::
      fullLayers m W.flatten := h1.trans h2
  constructor
  · rw [← List.tail_drop, h3]; rfl
  · intro _
    have h4 : s[l]? = some (psum (W.map List.length), idsFrom 0 (W.map List.length)) := by
      have : (s.drop l)[0]? = some (psum (W.map List.length), idsFrom 0 (W.map List.length)) := by
        rw [h3]; rfl
      rwa [List.getElem?_drop] at this
    rw [totSize, if_neg (by omega), Nat.add_sub_cancel, h4, Option.map_some, psum_getLastD,
      List.length_flatten]

theorem mergeRest_eq (m : Nat) (srcs : List Shape) (l : Nat) (Vs : List (List (Nest α m)))
    (E : List (Nest α m)) (mm : List Nat) (hB : Below srcs l m Vs) (hne : srcs ≠ [])
    (h : Merged mm Vs E) :
    ∃ mm', mergeRest srcs l m mm = some (fullLayers m E, mm') ∧
      Merged mm' (Vs.map (valuesOf m)) (valuesOf m E) := by
  induction m generalizing l mm with
  | zero =>
    refine ⟨mm, rfl, ?_⟩
    have e : Vs.map (valuesOf 0) = Vs := by
      conv_rhs => rw [← List.map_id Vs]
      rfl
    rw [e]; exact h
  | succ m ih =>
    have key : ∀ (Vs : List (List (List (Nest α m)))) (E : List (List (Nest α m))),
        Below srcs l (m + 1) (Vs : List (List (Nest α (m + 1)))) → Merged mm Vs E →
        ∃ mm', mergeRest srcs l (m + 1) mm =
            some (fullLayers (m + 1) (E : List (Nest α (m + 1))), mm') ∧
          Merged mm' (Vs.map (fun V => valuesOf m V.flatten)) (valuesOf m E.flatten) := by
      intro Vs E hB h
      obtain ⟨mm1, e1, e2⟩ := mergeLayer_eq hB.layer hne h
      obtain ⟨mm2, e3, e4⟩ := ih (l + 1) (Vs.map List.flatten) E.flatten mm1 hB.next e2
      refine ⟨mm2, ?_, ?_⟩
      · have f := fullLayers_succ m E
        rw [mergeRest, e1, f]
        simp only [Option.bind_eq_bind, Option.bind_some, e3]
      · rw [List.map_map] at e4; exact e4
    exact key Vs E hB h

/-! ## One source layer out of several -/

theorem regularLayer_eq (d n : Nat) :
    regularLayer d n = (psum (List.replicate d n), idsFrom 0 (List.replicate d n)) := by
  rw [regularLayer, psum_replicate]
  congr 1
  have : ∀ r, (List.range' r d).flatMap (fun i => List.replicate n i) =
      idsFrom r (List.replicate d n) := by
    induction d with
    | zero => intro r; rfl
    | succ d ih =>
      intro r
      rw [List.range'_succ, List.flatMap_cons, List.replicate_succ, idsFrom, ih]
  rw [List.range_eq_range', this]

theorem gather_regular_splits (R : List (List (List X))) (n : Nat) (h : Regular R n) :
    (List.range (R.length + 1)).mapM (fun i => (psum (R.flatten.map List.length))[i * n]?) =
      some (psum (R.map (fun l => l.flatten.length))) := by
  have h1 := gather_splits R
  rw [h.sizes, psum_replicate, gather, List.mapM_map] at h1
  exact h1

theorem map_regular_ids (R : List (List (List X))) (n : Nat) (h : Regular R n) (hn : 0 < n) :
    (idsFrom 0 (R.flatten.map List.length)).map (fun r => r / n) =
      idsFrom 0 (R.map (fun l => l.flatten.length)) := by
  have h1 := gather_ids R [] 0
  rw [List.nil_append, List.length_nil, h.sizes, idsFrom_replicate _ _ hn, gather] at h1
  have h2 : (idsFrom 0 (R.flatten.map List.length)).mapM
      (fun i => ((List.range (R.length * n)).map (fun i => i / n))[i]?) =
      some ((idsFrom 0 (R.flatten.map List.length)).map (fun r => r / n)) := by
    apply mapM_some_of
    · simp
    · intro i b hb
      have hm := idsFrom_mem 0 _ b (List.mem_of_getElem? hb)
      rw [List.length_map, h.flatten_length] at hm
      rw [List.getElem?_map, List.getElem?_range (by omega), List.getElem?_map, hb]
  rw [h2] at h1
  exact Option.some.inj h1

theorem subsample_eq (R : List (List (List X))) (n : Nat) (h : Regular R n) (hn : 0 < n) :
    subsample (psum (R.flatten.map List.length), idsFrom 0 (R.flatten.map List.length)) n =
      some (psum (R.map (fun l => l.flatten.length)),
        idsFrom 0 (R.map (fun l => l.flatten.length))) := by
  have hl : (psum (R.flatten.map List.length)).length - 1 = R.length * n := by
    rw [psum_length, List.length_map, h.flatten_length]; rfl
  unfold subsample
  simp only [hl]
  rw [if_pos (Nat.mul_mod_left _ _), Nat.mul_div_cancel _ hn, gather_regular_splits R n h,
    map_regular_ids R n h hn]
  rfl

/-! ## Layers above the axis -/

theorem totSize_append (U r r' : Shape) (l : Nat) (h : l ≤ U.length) (h0 : 0 < U.length) :
    totSize (U ++ r) l = totSize (U ++ r') l ∧ ∃ n, totSize (U ++ r) l = some n := by
  unfold totSize
  split
  · rw [List.getElem?_append_left h0, List.getElem?_append_left h0, List.getElem?_eq_getElem h0]
    exact ⟨rfl, _, rfl⟩
  · rw [List.getElem?_append_left (by omega), List.getElem?_append_left (by omega),
      List.getElem?_eq_getElem (by omega)]
    exact ⟨rfl, _, rfl⟩

theorem checks_ok (debug : Bool) (U : Shape) (rs : List Shape) :
    ∃ x, (List.range U.length).mapM (checkLayerEqual debug (rs.map (fun r => U ++ r))) = some x := by
  apply mapM_exists
  intro l hl
  have hl : l < U.length := by simpa using hl
  refine ⟨(), ?_⟩
  match rs with
  | [] => rfl
  | [_] => rfl
  | r :: r1 :: rs =>
    obtain ⟨n1, e1⟩ := (totSize_append U r r l (by omega) (by omega)).2
    obtain ⟨n2, e2⟩ := (totSize_append U r r (l + 1) (by omega) (by omega)).2
    simp only [List.map_cons, checkLayerEqual, e1, e2, Option.bind_eq_bind, Option.bind_some]
    rw [if_pos]
    rw [Bool.and_eq_true]
    have hall : ∀ s ∈ (U ++ r1) :: rs.map (fun r => U ++ r), ∃ r', s = U ++ r' := by
      intro s hs
      rcases List.mem_cons.mp hs with rfl | hs
      · exact ⟨r1, rfl⟩
      · obtain ⟨r', _, rfl⟩ := List.mem_map.mp hs
        exact ⟨r', rfl⟩
    constructor
    · rw [List.all_eq_true]
      intro s hs
      obtain ⟨r', rfl⟩ := hall s hs
      rw [← (totSize_append U r r' l (by omega) (by omega)).1,
        ← (totSize_append U r r' (l + 1) (by omega) (by omega)).1, e1, e2]
      simp
    · rw [Bool.or_eq_true]
      right
      rw [List.all_eq_true]
      intro s hs
      obtain ⟨r', rfl⟩ := hall s hs
      rw [List.getElem?_append_left hl, List.getElem?_append_left hl]
      simp

/-! ## Both functions -/

theorem below_of (U : Shape) (d m : Nat) (Vs : List (List (List (Nest α m)))) (hreg : Regular Vs d)
    (hU : U = [] ∨ totSize U U.length = some d) :
    Below (Vs.map (fun V => U ++ fullLayers (m + 1) (V : List (Nest α (m + 1))))) U.length (m + 1)
      (Vs : List (List (Nest α (m + 1)))) := by
  refine ⟨by simp, ?_⟩
  intro j s V hs hV
  have hs' : s = U ++ fullLayers (m + 1) (V : List (Nest α (m + 1))) := by
    rw [List.getElem?_map] at hs
    have hV' : Vs[j]? = some V := hV
    rw [hV', Option.map_some] at hs
    exact (Option.some.inj hs).symm
  subst hs'
  refine ⟨by simp, fun _ => ?_⟩
  have hVl : List.length (α := List (Nest α m)) V = d := hreg V (List.mem_of_getElem? hV)
  by_cases h0 : U.length = 0
  · have hU0 : U = [] := List.length_eq_zero_iff.mp h0
    subst hU0
    exact totSize_fullLayers (m + 1) V 0 (by omega) (by omega)
  · rcases hU with hU | hU
    · rw [hU] at h0; exact absurd rfl h0
    · have := (totSize_append U [] (fullLayers (m + 1) (V : List (Nest α (m + 1)))) U.length
        (Nat.le_refl _) (by omega)).1
      rw [List.append_nil, hU] at this
      rw [← this]
      exact congrArg some hVl.symm

theorem both_core (dev : Dev) (debug : Bool) (U : Shape) (d m : Nat)
    (Vs : List (List (List (Nest α m)))) (hne : Vs ≠ []) (hreg : Regular Vs d)
    (hU : U = [] ∨ totSize U U.length = some d) (srcs : List Shape)
    (hsrcs : srcs = Vs.map (fun V => U ++ fullLayers (m + 1) (V : List (Nest α (m + 1))))) :
    ∃ x mm mm', (List.range (U.length + 1 - 1)).mapM (checkLayerEqual debug srcs) = some x ∧
      intersperse dev srcs (U.length + 1 - 1) =
        some ((psum ((swapAxes d Vs).flatten.map List.length),
          idsFrom 0 ((swapAxes d Vs).flatten.map List.length)), mm) ∧
      mergeRest srcs (U.length + 1) (U.length + (m + 1) - (U.length + 1)) mm =
        some (fullLayers m (swapAxes d Vs).flatten.flatten, mm') ∧
      Merged mm' (Vs.map (fun V => valuesOf m V.flatten))
        (valuesOf m (swapAxes d Vs).flatten.flatten) := by
  have hB := below_of U d m Vs hreg hU
  rw [← hsrcs] at hB
  have hne' : srcs ≠ [] := by rw [hsrcs]; simpa using hne
  obtain ⟨mm, h1, h2⟩ := intersperse_eq dev hB.layer hne' d hreg (by
    intro s hs t ht
    rw [hsrcs] at hs ht
    obtain ⟨_, _, rfl⟩ := List.mem_map.mp hs
    obtain ⟨_, _, rfl⟩ := List.mem_map.mp ht
    simp) (by
    intro s hs S hS
    rw [hsrcs, hS] at hs
    rw [List.map_singleton, List.mem_singleton] at hs
    have f := fullLayers_succ m S
    have : s = U ++ (psum (S.map List.length), idsFrom 0 (S.map List.length)) ::
      fullLayers m S.flatten := hs.trans (congrArg _ f)
    rw [this, List.getElem?_append_right (Nat.le_refl _), Nat.sub_self]
    rfl)
  obtain ⟨x, hx⟩ := checks_ok debug U
    (Vs.map (fun V => fullLayers (m + 1) (V : List (Nest α (m + 1)))))
  rw [List.map_map] at hx
  obtain ⟨mm', h3, h4⟩ := mergeRest_eq m srcs (U.length + 1) (Vs.map List.flatten) _ mm hB.next hne' h2
  refine ⟨x, mm, mm', ?_, h1, ?_, ?_⟩
  · rw [Nat.add_sub_cancel, hsrcs]; exact hx
  · rw [show U.length + (m + 1) - (U.length + 1) = m by omega]; exact h3
  · rw [List.map_map] at h4; exact h4

theorem stack_core (dev : Dev) (debug : Bool) (U : Shape) (d m : Nat)
    (Vs : List (List (List (Nest α m)))) (hne : Vs ≠ []) (hreg : Regular Vs d)
    (hU : U = [] ∨ totSize U U.length = some d) :
    ∃ mm, stackAxis dev debug
        (Vs.map (fun V => U ++ fullLayers (m + 1) (V : List (Nest α (m + 1))))) (U.length + 1) =
          some (U ++ fullLayers (m + 2) (swapAxes d Vs : List (Nest α (m + 2))), mm) ∧
      Merged mm (Vs.map (fun V => valuesOf m V.flatten))
        (valuesOf m (swapAxes d Vs).flatten.flatten) := by
  obtain ⟨x, mm, mm', h1, h2, h3, h4⟩ := both_core dev debug U d m Vs hne hreg hU _ rfl
  refine ⟨mm', ?_, h4⟩
  obtain ⟨hr1, hr2⟩ := swapAxes_regular Vs d hreg
  have f1 : fullLayers (m + 2) (swapAxes d Vs : List (Nest α (m + 2))) = _ :=
    fullLayers_succ (m + 1) (α := α) (swapAxes d Vs)
  have f2 : fullLayers (m + 1) ((swapAxes d Vs).flatten : List (Nest α (m + 1))) = _ :=
    fullLayers_succ m (swapAxes d Vs).flatten
  have f3 : fullLayers (m + 2) (swapAxes d Vs : List (Nest α (m + 2))) =
      (psum (List.replicate d Vs.length), idsFrom 0 (List.replicate d Vs.length)) ::
      (psum ((swapAxes d Vs).flatten.map List.length),
        idsFrom 0 ((swapAxes d Vs).flatten.map List.length)) ::
      fullLayers m (swapAxes d Vs).flatten.flatten := by
    rw [f1, ← hr2, hr2]
    have e := hr1.sizes
    rw [hr2] at e
    exact congrArg₂ List.cons (by rw [e]) f2
  match Vs, hne with
  | V :: Vs, hne =>
    have hN : 0 < (V :: Vs).length := by simp
    rw [List.map_cons, stackAxis, ← List.map_cons (f := fun V => U ++ fullLayers (m + 1)
      (V : List (Nest α (m + 1))))]
    have hl : (U ++ fullLayers (m + 1) (V : List (Nest α (m + 1)))).length = U.length + (m + 1) := by
      simp
    rw [hl, if_neg (by omega), if_neg (by omega), h1, h2]
    simp only [Option.bind_eq_bind, Option.bind_some]
    rw [h3]
    simp only [Option.bind_some, List.length_map]
    rw [f3, regularLayer_eq, psum_length, List.length_map, Nat.add_sub_cancel, Nat.add_sub_cancel,
      hr1.flatten_length, hr2, Nat.mul_div_cancel _ hN, List.take_append_of_le_length (Nat.le_refl _),
      List.take_length]

theorem cat_core (dev : Dev) (debug : Bool) (U : Shape) (d m : Nat)
    (Vs : List (List (List (Nest α m)))) (hne : Vs ≠ []) (hreg : Regular Vs d)
    (hU : U = [] ∨ totSize U U.length = some d) :
    ∃ mm, catAxis dev debug
        (Vs.map (fun V => U ++ fullLayers (m + 1) (V : List (Nest α (m + 1))))) (U.length + 1) =
          some (U ++ fullLayers (m + 1) ((swapAxes d Vs).map List.flatten : List (List (Nest α m))),
            mm) ∧
      Merged mm (Vs.map (fun V => valuesOf m V.flatten))
        (valuesOf m (swapAxes d Vs).flatten.flatten) := by
  obtain ⟨x, mm, mm', h1, h2, h3, h4⟩ := both_core dev debug U d m Vs hne hreg hU _ rfl
  refine ⟨mm', ?_, h4⟩
  obtain ⟨hr1, hr2⟩ := swapAxes_regular Vs d hreg
  have f1 : fullLayers (m + 1) ((swapAxes d Vs).map List.flatten : List (List (Nest α m))) = _ :=
    fullLayers_succ m ((swapAxes d Vs).map List.flatten)
  match Vs, hne with
  | V :: Vs, hne =>
    have hN : 0 < (V :: Vs).length := by simp
    rw [List.map_cons, catAxis, ← List.map_cons (f := fun V => U ++ fullLayers (m + 1)
      (V : List (Nest α (m + 1))))]
    have hl : (U ++ fullLayers (m + 1) (V : List (Nest α (m + 1)))).length = U.length + (m + 1) := by
      simp
    have hs := subsample_eq (swapAxes d (V :: Vs)) (V :: Vs).length hr1 hN
    rw [hl, if_neg (by omega), if_neg (by omega), h1, h2]
    simp only [Option.bind_eq_bind, Option.bind_some, List.length_map]
    rw [hs]
    simp only [Option.bind_some]
    rw [h3]
    simp only [Option.bind_some]
    rw [f1, Nat.add_sub_cancel, List.take_append_of_le_length (Nat.le_refl _), List.take_length,
      ← List.flatten_flatten, List.map_map]
    rfl

end Verif.Ragged
