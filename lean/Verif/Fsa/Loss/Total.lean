import Verif.Fsa.Loss.Penalty

/-! # The total scores of the lattices -/

namespace Verif.Fsa.Loss
open Verif.Ragged Verif.Util Verif.Fsa.Dn Verif.Fsa.Sco

/-- The attributes have one element for each arc of the graphs. -/
def AttrOk (attr : Attr) (n : Nat) : Prop :=
  (∀ rep, attr.repeats = some rep → rep.length = n) ∧
    (attr.repeats = none → ∃ aux, attr.aux = some aux ∧ aux.length = n)

/-- The arcs at the given positions. -/
def arcsAt (f : List (List (Arc (WithBot ℝ)))) (js : List Nat) : List (Arc (WithBot ℝ)) :=
  js.filterMap (fun j => f.flatten[j]?)

theorem arcsAt_eq (f : List (List (Arc (WithBot ℝ)))) (js : List Nat) (p : List (Arc (WithBot ℝ)))
    (h : js.map (fun j => f.flatten[j]?) = p.map some) : arcsAt f js = p := by
  unfold arcsAt
  have := congrArg (List.filterMap id) h
  simpa [List.filterMap_map, Function.comp_def] using this

/-- The probability of an alignment, with the delay penalty. -/
noncomputable def alignProb (f : List (List (Arc (WithBot ℝ)))) (fr : List (List (WithBot ℝ))) (lam mid : ℝ)
    (mask : Nat → Bool) (js : List Nat) : ℝ :=
  expB (alignScore (arcsAt f js) fr) * Real.exp (delay lam mid mask 0 js)

theorem Holds.dense {B : List (List (List (WithBot ℝ)))} {b : Dense (WithBot ℝ)} (h : Holds B b)
    (hs : (B.map List.length).Pairwise (· ≥ ·)) : DenseOk B b := by
  refine ⟨h.splits, hs, h.cols, ?_⟩
  intro i row c x hi hc
  have hl := (List.getElem?_eq_some_iff.mp hi).1
  have := flatten_get B.flatten i row hi c (List.getElem?_eq_some_iff.mp hc).1
  rw [uniform_splits b.cols B.flatten h.cols i hl.le] at this
  rw [h.mem, h.stride, this, hc]

section
variable (F : List (List (List (Arc (WithBot ℝ))))) (B : List (List (List (WithBot ℝ)))) (b : Dense (WithBot ℝ))
  (attr : Attr) (neg : WithBot ℝ) (L : List (List (List (Arc (WithBot ℝ))) × List Nat × List Nat))
  (res : FsaVec (WithBot ℝ) × List Nat × List Nat)

/-- The mask of an arc of the lattice `r`. -/
def maskAt (r j : Nat) : Bool :=
  masked attr (splits (F.map List.flatten) r) (F.getD r []).flatten (((L[r]?).elim [] (fun x => x.2.1)).getD j 0)

/-- The frame of an arc of the lattice `r`. -/
def frameAt (r j : Nat) : Nat := ((L[r]?).elim [] (fun x => x.2.2)).getD j 0 / b.cols - splits B r

/-- The penalty of an arc of the lattice `r`. -/
noncomputable def penAt (lam : ℝ) (r j : Nat) : ℝ :=
  if maskAt F attr L r j then 0
  else -(max lam 0) * ((frameAt B b L r j : ℝ) - ((((B.getD r []).length - 1) / 2 : Nat) : ℝ))

theorem addW_zero (g : List (List (Arc (WithBot ℝ)))) : addW (fun _ => 0) g = g := by
  induction g with
  | nil => rfl
  | cons row rs ih =>
    rw [addW, ih]
    congr 1
    apply List.ext_getElem?
    intro k
    rw [List.getElem?_mapIdx]
    cases row[k]? <;> simp [bump]

theorem penAt_zero (lam : ℝ) (h : ¬ 0 < lam) : penAt F B b attr L lam = fun _ _ => 0 := by
  funext r j
  unfold penAt
  rw [max_eq_right (not_lt.mp h)]
  simp

variable (hH : Holds B b) (hA : ArgsOk F B b (List.range F.length)) (hlen : B.length = F.length)
  (hL : Lattices F B b (List.range F.length) neg L res)
include hH hA hlen hL

theorem each_lattice (r : Nat) (x : List (List (Arc (WithBot ℝ))) × List Nat × List Nat) (hx : L[r]? = some x) :
    ∃ f fr, F[r]? = some f ∧ B[r]? = some fr ∧ Lattice f fr neg (splits B r * b.cols) b.cols x.1 x.2.1 x.2.2 := by
  have hr := (List.getElem?_eq_some_iff.mp hx).1
  rw [hL.length] at hr
  have h1 := List.getElem?_eq_getElem hr
  have h2 := List.getElem?_eq_getElem (show r < B.length by omega)
  refine ⟨_, _, h1, h2, ?_⟩
  rw [← hH.stride]
  exact hL.each r _ r _ x h1 (List.getElem?_range hr) h2 hx

/-- What the code reads at an arc. -/
theorem at_arc (r j : Nat) (x : List (List (Arc (WithBot ℝ))) × List Nat × List Nat) (hx : L[r]? = some x)
    (hj : j < x.1.flatten.length) :
    ∃ (f : List (List (Arc (WithBot ℝ)))) (fr : List (List (WithBot ℝ))) (t m : Nat) (a a' : Arc (WithBot ℝ)),
      F[r]? = some f ∧ B[r]? = some fr ∧ t < fr.length ∧ x.1.flatten[j]? = some a ∧
      f.flatten[m]? = some a' ∧ a.label = a'.label ∧ x.2.1[j]? = some m ∧
      res.2.1[splits ((L.map Prod.fst).map List.flatten) r + j]? = some (splits (F.map List.flatten) r + m) ∧
      res.2.2[splits ((L.map Prod.fst).map List.flatten) r + j]? =
        some ((splits B r + t) * b.cols + (a.label + 1).toNat) ∧
      (a.label + 1).toNat < b.cols ∧ frameAt B b L r j = t := by
  obtain ⟨f, fr, hf, hfr, hlat⟩ := each_lattice F B b neg L res hH hA hlen hL r x hx
  obtain ⟨t, m, a, a', ht, hm, ha, ha', hl, hmb⟩ := lattice_arc f fr neg _ _ _ _ _ hlat j hj
  have hlab := hA.labels f (List.mem_of_getElem? hf) a' (List.mem_of_getElem? ha')
  have hc : (a.label + 1).toNat < b.cols := by rw [hl]; omega
  have e : splits B r * b.cols + b.cols * t + (a.label + 1).toNat =
      (splits B r + t) * b.cols + (a.label + 1).toNat := by ring
  rw [e] at hmb
  have hsA : splits (L.mapIdx (fun r x => x.2.1.map (splits (F.map List.flatten) r + ·))) r =
      splits ((L.map Prod.fst).map List.flatten) r := by
    unfold splits
    rw [List.map_take, List.map_take]
    congr 2
    apply List.ext_getElem?
    intro k
    simp only [List.getElem?_map, List.getElem?_mapIdx]
    cases hk : L[k]? with
    | none => rfl
    | some y =>
      obtain ⟨_, _, _, _, hy⟩ := each_lattice F B b neg L res hH hA hlen hL k y hk
      simp [hy.lengthA]
  have hsB : splits (L.map (fun x => x.2.2)) r = splits ((L.map Prod.fst).map List.flatten) r := by
    unfold splits
    rw [List.map_take, List.map_take]
    congr 2
    apply List.ext_getElem?
    intro k
    simp only [List.getElem?_map]
    cases hk : L[k]? with
    | none => rfl
    | some y =>
      obtain ⟨_, _, _, _, hy⟩ := each_lattice F B b neg L res hH hA hlen hL k y hk
      simp [hy.lengthB]
  refine ⟨f, fr, t, m, a, a', hf, hfr, ht, ha, ha', hl, hm, ?_, ?_, hc, ?_⟩
  · rw [hL.mapA, ← hsA, flatten_get _ r (x.2.1.map (splits (F.map List.flatten) r + ·)) (by
      rw [List.getElem?_mapIdx, hx]; rfl) j (by rw [List.length_map, hlat.lengthA]; exact hj), List.getElem?_map, hm]
    rfl
  · rw [hL.mapB, ← hsB, flatten_get _ r x.2.2 (by rw [List.getElem?_map, hx]; rfl) j (by
      rw [hlat.lengthB]; exact hj), hmb]
  · unfold frameAt
    rw [hx, Option.elim_some, List.getD_eq_getElem?_getD, hmb, Option.getD_some, Nat.mul_comm,
      Nat.mul_add_div (by omega), Nat.div_eq_of_lt hc]
    omega

theorem mapA_length : res.2.1.length = (L.map Prod.fst).flatten.flatten.length := by
  rw [hL.mapA, List.flatten_flatten, List.length_flatten, List.length_flatten]
  congr 1
  apply List.ext_getElem?
  intro k
  simp only [List.getElem?_map, List.getElem?_mapIdx]
  cases hk : L[k]? with
  | none => rfl
  | some y =>
    obtain ⟨_, _, _, _, hy⟩ := each_lattice F B b neg L res hH hA hlen hL k y hk
    simp [hy.lengthA]

theorem mapB_length : res.2.2.length = (L.map Prod.fst).flatten.flatten.length := by
  rw [hL.mapB, List.flatten_flatten, List.length_flatten, List.length_flatten]
  congr 1
  apply List.ext_getElem?
  intro k
  simp only [List.getElem?_map]
  cases hk : L[k]? with
  | none => rfl
  | some y =>
    obtain ⟨_, _, _, _, hy⟩ := each_lattice F B b neg L res hH hA hlen hL k y hk
    simp [hy.lengthB]

/-- Every arc of the lattices belongs to a lattice. -/
theorem arc_of (i : Nat) (h : i < (L.map Prod.fst).flatten.flatten.length) :
    ∃ (r j : Nat) (x : List (List (Arc (WithBot ℝ))) × List Nat × List Nat), L[r]? = some x ∧
      j < x.1.flatten.length ∧ i = splits ((L.map Prod.fst).map List.flatten) r + j := by
  obtain ⟨r, j, f, h1, h2, h3⟩ := arc_pos _ i h
  rw [List.getElem?_map] at h1
  obtain ⟨x, hx, rfl⟩ := Option.map_eq_some_iff.mp h1
  exact ⟨r, j, x, hx, h2, h3⟩

theorem frames_eq : ∃ fs, frameIdx b res.2.2 = some fs ∧
    ∀ (r j : Nat) (x : List (List (Arc (WithBot ℝ))) × List Nat × List Nat), L[r]? = some x →
      j < x.1.flatten.length → fs[splits ((L.map Prod.fst).map List.flatten) r + j]? = some (frameAt B b L r j) := by
  have hlast : b.splits.getLast? = some (B.map List.length).sum := by
    rw [hH.splits, List.getLast?_eq_getElem?, psum_length, Nat.add_sub_cancel, psum_get _ _ (by rfl),
      List.take_length]
  have hone : ∀ (r j : Nat) (x : List (List (Arc (WithBot ℝ))) × List Nat × List Nat), L[r]? = some x →
      j < x.1.flatten.length → ∀ i, res.2.2[splits ((L.map Prod.fst).map List.flatten) r + j]? = some i →
      ((idsFrom 0 (B.map List.length))[i / b.cols]? >>= fun r => b.splits[r]? >>= fun s =>
        some (i / b.cols - s)) = some (frameAt B b L r j) := by
    intro r j x hx hj i hi
    obtain ⟨f, fr, t, m, a, a', hf, hfr, ht, ha, ha', hl, hm, hma, hmb, hc, hfa⟩ :=
      at_arc F B b neg L res hH hA hlen hL r j x hx hj
    rw [hmb] at hi
    obtain rfl := Option.some.inj hi
    have hd : ((splits B r + t) * b.cols + (a.label + 1).toNat) / b.cols = splits B r + t := by
      rw [Nat.mul_comm, Nat.mul_add_div (by omega), Nat.div_eq_of_lt hc]; rfl
    have hid := ids_at (B.map List.length) r fr.length t (by rw [List.getElem?_map, hfr]; rfl) ht
    rw [← List.map_take] at hid
    change (idsFrom 0 (B.map List.length))[splits B r + t]? = some r at hid
    rw [hd, hid, hfa]
    have hsp : b.splits[r]? = some (splits B r) := by
      rw [hH.splits, psum_get _ _ (by
        rw [List.length_map]; exact (List.getElem?_eq_some_iff.mp hfr).1.le), ← List.map_take]
      rfl
    simp only [Option.bind_eq_bind, Option.bind_some, hsp]
    congr 1; omega
  have hex : ∃ fs, res.2.2.mapM (fun i => (idsFrom 0 (B.map List.length))[i / b.cols]? >>= fun r =>
      b.splits[r]? >>= fun s => some (i / b.cols - s)) = some fs := by
    apply mapM_exists
    intro i hi
    obtain ⟨k, hk⟩ := List.getElem?_of_mem hi
    have hkl := (List.getElem?_eq_some_iff.mp hk).1
    rw [mapB_length F B b neg L res hH hA hlen hL] at hkl
    obtain ⟨r, j, x, hx, hj, rfl⟩ := arc_of F B b neg L res hH hA hlen hL k hkl
    exact ⟨_, hone r j x hx hj i hk⟩
  obtain ⟨fs, hfs⟩ := hex
  refine ⟨fs, ?_, ?_⟩
  · unfold frameIdx
    rw [hlast]
    simp only [Option.bind_eq_bind, Option.bind_some]
    rw [hH.splits, rowSplitsToRowIds_psum, Option.bind_some, ← hH.splits]
    exact hfs
  · intro r j x hx hj
    obtain ⟨f, fr, t, m, a, a', hf, hfr, ht, ha, ha', hl, hm, hma, hmb, hc, hfa⟩ :=
      at_arc F B b neg L res hH hA hlen hL r j x hx hj
    obtain ⟨h1, h2⟩ := mapM_get hfs
    rw [h2 _ _ hmb]
    exact hone r j x hx hj _ hmb

theorem mask_eq (hattr : AttrOk attr F.flatten.flatten.length) : ∃ ms, maskOf attr res.1 res.2.1 = some ms ∧
    ∀ (r j : Nat) (x : List (List (Arc (WithBot ℝ))) × List Nat × List Nat), L[r]? = some x →
      j < x.1.flatten.length → ms[splits ((L.map Prod.fst).map List.flatten) r + j]? = some (maskAt F attr L r j) := by
  have hin : ∀ i ∈ res.2.1, i < F.flatten.flatten.length := by
    intro i hi
    obtain ⟨k, hk⟩ := List.getElem?_of_mem hi
    have hkl := (List.getElem?_eq_some_iff.mp hk).1
    rw [mapA_length F B b neg L res hH hA hlen hL] at hkl
    obtain ⟨r, j, x, hx, hj, rfl⟩ := arc_of F B b neg L res hH hA hlen hL k hkl
    obtain ⟨f, fr, t, m, a, a', hf, hfr, ht, ha, ha', hl, hm, hma, hmb, hc, hfa⟩ :=
      at_arc F B b neg L res hH hA hlen hL r j x hx hj
    rw [hma] at hk
    obtain rfl := Option.some.inj hk
    obtain ⟨_, _, _, h3⟩ := fsa_of_arc F r m f hf (List.getElem?_eq_some_iff.mp ha').1
    rw [ha'] at h3
    exact (List.getElem?_eq_some_iff.mp h3).1
  have hat : ∀ (r j : Nat) (x : List (List (Arc (WithBot ℝ))) × List Nat × List Nat), L[r]? = some x →
      j < x.1.flatten.length → ∃ m a, res.2.1[splits ((L.map Prod.fst).map List.flatten) r + j]? =
        some (splits (F.map List.flatten) r + m) ∧
        res.1.arcs[splits ((L.map Prod.fst).map List.flatten) r + j]? = some a ∧
        ((F.getD r []).flatten[m]?.map Arc.label).getD 0 = a.label ∧
        maskAt F attr L r j = masked attr (splits (F.map List.flatten) r) (F.getD r []).flatten m := by
    intro r j x hx hj
    obtain ⟨f, fr, t, m, a, a', hf, hfr, ht, ha, ha', hl, hm, hma, hmb, hc, hfa⟩ :=
      at_arc F B b neg L res hH hA hlen hL r j x hx hj
    refine ⟨m, a, hma, ?_, ?_, ?_⟩
    · rw [hL.fsas]
      obtain ⟨_, _, _, h3⟩ := fsa_of_arc (L.map Prod.fst) r j x.1 (by rw [List.getElem?_map, hx]; rfl) hj
      rw [h3, ha]
    · rw [List.getD_eq_getElem?_getD, hf, Option.getD_some, ha', hl]; rfl
    · unfold maskAt
      rw [hx, Option.elim_some, List.getD_eq_getElem?_getD (l := x.2.1), hm, Option.getD_some]
  unfold maskOf
  cases hrep : attr.repeats with
  | some rep =>
    have hl := hattr.1 rep hrep
    obtain ⟨rs, hrs⟩ := mapM_exists (f := fun i => rep[i]?) (l := res.2.1) (fun i hi =>
      ⟨_, List.getElem?_eq_getElem (by rw [hl]; exact hin i hi)⟩)
    refine ⟨_, by simp only [hrs, Option.bind_eq_bind, Option.bind_some]; rfl, ?_⟩
    intro r j x hx hj
    obtain ⟨m, a, h1, h2, h3, h4⟩ := hat r j x hx hj
    have h5 := hin _ (List.mem_of_getElem? h1)
    have h6 := (mapM_get hrs).2 _ _ h1
    rw [List.getElem?_zipWith, h2, h6, List.getElem?_eq_getElem (by omega), h4]
    unfold masked
    rw [hrep, h3]
    simp only [List.getD_eq_getElem?_getD, List.getElem?_eq_getElem (show splits (F.map List.flatten) r + m < rep.length by omega), Option.getD_some]
  | none =>
    obtain ⟨aux, haux, hl⟩ := hattr.2 hrep
    obtain ⟨xs, hxs⟩ := mapM_exists (f := fun i => aux[i]?) (l := res.2.1) (fun i hi =>
      ⟨_, List.getElem?_eq_getElem (by rw [hl]; exact hin i hi)⟩)
    refine ⟨_, by simp only [haux, hxs, Option.bind_eq_bind, Option.bind_some]; rfl, ?_⟩
    intro r j x hx hj
    obtain ⟨m, a, h1, h2, h3, h4⟩ := hat r j x hx hj
    have h5 := hin _ (List.mem_of_getElem? h1)
    have h6 := (mapM_get hxs).2 _ _ h1
    rw [List.getElem?_map, h6, List.getElem?_eq_getElem (by omega), h4]
    unfold masked
    rw [hrep, haux]
    simp only [List.getD_eq_getElem?_getD, List.getElem?_eq_getElem (show splits (F.map List.flatten) r + m < aux.length by omega), Option.getD_some,
      Option.map_some]

theorem penalize_eq (lam : ℝ) (hattr : 0 < lam → AttrOk attr F.flatten.flatten.length) :
    penalize lam (B.map (fun x => x.length - 1)) attr b res =
      some (flat (addAll (penAt F B b attr L lam) (L.map Prod.fst))) := by
  unfold penalize
  by_cases hlam : 0 < lam
  · obtain ⟨fs, hfs, hf2⟩ := frames_eq F B b neg L res hH hA hlen hL
    obtain ⟨ms, hms, hm2⟩ := mask_eq F B b attr neg L res hH hA hlen hL (hattr hlam)
    rw [if_pos hlam, hfs]
    simp only [Option.bind_eq_bind, Option.bind_some]
    have hsz : ¬ (B.map (fun x => x.length - 1)).length ≠ res.1.sp1.length - 1 := by
      rw [hL.fsas, flat_sp1_length, List.length_map, List.length_map, hL.length, hlen]; omega
    rw [if_neg hsz, hms]
    simp only [Option.bind_some]
    have hres : (List.range res.1.arcs.length).mapM (fun i => res.1.arcs[i]?.bind fun a =>
        res.1.id2[i]?.bind fun g => res.1.id1[g]?.bind fun r => fs[i]?.bind fun f => ms[i]?.bind fun m =>
        (penalty lam (B.map (fun x => x.length - 1)) r f m).bind fun p =>
        some { a with score := a.score + (p : WithBot ℝ) }) =
        some (addAll (penAt F B b attr L lam) (L.map Prod.fst)).flatten.flatten := by
      apply mapM_some_of
      · rw [List.length_range, hL.fsas]
        have := congrArg List.sum (addAll_rows (penAt F B b attr L lam) (L.map Prod.fst))
        rw [← List.length_flatten, ← List.length_flatten] at this
        exact this
      · intro k i hk
        have hkl := (List.getElem?_eq_some_iff.mp hk).1
        rw [List.length_range] at hkl
        rw [List.getElem?_range hkl] at hk
        obtain rfl := Option.some.inj hk
        rw [hL.fsas] at hkl
        obtain ⟨r, j, x, hx, hj, rfl⟩ := arc_of F B b neg L res hH hA hlen hL k hkl
        have hx' : (L.map Prod.fst)[r]? = some x.1 := by rw [List.getElem?_map, hx]; rfl
        obtain ⟨g, h1, h2, h3⟩ := fsa_of_arc (L.map Prod.fst) r j x.1 hx' hj
        obtain ⟨f, fr, hf, hfr, -⟩ := each_lattice F B b neg L res hH hA hlen hL r x hx
        rw [hL.fsas, h1, h3, List.getElem?_eq_getElem hj, hf2 r j x hx hj, hm2 r j x hx hj,
          addAll_arc _ _ r j x.1 hx' hj, List.getElem?_eq_getElem hj]
        simp only [Option.bind_some, h2, penalty, List.getElem?_map, hfr, Option.map_some, Option.bind_eq_bind,
          bump, penAt]
        rw [List.getD_eq_getElem?_getD, hfr, Option.getD_some, max_eq_left hlam.le]
    rw [hres, Option.bind_some, flat_addAll, hL.fsas]
  · rw [if_neg hlam, penAt_zero F B b attr L lam hlam, hL.fsas]
    have : addAll (fun _ _ => 0) (L.map Prod.fst) = L.map Prod.fst := by
      apply List.ext_getElem?
      intro r
      rw [addAll_get]
      cases (L.map Prod.fst)[r]? <;> simp [addW_zero]
    rw [this]

/-- The totals: the sum of the probabilities of some alignments, among them all in the beam. -/
theorem totals_eq (lam : ℝ) (lp0 : Nat) (hn : (L.map Prod.fst).flatten.length ≤ Bat.intMax) :
    ∃ tot, totals lp0 (flat (addAll (penAt F B b attr L lam) (L.map Prod.fst))) = some tot ∧ tot.length = F.length ∧
      ∀ (r : Nat) (f : List (List (Arc (WithBot ℝ)))) (fr : List (List (WithBot ℝ))), F[r]? = some f →
        B[r]? = some fr → ∃ P : List (List Nat), P.Nodup ∧ (∀ js ∈ P, ∃ p, IsAlign f fr js p) ∧
          (∀ js p, IsAlign f fr js p → InBeam f fr neg (alignScore p fr) → js ∈ P) ∧
          tot[r]? = some (P.map (alignProb f fr (max lam 0) (((fr.length - 1) / 2 : Nat) : ℝ)
            (masked attr (splits (F.map List.flatten) r) f.flatten))).sum := by
  classical
  set T := addAll (penAt F B b attr L lam) (L.map Prod.fst) with hT
  have hTget : ∀ (r : Nat) (x : List (List (Arc (WithBot ℝ))) × List Nat × List Nat), L[r]? = some x →
      T[r]? = some (addW (penAt F B b attr L lam r) x.1) := by
    intro r x hx
    rw [hT, addAll_get, List.getElem?_map, hx]; rfl
  have hTmem : ∀ g ∈ T, ∃ (r : Nat) (x : List (List (Arc (WithBot ℝ))) × List Nat × List Nat), L[r]? = some x ∧
      g = addW (penAt F B b attr L lam r) x.1 := by
    intro g hg
    obtain ⟨r, hr⟩ := List.getElem?_of_mem hg
    rw [hT, addAll_get, List.getElem?_map] at hr
    cases hx : L[r]? with
    | none => rw [hx] at hr; simp at hr
    | some x => rw [hx] at hr; exact ⟨r, x, hx, (Option.some.inj hr).symm⟩
  have hok : VecOk T := by
    intro g hg
    obtain ⟨r, x, hx, rfl⟩ := hTmem g hg
    obtain ⟨_, _, _, _, hlat⟩ := each_lattice F B b neg L res hH hA hlen hL r x hx
    exact addW_rows _ _ hlat.rows
  have htop : ∀ g ∈ T, ∀ a ∈ g.flatten, a.src < a.dst := by
    intro g hg
    obtain ⟨r, x, hx, rfl⟩ := hTmem g hg
    obtain ⟨_, _, _, _, hlat⟩ := each_lattice F B b neg L res hH hA hlen hL r x hx
    exact addW_top _ _ hlat.top
  have hnT : T.flatten.length ≤ Bat.intMax := by
    have := congrArg List.length (addAll_rows (penAt F B b attr L lam) (L.map Prod.fst))
    rw [List.length_map, List.length_map] at this
    rw [hT, this]; exact hn
  obtain ⟨fwd, hfwd, -⟩ := forward_scores_are_path_sums expB T hok hnT htop
  obtain ⟨bwd, hbwd, -⟩ := backward_scores_are_path_sums expB T hok hnT htop
  obtain ⟨tot, ht1, ht2, ht3⟩ := tot_scores_are_path_sums expB T hok hnT htop fwd bwd lp0 0 (hfwd lp0) (hbwd 0)
  have hTl : T.length = F.length := by
    rw [hT, addAll, List.length_mapIdx, List.length_map, hL.length]
  refine ⟨tot, ?_, by rw [ht2, hTl], ?_⟩
  · unfold totals
    simp only [Option.bind_eq_bind]
    convert (show (some fwd).bind (fun fwd => totScores (flat T) 0 fwd) = some tot from ht1) using 2
    exact hfwd lp0
  · intro r f fr hf hfr
    have hr : r < L.length := by rw [hL.length]; exact (List.getElem?_eq_some_iff.mp hf).1
    have hx := List.getElem?_eq_getElem hr
    set x := L[r] with hxd
    obtain ⟨f', fr', hf', hfr', hlat⟩ := each_lattice F B b neg L res hH hA hlen hL r x hx
    rw [hf] at hf'
    obtain rfl := Option.some.inj hf'
    rw [hfr] at hfr'
    obtain rfl := Option.some.inj hfr'
    obtain ⟨A, hAnd, hAm⟩ : ∃ A : List (List Nat), A.Nodup ∧ ∀ is, is ∈ A ↔ IAccepting (rowsFsa x.1) is := by
      by_cases hpos : 0 < x.1.length
      · obtain ⟨A, h1, h2⟩ := allPaths_exists x.1.flatten hlat.top 0 (x.1.length - 1)
        refine ⟨A, h1, fun is => ?_⟩
        rw [h2]
        exact ⟨fun h => ⟨hpos, h⟩, fun h => h.2⟩
      · exact ⟨[], List.nodup_nil, fun is => ⟨by simp, fun h => absurd h.1 hpos⟩⟩
    have hpath : ∀ is, IAccepting (rowsFsa x.1) is → ∃ p,
        is.map (fun i => x.2.1[i]?) = (is.map (fun i => x.2.1.getD i 0)).map some ∧
        IsAlign f fr (is.map (fun i => x.2.1.getD i 0)) p ∧
        pathWeight expB (addW (penAt F B b attr L lam r) x.1).flatten is =
          alignProb f fr (max lam 0) (((fr.length - 1) / 2 : Nat) : ℝ)
            (masked attr (splits (F.map List.flatten) r) f.flatten) (is.map (fun i => x.2.1.getD i 0)) := by
      rintro is ⟨h0, q, hc, hq⟩
      obtain ⟨js, p, h1, h2, h3, h4, h5⟩ := hlat.sound is q h0 hc hq
      have hjs : is.map (fun i => x.2.1.getD i 0) = js := by
        have := congrArg (List.map (fun (o : Option Nat) => o.getD 0)) h1
        simpa [List.map_map, Function.comp_def, List.getD_eq_getElem?_getD] using this
      rw [hjs]
      refine ⟨p, h1, h2, ?_⟩
      rw [weight_addW _ _ is q hq, alignProb, arcsAt_eq f js p h2.arcs, h4]
      congr 2
      apply delay_eq
      · have := congrArg List.length h1; simpa using this
      · intro k i j hi hj
        have e2 := congrArg List.length hq
        have hil := (List.getElem?_eq_some_iff.mp hi).1
        simp only [List.length_map] at e2
        have hqk := List.getElem?_eq_getElem (show k < q.length by omega)
        have hmb := h5 k i _ hi hqk
        have hma := congrArg (fun l => l[k]?) h1
        simp only [List.getElem?_map, hi, hj, Option.map_some, Option.some.injEq] at hma
        have hqg := congrArg (fun l => l[k]?) hq
        simp only [List.getElem?_map, hi, hqk, Option.map_some, Option.some.injEq] at hqg
        obtain ⟨_, _, t, m, a, a', _, _, ht, ha, ha', hl, hm, hma', hmb', hcc, hfa⟩ :=
          at_arc F B b neg L res hH hA hlen hL r i x hx (List.getElem?_eq_some_iff.mp hqg).1
        have haq := Option.some.inj (hqg.symm.trans ha)
        have hfk : frameAt B b L r i = k := by
          unfold frameAt
          rw [hx, Option.elim_some, List.getD_eq_getElem?_getD, hmb, Option.getD_some, haq,
            show splits B r * b.cols + b.cols * k + (a.label + 1).toNat =
              b.cols * (splits B r + k) + (a.label + 1).toNat by ring,
            Nat.mul_add_div (by omega), Nat.div_eq_of_lt hcc]
          omega
        unfold penAt maskAt
        rw [hfk, hx, Option.elim_some, List.getD_eq_getElem?_getD (l := x.2.1), hma, Option.getD_some,
          List.getD_eq_getElem?_getD, hf, Option.getD_some, List.getD_eq_getElem?_getD, hfr, Option.getD_some,
          Nat.zero_add]
    refine ⟨A.map (fun is => is.map (fun i => x.2.1.getD i 0)), ?_, ?_, ?_, ?_⟩
    · refine List.Nodup.map_on ?_ hAnd
      intro is his is' his' he
      obtain ⟨_, e1, -⟩ := hpath is ((hAm is).mp his)
      obtain ⟨_, e2, -⟩ := hpath is' ((hAm is').mp his')
      exact hlat.unique is is' ((hAm is).mp his) ((hAm is').mp his') (by rw [e1, e2, he])
    · intro js hjs
      obtain ⟨is, his, rfl⟩ := List.mem_map.mp hjs
      obtain ⟨p, -, h, -⟩ := hpath is ((hAm is).mp his)
      exact ⟨p, h⟩
    · intro js p hp hb
      obtain ⟨is, ⟨h1, h2⟩, -⟩ := hlat.complete js p hp hb
      refine List.mem_map.mpr ⟨is, (hAm is).mpr h2, ?_⟩
      have := congrArg (List.map (fun (o : Option Nat) => o.getD 0)) h1
      simpa [List.map_map, Function.comp_def, List.getD_eq_getElem?_getD] using this
    · rw [(ht3 r _ (hTget r x hx)).1 A hAnd (fun is => by rw [hAm, addW_accepting]), List.map_map]
      congr 2
      apply List.map_congr_left
      intro is his
      obtain ⟨p, -, -, h⟩ := hpath is ((hAm is).mp his)
      exact h

end

end Verif.Fsa.Loss
