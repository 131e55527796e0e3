import Verif.Fsa.Random.Pick
import Verif.Fsa.Batches.Props

/-!
# Writing the paths to the storage and reading them back
-/

namespace Verif.Fsa.Rp
open Verif.Ragged Verif.Util Verif.Fsa.Bat Verif.Fsa.Sco Verif.Fsa.Top
variable {W K : Type} [Field K] [LinearOrder K]

/-! ## The numbers of batches -/

theorem flatten_single {X : Type} (c : Nat) (x : X) (m : Nat) :
    ((List.range m).map (fun i => if i = c then [x] else [])).flatten = if c < m then [x] else [] := by
  induction m with
  | zero => simp
  | succ m ih =>
    rw [List.range_succ, List.map_append, List.flatten_append, ih]
    by_cases hm : m = c
    · subst hm; simp
    · by_cases hkm : c < m
      · simp [hm, hkm]; omega
      · rw [if_neg hkm, if_neg (by omega)]; simp [hm]

theorem sizeAt_eq (C : List (List (List Nat))) (k r : Nat) (row : List (List Nat)) (x : List Nat) (hk : C[k]? = some row)
    (hr : row[r]? = some x) : sizeAt (psum (C.map List.length)) (psum (C.flatten.map List.length)) r k = some x.length := by
  have hkl := (List.getElem?_eq_some_iff.mp hk).1
  have hrl := (List.getElem?_eq_some_iff.mp hr).1
  have h1 := row_at C k r row hk hrl
  rw [hr] at h1
  have h1l := (List.getElem?_eq_some_iff.mp h1).1
  have h2 := take_succ_sum (C.flatten.map List.length) _ x.length (by rw [List.getElem?_map, h1]; rfl)
  unfold sizeAt
  rw [psum_get _ k (by simp; omega)]
  simp only [Option.bind_eq_bind, Option.bind_some]
  rw [psum_get _ _ (by rw [List.length_map]; omega), psum_get _ _ (by rw [List.length_map]; omega)]
  simp only [Option.bind_some]
  rw [h2, Nat.add_sub_cancel_left]

theorem batchCount_eq (B C : List (List (List Nat))) (hne : ∀ bs ∈ B, ∀ b ∈ bs, b ≠ []) (hC : Exchanged B C) (r : Nat)
    (bs : List (List Nat)) (hr : B[r]? = some bs) : batchCount (fullLayers 2 (C : List (Nest Nat 2))) r = some bs.length := by
  have hl : fullLayers 2 (C : List (Nest Nat 2)) = [(psum (C.map List.length), idsFrom 0 (C.map List.length)),
      (psum (C.flatten.map List.length), idsFrom 0 (C.flatten.map List.length))] := by
    have h1 := fullLayers_succ 1 (C : List (List (Nest Nat 1)))
    have h2 := fullLayers_succ 0 (C.flatten : List (List (Nest Nat 0)))
    rw [h1]
    refine congrArg _ ?_
    exact h2
  have hm := hC.all bs (List.mem_of_getElem? hr)
  have hsize : ∀ k < C.length, sizeAt (psum (C.map List.length)) (psum (C.flatten.map List.length)) r k =
      some (bs[k]?.getD []).length := by
    intro k hk
    have h1 := List.getElem?_eq_getElem hk
    exact sizeAt_eq C k r _ _ h1 (hC.entry r k bs _ hr h1)
  have hz : ∀ k, (bs[k]?.getD []).length = 0 ↔ bs.length ≤ k := by
    intro k
    rcases Nat.lt_or_ge k bs.length with h | h
    · rw [List.getElem?_eq_getElem h, Option.getD_some]
      have := hne bs (List.mem_of_getElem? hr) bs[k] (List.getElem_mem h)
      have h2 : bs[k].length ≠ 0 := fun hc => this (List.length_eq_zero_iff.mp hc)
      omega
    · rw [List.getElem?_eq_none h]
      simp; exact h
  unfold batchCount
  rw [hl]
  simp only [psum_length, List.length_map, Nat.add_sub_cancel]
  by_cases h0 : C.length = 0
  · rw [if_pos h0]
    congr 1; omega
  rw [if_neg h0]
  have hmap : (List.range C.length).mapM (countWrites (psum (C.map List.length)) (psum (C.flatten.map List.length)) C.length r) =
      some ((List.range C.length).map (fun k => if k = min bs.length (C.length - 1) then [bs.length] else [])) := by
    apply mapM_some_of
    · simp
    · intro i k hk
      have hi : i < C.length := by have := (List.getElem?_eq_some_iff.mp hk).1; simpa using this
      rw [List.getElem?_range hi] at hk
      obtain rfl := Option.some.inj hk
      unfold countWrites
      rw [hsize i hi]
      simp only [Option.bind_eq_bind, Option.bind_some, List.getElem?_map, List.getElem?_range hi, Option.map_some]
      by_cases hb : bs.length ≤ i
      · rw [if_pos ((hz i).mpr hb)]
        by_cases hi0 : i = 0
        · rw [if_pos hi0, if_pos (by omega)]
          congr 2; omega
        · rw [if_neg hi0, hsize (i - 1) (by omega)]
          simp only [Option.bind_some]
          by_cases he : i = bs.length
          · rw [if_pos (by rw [Ne, hz]; omega), if_pos (by omega), he]
          · rw [if_neg (by rw [not_not, hz]; omega), if_neg (by omega)]
      · rw [if_neg (by rw [hz]; omega)]
        by_cases he : i + 1 = C.length
        · rw [if_pos he, if_pos (by omega)]
          congr 2; omega
        · rw [if_neg he, if_neg (by omega)]
  rw [hmap]
  simp only [Option.bind_eq_bind, Option.bind_some]
  rw [flatten_single, if_pos (by omega)]

/-! ## The storage -/

/-- The writes for one path from position `q` on. -/
def slot (q : Nat) (path : List Nat) : List (Nat × Nat) :=
  (q, path.length) :: path.mapIdx (fun i j => (q + (i + 1), j))

theorem slot_fst (q : Nat) (path : List Nat) : (slot q path).map Prod.fst = List.range' q (path.length + 1) := by
  apply List.ext_getElem
  · simp [slot]
  · intro i h1 h2
    cases i with
    | zero => simp [slot]
    | succ i => simp [slot]

/-- The slots of an FSA. -/
def slots (start nb : Nat) (paths : List (List Nat)) : List (Nat × List Nat) :=
  paths.mapIdx (fun k path => (start + k * nb, path))

theorem slots_nodup (Q : List (Nat × List Nat)) (h : Q.Pairwise (fun x y => x.1 + x.2.length + 1 ≤ y.1)) :
    ((Q.flatMap (fun x => slot x.1 x.2)).map Prod.fst).Nodup := by
  rw [List.map_flatMap]
  simp only [slot_fst]
  rw [List.nodup_flatMap]
  refine ⟨fun x _ => List.nodup_range', ?_⟩
  refine h.imp ?_
  intro x y hxy z hz1 hz2
  rw [List.mem_range'_1] at hz1 hz2
  omega

theorem mem_slot_head (q : Nat) (path : List Nat) : (q, path.length) ∈ slot q path := by simp [slot]

theorem mem_slot (q : Nat) (path : List Nat) (i j : Nat) (h : path[i]? = some j) : (q + (i + 1), j) ∈ slot q path := by
  rw [slot]
  refine List.mem_cons_of_mem _ ?_
  rw [List.mem_mapIdx]
  obtain ⟨h1, h2⟩ := List.getElem?_eq_some_iff.mp h
  exact ⟨i, h1, by rw [h2]⟩

section
variable (gpu : Bool) (v : FsaVec W) (cdf : List K) (P : List (List (List Nat))) (nbs : List Nat)
  (layers : List (List Nat × List Nat)) (offs : List Nat)
  (hcl : cdf.length = v.arcs.length) (hsp : v.sp1.length = P.length + 1) (hnb : nbs.length = P.length)
  (hbc : ∀ r < P.length, batchCount layers r = nbs[r]?)
  (hpath : ∀ (r k nb : Nat) (paths : List (List Nat)) (path : List Nat), P[r]? = some paths → paths[k]? = some path →
    nbs[r]? = some nb → 0 < path.length ∧ path.length < nb ∧ ∀ start,
      pathWrites gpu v cdf r start paths.length nb k = some (slot (start + k * nb) path))
include hcl hsp hnb hbc hpath

theorem randomPathsOf_eq : randomPathsOf gpu v cdf (P.map List.length) layers =
    some (psum (P.map List.length), psum (P.flatten.map List.length), P.flatten.flatten) := by
  set sz := List.zipWith (· * ·) (P.map List.length) nbs with hsz
  have hszl : sz.length = P.length := by simp [hsz, hnb]
  have hnget : ∀ r, r < P.length → ∃ paths nb, P[r]? = some paths ∧ nbs[r]? = some nb ∧ sz[r]? = some (paths.length * nb) := by
    intro r hr
    refine ⟨P[r], nbs[r], List.getElem?_eq_getElem hr, List.getElem?_eq_getElem (by omega), ?_⟩
    rw [List.getElem?_eq_getElem (by omega)]
    simp [hsz]
  have h1 : (List.range (v.sp1.length - 1)).mapM (batchCount layers) = some nbs := by
    apply mapM_some_of
    · simp [hsp, hnb]
    · intro i b hb
      have hi : i < P.length := by have := (List.getElem?_eq_some_iff.mp hb).1; simp [hsp] at this; exact this
      rw [List.getElem?_range (by omega)] at hb
      obtain rfl := Option.some.inj hb
      exact hbc i hi
  set Q : Nat → List (Nat × List Nat) := fun r => slots ((sz.take r).sum) (nbs.getD r 0) (P.getD r []) with hQ
  have hQget : ∀ (r : Nat) (paths : List (List Nat)) (nb : Nat), P[r]? = some paths → nbs[r]? = some nb →
      Q r = slots ((sz.take r).sum) nb paths := by
    intro r paths nb hp hn
    simp only [hQ, List.getD_eq_getElem?_getD, hp, hn, Option.getD_some]
  have h2 : (List.range (v.sp1.length - 1)).mapM (fsaWrites gpu v cdf (psum sz) (P.map List.length) nbs) =
      some ((List.range P.length).map (fun r => (Q r).flatMap (fun x => slot x.1 x.2))) := by
    apply mapM_some_of
    · simp [hsp]
    · intro i b hb
      have hi : i < P.length := by have := (List.getElem?_eq_some_iff.mp hb).1; simp [hsp] at this; exact this
      rw [List.getElem?_range (by omega)] at hb
      obtain rfl := Option.some.inj hb
      obtain ⟨paths, nb, g1, g2, g3⟩ := hnget i hi
      have g4 : (P.map List.length)[i]? = some paths.length := by rw [List.getElem?_map, g1]; rfl
      have hm : (List.range paths.length).mapM (pathWrites gpu v cdf i (sz.take i).sum paths.length nb) =
          some (paths.mapIdx (fun k path => slot ((sz.take i).sum + k * nb) path)) := by
        apply mapM_some_of
        · simp
        · intro k k' hk
          have hk' : k < paths.length := by have := (List.getElem?_eq_some_iff.mp hk).1; simpa using this
          rw [List.getElem?_range hk'] at hk
          obtain rfl := Option.some.inj hk
          have hp := List.getElem?_eq_getElem hk'
          rw [(hpath i k nb paths _ g1 hp g2).2.2, List.getElem?_mapIdx, hp]
          rfl
      unfold fsaWrites
      rw [psum_get _ i (by omega)]
      simp only [Option.bind_eq_bind, Option.bind_some, g4, g2, hm]
      rw [List.getElem?_map, List.getElem?_range hi, Option.map_some, hQget i paths nb g1 g2, slots, List.flatMap_def]
      congr 2
      apply List.ext_getElem <;> simp
  set QQ := (List.range P.length).flatMap Q with hQQ
  have hflat : ((List.range P.length).map (fun r => (Q r).flatMap (fun x => slot x.1 x.2))).flatten =
      QQ.flatMap (fun x => slot x.1 x.2) := by
    rw [hQQ, List.flatMap_assoc, List.flatMap_def]
  have hmemQ : ∀ r x, r < P.length → x ∈ Q r → (sz.take r).sum ≤ x.1 ∧ x.1 + x.2.length + 1 ≤ (sz.take (r + 1)).sum := by
    intro r x hr hx
    obtain ⟨paths, nb, g1, g2, g3⟩ := hnget r hr
    rw [hQget r paths nb g1 g2, slots, List.mem_mapIdx] at hx
    obtain ⟨k, hk, rfl⟩ := hx
    have h3 := (hpath r k nb paths _ g1 (List.getElem?_eq_getElem hk) g2).2.1
    rw [take_succ_sum sz r _ g3]
    refine ⟨Nat.le_add_right _ _, ?_⟩
    have h4 : (k + 1) * nb ≤ paths.length * nb := Nat.mul_le_mul_right nb hk
    rw [Nat.add_mul, Nat.one_mul] at h4
    simp only
    omega
  have hpw : QQ.Pairwise (fun x y => x.1 + x.2.length + 1 ≤ y.1) := by
    rw [hQQ, List.pairwise_flatMap]
    refine ⟨?_, ?_⟩
    · intro r hr
      obtain ⟨paths, nb, g1, g2, g3⟩ := hnget r (List.mem_range.mp hr)
      rw [hQget r paths nb g1 g2, slots, List.pairwise_iff_getElem]
      intro i j hi hj hij
      simp only [List.length_mapIdx] at hi hj
      simp only [List.getElem_mapIdx]
      have h3 := (hpath r i nb paths _ g1 (List.getElem?_eq_getElem hi) g2).2.1
      have h4 : (i + 1) * nb ≤ j * nb := Nat.mul_le_mul_right nb hij
      rw [Nat.add_mul, Nat.one_mul] at h4
      omega
    · refine List.Pairwise.imp_of_mem ?_ (List.pairwise_lt_range (n := P.length))
      intro r r' hr hr' hlt x hx y hy
      have h3 := (hmemQ r x (List.mem_range.mp hr) hx).2
      have h4 := (hmemQ r' y (List.mem_range.mp hr') hy).1
      have h5 := take_sum_mono sz (show r + 1 ≤ r' from hlt)
      omega
  have hnd := slots_nodup QQ hpw
  have hst : ∀ (r k nb : Nat) (paths : List (List Nat)) (path : List Nat), P[r]? = some paths → paths[k]? = some path →
      nbs[r]? = some nb →
      storageOf (psum sz) (psum (P.map List.length)) (idsFrom 0 (P.map List.length)) nbs (splits P r + k) =
        some ((sz.take r).sum + k * nb, nb) := by
    intro r k nb paths path g1 g2 g3
    have hr := (List.getElem?_eq_some_iff.mp g1).1
    have hk := (List.getElem?_eq_some_iff.mp g2).1
    have e1 := ids_at (P.map List.length) r paths.length k (by rw [List.getElem?_map, g1]; rfl) hk
    have e2 : splits P r = ((P.map List.length).take r).sum := by rw [splits, List.map_take]
    unfold storageOf
    rw [e2, e1]
    simp only [Option.bind_eq_bind, Option.bind_some]
    rw [psum_get _ r (by simp; omega), g3, psum_get _ r (by omega)]
    simp
  have hin : ∀ (r k nb : Nat) (paths : List (List Nat)) (path : List Nat), P[r]? = some paths → paths[k]? = some path →
      nbs[r]? = some nb → ∀ w ∈ slot ((sz.take r).sum + k * nb) path, w ∈ QQ.flatMap (fun x => slot x.1 x.2) := by
    intro r k nb paths path g1 g2 g3 w hw
    rw [List.mem_flatMap]
    refine ⟨((sz.take r).sum + k * nb, path), ?_, hw⟩
    rw [hQQ, List.mem_flatMap]
    refine ⟨r, List.mem_range.mpr (List.getElem?_eq_some_iff.mp g1).1, ?_⟩
    rw [hQget r paths nb g1 g3, slots, List.mem_mapIdx]
    obtain ⟨hk, e⟩ := List.getElem?_eq_some_iff.mp g2
    exact ⟨k, hk, by rw [e]⟩
  have h3 : (List.range (P.map List.length).sum).mapM (pathLength (QQ.flatMap (fun x => slot x.1 x.2)) (psum sz)
      (psum (P.map List.length)) (idsFrom 0 (P.map List.length)) nbs) = some (P.flatten.map List.length) := by
    have e : P.flatten.map List.length = (P.map (fun paths => paths.map List.length)).flatten := by
      rw [List.map_flatten]
    rw [e]
    refine mapM_rows _ _ ?_ _ ?_
    · rw [← e, List.length_map, List.length_flatten]
    · intro r k row y hr hk
      rw [splits_map P _ (fun w _ => by simp)]
      obtain ⟨paths, g1, rfl⟩ : ∃ paths, P[r]? = some paths ∧ paths.map List.length = row := by simpa using hr
      obtain ⟨path, g2, rfl⟩ : ∃ path, paths[k]? = some path ∧ path.length = y := by simpa using hk
      have hrl := (List.getElem?_eq_some_iff.mp g1).1
      have g3 := List.getElem?_eq_getElem (show r < nbs.length by omega)
      generalize nbs[r] = nb at g3
      obtain ⟨p1, p2, _⟩ := hpath r k nb paths path g1 g2 g3
      unfold pathLength
      rw [hst r k nb paths path g1 g2 g3]
      simp only [Option.bind_eq_bind, Option.bind_some]
      rw [readWritten_eq _ hnd _ _ (hin r k nb paths path g1 g2 g3 _ (mem_slot_head _ _))]
      simp [p1, p2]
  have h4 : (List.range (P.flatten.map List.length).sum).mapM (pathArc (QQ.flatMap (fun x => slot x.1 x.2)) (psum sz)
      (psum (P.map List.length)) (idsFrom 0 (P.map List.length)) nbs (psum (P.flatten.map List.length))
      (idsFrom 0 (P.flatten.map List.length))) = some P.flatten.flatten := by
    refine mapM_rows _ _ (by rw [List.length_flatten (L := P.flatten)]) _ ?_
    intro i x path y hi hx
    have hil := (List.getElem?_eq_some_iff.mp hi).1
    have hxl := (List.getElem?_eq_some_iff.mp hx).1
    obtain ⟨r, paths, k, g1, hk, rfl⟩ := flatten_pos P i hil
    have g2 := flatten_get P r paths g1 k hk
    rw [hi] at g2
    have hrl := (List.getElem?_eq_some_iff.mp g1).1
    have g3 := List.getElem?_eq_getElem (show r < nbs.length by omega)
    generalize nbs[r] = nb at g3
    have e1 := ids_at (P.flatten.map List.length) (splits P r + k) path.length x (by rw [List.getElem?_map, hi]; rfl) hxl
    have e2 : splits P.flatten (splits P r + k) = ((P.flatten.map List.length).take (splits P r + k)).sum := by
      rw [splits, List.map_take]
    unfold pathArc
    rw [e2, e1]
    simp only [Option.bind_eq_bind, Option.bind_some]
    rw [psum_get _ _ (by rw [List.length_map]; omega), hst r k nb paths path g1 g2.symm g3]
    simp only [Option.bind_some]
    rw [Nat.add_sub_cancel_left, Nat.add_comm 1 x]
    exact readWritten_eq _ hnd _ _ (hin r k nb paths path g1 g2.symm g3 _ (mem_slot _ _ _ _ hx))
  unfold randomPathsOf
  rw [if_neg (by rw [hcl, hsp]; simp)]
  simp only [h1, Option.bind_eq_bind, Option.bind_some]
  rw [← hsz]
  simp only [h2, hflat, rowSplitsToRowIds_psum, h3, h4, Option.bind_some]
end

end Verif.Fsa.Rp
