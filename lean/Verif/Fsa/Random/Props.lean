import Verif.Fsa.Random.Lemmas

/-!
# C97: `random_paths` takes every path as often as its weight demands

`k2.random_paths(fsas, use_double_scores, num_paths)` returns `num_paths` paths per FSA.  The weight of a path is the
product of the exponentials of the scores of its arcs.
-/

namespace Verif.Fsa
open Verif.Ragged Verif.Util Verif.Fsa.Bat Verif.Fsa.Sco Verif.Fsa.Top Verif.Fsa.Rp
variable {W K : Type} [Field K] [LinearOrder K] [IsStrictOrderedRing K]

/-! ## Specification -/

/-- `paths` is a fair sample of `n` accepting paths of `f`: an accepting path of weight `w` occurs `n * w / total`
times, rounded up or down.  There are no paths if all accepting paths weigh nothing.  A path is a list of arcs of the
vector; the arcs of `f` start at `first`. -/
def FairSample (wt : W → K) (f : List (List (Arc W))) (first n : Nat) (paths : List (List Nat)) : Prop :=
  ∀ L : List (List Nat), L.Nodup → (∀ is, is ∈ L ↔ IAccepting (rowsFsa f) is) →
    ((L.map (pathWeight wt f.flatten)).sum = 0 → paths = []) ∧
    ((L.map (pathWeight wt f.flatten)).sum ≠ 0 → paths.length = n ∧
      (∀ path ∈ paths, ∃ is ∈ L, path = is.map (first + ·)) ∧
      ∀ is ∈ L, |((paths.count (is.map (first + ·)) : Nat) : K) -
        n * (pathWeight wt f.flatten is / (L.map (pathWeight wt f.flatten)).sum)| < 1)

/-! ## Theorems -/

section
variable (low : K) (hlow : 0 < low) (wt : W → K) (hwt : ∀ w, 0 ≤ wt w) (mid : K → K → K) (hmid : ∀ x, mid x x = x)
  (n : Nat) (hn0 : 0 < n) (T : List (List (List (Arc W)))) (hT : VecOk T) (hn : T.flatten.length ≤ intMax)
  (hfw : ∀ f ∈ T, ∀ a ∈ f.flatten, a.src < a.dst) (hone : ∀ f ∈ T, f.length ≠ 1)
include hlow hwt hmid hn0 hT hn hfw hone

/-- C97: `random_paths` returns a fair sample of the accepting paths of every FSA, the same one on the CPU and on a
GPU. -/
theorem random_paths_sample : ∃ P : List (List (List Nat)),
    (∀ gpu lp0, randomPaths gpu lp0 low wt mid n (flat T) =
      some (psum (P.map List.length), psum (P.flatten.map List.length), P.flatten.flatten)) ∧
    P.length = T.length ∧
    ∀ (r : Nat) (f : List (List (Arc W))) (paths : List (List Nat)), T[r]? = some f → P[r]? = some paths →
      FairSample wt f (base T r) n paths := by
  obtain ⟨fwd, f1, f2, f3⟩ := forward_fixed (fun (x : K) w => x * wt w) (· + ·) 0 1
    (fun l l' h => reduceRow_add_perm l l' h) T hT hn hfw
  obtain ⟨bwd, b1, b2, b3⟩ := backward_fixed (fun (x : K) w => x * wt w) (· + ·) 0 1
    (fun l l' h => reduceRow_add_perm l l' h) T hT hn hfw
  obtain ⟨fwd', f1', _, f4⟩ := forward_scores_are_path_sums wt T hT hn hfw
  obtain ⟨bwd', b1', _, b4⟩ := backward_scores_are_path_sums wt T hT hn hfw
  have hf' := f1 0
  rw [f1'] at hf'
  obtain rfl := Option.some.inj hf'
  have hb' := b1 0
  rw [b1'] at hb'
  obtain rfl := Option.some.inj hb'
  obtain ⟨tot, t1, t2, t3⟩ := tot_scores_are_path_sums wt T hT hn hfw fwd' bwd' 0 0 (f1 0) (b1 0)
  obtain ⟨post, p1, p2, p3⟩ := arcPost_eq wt mid hmid T hT hn hfw fwd' bwd' 0 0 (f1 0) (b1 0)
  obtain ⟨B, C, hB, hC, hsb⟩ := stateBatchesT_spec T hT hn hfw
  have hsum0 : ∀ (A : List (Arc W)) (L : List (List Nat)), 0 ≤ (L.map (pathWeight wt A)).sum := by
    intro A L
    apply List.sum_nonneg
    intro x hx
    obtain ⟨is, _, rfl⟩ := List.mem_map.mp hx
    apply List.prod_nonneg
    intro y hy
    obtain ⟨j, _, rfl⟩ := List.mem_map.mp hy
    cases A[j]? with
    | none => exact zero_le_one
    | some a => exact hwt _
  have hF0 : ∀ (r s : Nat) (f : List (List (Arc W))), T[r]? = some f → s < f.length → 0 ≤ fwd'.getD (off T r + s) 0 := by
    intro r s f hf hs
    obtain ⟨L, hL⟩ := allPaths_exists f.flatten (hfw f (List.mem_of_getElem? hf)) 0 s
    rw [List.getD_eq_getElem?_getD, f4 r s f hf hs L hL, Option.getD_some]
    exact hsum0 _ _
  have hB0 : ∀ (r s : Nat) (f : List (List (Arc W))), T[r]? = some f → s < f.length → 0 ≤ bwd'.getD (off T r + s) 0 := by
    intro r s f hf hs
    obtain ⟨L, hL⟩ := allPaths_exists f.flatten (hfw f (List.mem_of_getElem? hf)) s (f.length - 1)
    rw [List.getD_eq_getElem?_getD, b4 r s f hf hs L hL, Option.getD_some]
    exact hsum0 _ _
  have hBeta : ∀ (r : Nat) (f : List (List (Arc W))), T[r]? = some f → 0 < f.length →
      Beta f wt (fun s => bwd'.getD (off T r + s) 0) := by
    intro r f hf hpos
    have hm := List.mem_of_getElem? hf
    refine ⟨hT f hm, hfw f hm, hwt, fun s hs => hB0 r s f hf hs, ?_, ?_⟩
    · have := b3 r f hf (f.length - 1) (by omega)
      rw [if_pos (by omega)] at this
      exact this
    · intro s hs
      have := b3 r f hf s (by omega)
      rw [if_neg (by omega), reduceRow_add, filter_rows f (hT f hm) s] at this
      refine this.trans ?_
      rw [vrow]
      congr 1
      apply List.map_congr_left
      intro a _
      exact mul_comm _ _
  -- the posteriors in rows
  set U := cutRows T post with hUdef
  have hUf : U.flatten = post := cutRows_flatten T post p2
  have hpost0 : ∀ x ∈ post, 0 ≤ x := by
    intro x hx
    obtain ⟨i, hi⟩ := List.getElem?_of_mem hx
    have hil := (List.getElem?_eq_some_iff.mp hi).1
    obtain ⟨r, f, k, a, h1, h2, rfl⟩ := arc_global T i (by omega)
    obtain ⟨h3, h4⟩ := vec_arc_lt hT (List.mem_of_getElem? h1) a (List.mem_of_getElem? h2)
    rw [p3 r k f a h1 h2] at hi
    obtain rfl := Option.some.inj hi
    have h5 := hB0 r 0 f h1 (by omega)
    rw [Nat.add_zero] at h5
    exact mul_nonneg (mul_nonneg (mul_nonneg (hF0 r _ f h1 h3) (hwt _)) (hB0 r _ f h1 h4)) (inv_nonneg.mpr h5)
  have hU0 : ∀ w ∈ U, ∀ x ∈ w, 0 ≤ x := fun w hw x hx =>
    hpost0 x (by rw [← hUf]; exact List.mem_flatten.mpr ⟨w, hw, hx⟩)
  have hcdf := arcCdf_eq low hlow (flat T) U hU0 (by rw [cutRows_lengths]; rfl) (by rw [hUf, p2]; rfl)
    (by rw [flat_id1_length]; simp [hUdef, cutRows]) (by
      intro g k w hg hk
      have hgl : g < T.flatten.length := by
        have := (List.getElem?_eq_some_iff.mp hg).1
        simpa [hUdef, cutRows] using this
      have hrow := List.getElem?_eq_getElem hgl
      rw [hUdef, cutRows_get T post g _ hrow] at hg
      obtain rfl := Option.some.inj hg
      simp only [List.length_map, List.length_range'] at hk
      rw [hUdef, cutRows_splits]
      exact flat_id2 T g k _ hrow hk)
  rw [hUf] at hcdf
  set cdf := (U.map cdfRow).flatten with hcdfd
  have hcl : cdf.length = (flat T).arcs.length := by
    rw [hcdfd, length_map_flatten U _ (fun w _ => cdfRow_length w), hUf, p2]; rfl
  -- the distribution at a state
  have hcum : ∀ (r : Nat) (f : List (List (Arc W))), T[r]? = some f → 0 < bwd'.getD (off T r) 0 →
      ∀ s, s + 1 < f.length → 0 < fwd'.getD (off T r + s) 0 → 0 < bwd'.getD (off T r + s) 0 →
      ∀ k < (vrow f wt (fun s => bwd'.getD (off T r + s) 0) s).length,
        cdf[base T r + lpos f s + k]? = some (cum f wt (fun s => bwd'.getD (off T r + s) 0) s k) := by
    intro r f hf hb0 s hs hfs hbs k hk
    have hg := state_at T r s f hf (by omega)
    have hrow := List.getElem?_eq_getElem (show s < f.length by omega)
    generalize f[s] = row at hrow
    rw [hrow] at hg
    have hapos : apos T (off T r + s) = base T r + lpos f s := by
      rw [apos_local T r s f hf (by omega)]; rfl
    have hUg := cutRows_get T post _ row hg
    rw [← hUdef] at hUg
    have hvr : f.getD s [] = row := by rw [List.getD_eq_getElem?_getD, hrow]; rfl
    have hw : (List.range' (apos T (off T r + s)) row.length).map (fun i => post.getD i 0) =
        (vrow f wt (fun s => bwd'.getD (off T r + s) 0) s).map
          (fun x => fwd'.getD (off T r + s) 0 * (bwd'.getD (off T r) 0)⁻¹ * x) := by
      apply List.ext_getElem?
      intro i
      rw [vrow, hvr, List.map_map, List.getElem?_map, List.getElem?_map]
      rcases Nat.lt_or_ge i row.length with hi | hi
      · have ha := List.getElem?_eq_getElem hi
        have hsrc := ((hT f (List.mem_of_getElem? hf)) s row hrow row[i] (List.getElem_mem hi)).1
        have h3 := p3 r (lpos f s + i) f row[i] hf (row_arc f s i row _ hrow ha)
        rw [List.getElem?_range' hi, ha, Option.map_some, Option.map_some, Nat.one_mul, hapos, Nat.add_assoc,
          List.getD_eq_getElem?_getD, h3, Option.getD_some, hsrc]
        simp only [Function.comp]
        congr 1
        ring
      · rw [List.getElem?_eq_none (by simpa using hi), List.getElem?_eq_none hi]
        rfl
    rw [hw] at hUg
    have hUc : (U.map cdfRow)[off T r + s]? = some (cdfRow ((vrow f wt (fun s => bwd'.getD (off T r + s) 0) s).map
          (fun x => fwd'.getD (off T r + s) 0 * (bwd'.getD (off T r) 0)⁻¹ * x))) := by
      rw [List.getElem?_map, hUg]; rfl
    have h5 := flatten_get _ _ _ hUc k (by rw [cdfRow_length, List.length_map]; exact hk)
    rw [splits_map U _ (fun w _ => cdfRow_length w), hUdef, cutRows_splits, hapos, ← hUdef,
      cdfRow_get _ k (by rw [List.length_map]; exact hk)] at h5
    refine h5.trans ?_
    have hc : fwd'.getD (off T r + s) 0 * (bwd'.getD (off T r) 0)⁻¹ ≠ 0 := mul_ne_zero hfs.ne' (inv_ne_zero hb0.ne')
    rw [← List.map_take, List.sum_map_mul_left, List.sum_map_mul_left, mul_div_mul_left _ _ hc]
    have hst := (hBeta r f hf (by omega)).step s hs
    simp only [List.map_id'] at *
    rw [cum, hst]
  -- the paths of one FSA
  have hnbs : B.length = T.length := hB.length
  have hfsa : ∀ r, r < T.length → ∃ paths : List (List Nat), ∃ x, tot[r]? = some x ∧
      paths.length = (if 0 < x then n else 0) ∧ FairSample wt (T.getD r []) (base T r) n paths ∧
      ∀ (k nb : Nat) (path : List Nat), paths[k]? = some path → (B.map List.length)[r]? = some nb →
        0 < path.length ∧ path.length < nb ∧
        ∀ gpu start, pathWrites gpu (flat T) cdf r start paths.length nb k = some (slot (start + k * nb) path) := by
    intro r hr
    have hf := List.getElem?_eq_getElem hr
    generalize T[r] = f at hf
    have hfD : T.getD r [] = f := by rw [List.getD_eq_getElem?_getD, hf]; rfl
    have hm := List.mem_of_getElem? hf
    rw [hfD]
    have hx := List.getElem?_eq_getElem (show r < tot.length by omega)
    generalize tot[r] = x at hx
    by_cases hx0 : 0 < x
    swap
    · refine ⟨[], x, hx, by rw [if_neg hx0]; rfl, ?_, by intro k nb path hk; simp at hk⟩
      intro L hL1 hL2
      refine ⟨fun _ => rfl, fun hne => absurd ?_ hx0⟩
      have := (t3 r f hf).1 L hL1 hL2
      rw [hx] at this
      obtain rfl := Option.some.inj this
      exact lt_of_le_of_ne (hsum0 _ _) (Ne.symm hne)
    · have hfne : f ≠ [] := by
        rintro rfl
        have := (t3 r [] hf).1 [] List.nodup_nil (by
          intro is
          simp only [List.not_mem_nil, false_iff]
          intro h
          have := h.1
          simp [rowsFsa] at this)
        rw [hx] at this
        obtain rfl := Option.some.inj this
        simp at hx0
      have hpos : 0 < f.length := List.length_pos_iff.mpr hfne
      have h2 : 2 ≤ f.length := by have := hone f hm; omega
      have hxb : x = bwd'.getD (off T r) 0 := by
        have := (t3 r f hf).2 hfne
        rw [hx] at this
        rw [List.getD_eq_getElem?_getD, ← this]; rfl
      have H := hBeta r f hf hpos
      set β : Nat → K := fun s => bwd'.getD (off T r + s) 0 with hβ
      have hb0 : 0 < β 0 := by simp only [hβ, Nat.add_zero]; rw [← hxb]; exact hx0
      obtain ⟨bs, hbs⟩ : ∃ bs, B[r]? = some bs := ⟨_, List.getElem?_eq_getElem (by omega)⟩
      have hR : ∀ a ∈ f.flatten, 0 < fwd'.getD (off T r + a.src) 0 → 0 < wt a.score → 0 < fwd'.getD (off T r + a.dst) 0 := by
        intro a ha h3 h4
        obtain ⟨h5, h6⟩ := vec_arc_lt hT hm a ha
        have h7 := hfw f hm a ha
        have h8 := f3 r f hf a.dst h6
        rw [if_neg (by omega), reduceRow_add] at h8
        have h9 : fwd'.getD (off T r + a.src) 0 * wt a.score ≤ fwd'.getD (off T r + a.dst) 0 := by
          refine le_of_le_of_eq ?_ h8.symm
          apply List.single_le_sum
          · intro y hy
            obtain ⟨c, hc, rfl⟩ := List.mem_map.mp hy
            have hc' := (List.mem_filter.mp hc).1
            exact mul_nonneg (hF0 r _ f hf (vec_arc_lt hT hm c hc').1) (hwt _)
          · exact List.mem_map.mpr ⟨a, List.mem_filter.mpr ⟨ha, by simp⟩, rfl⟩
        exact lt_of_lt_of_le (mul_pos h3 h4) h9
      have hR0 : 0 < fwd'.getD (off T r + 0) 0 := by
        have := f3 r f hf 0 hpos
        rw [if_pos rfl] at this
        exact lt_of_lt_of_eq zero_lt_one this.symm
      have hshort : ∀ is, IPath f.flatten 0 is (f.length - 1) → is.length < bs.length := by
        intro is his
        have hmem : off T r + 0 ∈ bs.flatten := by
          rw [hB.part r f bs hf hbs, List.mem_range'_1]; omega
        obtain ⟨b, hb, hm'⟩ := List.mem_flatten.mp hmem
        obtain ⟨k, hk⟩ := List.getElem?_of_mem hb
        have := path_lt_batches hB hT r f bs hf hbs is 0 _ k b his hk hm'
        omega
      have hwalk : ∀ (gpu : Bool) (is : List Nat) (p : K), IPath f.flatten 0 is (f.length - 1) → In f wt β 0 is p → p < 1 →
          walk gpu (flat T) cdf (off T r) (off T r + f.length - 1) bs.length (bs.length + 1) 0 (off T r) p =
            some (is.map (base T r + ·)) := by
        intro gpu is p his hin hp1
        have hs := hshort is his
        exact walk_eq H T r hf cdf (fun s => 0 < fwd'.getD (off T r + s) 0) hR
          (fun s hs hRs hbs' => hcum r f hf (by rw [← hxb]; exact hx0) s hs hRs hbs') gpu bs.length is 0 (bs.length + 1) 0 p his
          hpos hR0 hb0 hin hp1 (by omega) (by omega)
      have hnK : (0 : K) < n := by exact_mod_cast hn0
      have hpt : ∀ k < n, 0 ≤ (1 / 2 + (k : K)) / (n : K) ∧ (1 / 2 + (k : K)) / (n : K) < 1 := by
        intro k hk
        have h3 : (0 : K) ≤ k := Nat.cast_nonneg k
        have h4 : (k : K) + 1 ≤ n := by exact_mod_cast hk
        refine ⟨div_nonneg (by linarith) hnK.le, ?_⟩
        rw [div_lt_one hnK]; linarith
      have hex : ∀ k, ∃ is, k < n → IPath f.flatten 0 is (f.length - 1) ∧ In f wt β 0 is ((1 / 2 + (k : K)) / (n : K)) := by
        intro k
        by_cases hk : k < n
        · obtain ⟨is, h3⟩ := H.exists_in f.length 0 (by omega) hpos hb0 _ (hpt k hk).1 (hpt k hk).2
          exact ⟨is, fun _ => h3⟩
        · exact ⟨[], fun h => absurd h hk⟩
      choose g hg using hex
      refine ⟨(List.range n).map (fun k => (g k).map (base T r + ·)), x, hx, by rw [if_pos hx0]; simp, ?_, ?_⟩
      · intro L hL1 hL2
        have htot := (t3 r f hf).1 L hL1 hL2
        rw [hx] at htot
        have htot := Option.some.inj htot
        rw [← htot]
        have hacc : ∀ is, is ∈ L ↔ IPath f.flatten 0 is (f.length - 1) := by
          intro is
          rw [hL2]
          exact ⟨fun h => h.2, fun h => ⟨hpos, h⟩⟩
        refine ⟨fun h => absurd h hx0.ne', fun _ => ⟨by simp, ?_, ?_⟩⟩
        · intro path hp
          obtain ⟨k, hk, rfl⟩ := List.mem_map.mp hp
          exact ⟨g k, (hacc _).mpr (hg k (List.mem_range.mp hk)).1, rfl⟩
        · intro is his
          have hip := (hacc is).mp his
          obtain ⟨l1, l2⟩ := H.lo_bounds is 0 hip hpos hb0
          have hq : 0 ≤ pathWeight wt f.flatten is / β 0 := div_nonneg (H.pathWeight_nonneg is) hb0.le
          have hcount : ((List.range n).map (fun k => (g k).map (base T r + ·))).count (is.map (base T r + ·)) =
              (List.range n).countP (fun i : Nat => decide (lo f wt β 0 is ≤ (1 / 2 + (i : K)) / n ∧
                (1 / 2 + (i : K)) / n < lo f wt β 0 is + pathWeight wt f.flatten is / β 0)) := by
            rw [List.count_eq_countP, List.countP_map]
            apply List.countP_congr
            intro k hk
            have hk := List.mem_range.mp hk
            obtain ⟨g1, g2⟩ := hg k hk
            simp only [Function.comp, beq_iff_eq, decide_eq_true_eq]
            constructor
            · intro he
              have hinj : g k = is := List.map_injective_iff.mpr (fun a b h => Nat.add_left_cancel h) he
              rw [← hinj]
              exact g2
            · intro hin
              have w1 := hwalk false (g k) _ g1 g2 (hpt k hk).2
              have w2 := hwalk false is _ hip hin (hpt k hk).2
              rw [w1] at w2
              exact Option.some.inj w2
          rw [hcount, show x = β 0 by rw [hxb, hβ]; simp]
          exact points_in n hn0 _ _ l1 hq l2
      · intro k nb path hk hnb
        have hkn : k < n := by have := (List.getElem?_eq_some_iff.mp hk).1; simpa using this
        rw [List.getElem?_map, List.getElem?_range hkn, Option.map_some] at hk
        obtain rfl := Option.some.inj hk
        rw [List.getElem?_map, hbs] at hnb
        obtain rfl := Option.some.inj hnb
        obtain ⟨g1, g2⟩ := hg k hkn
        rw [List.length_map]
        refine ⟨?_, hshort _ g1, ?_⟩
        · cases hgk : g k with
          | nil =>
            rw [hgk, ipath_nil] at g1
            omega
          | cons j js => simp
        · intro gpu start
          unfold pathWrites
          rw [flat_sp1 T r (by omega), flat_sp1_succ T r f hf]
          simp only [Option.bind_eq_bind, Option.bind_some]
          rw [List.length_map, List.length_range, hwalk gpu _ _ g1 g2 (hpt k hkn).2]
          rfl
  have hfsa' : ∀ r, ∃ paths : List (List Nat), r < T.length → ∃ x, tot[r]? = some x ∧
      paths.length = (if 0 < x then n else 0) ∧ FairSample wt (T.getD r []) (base T r) n paths ∧
      ∀ (k nb : Nat) (path : List Nat), paths[k]? = some path → (B.map List.length)[r]? = some nb →
        0 < path.length ∧ path.length < nb ∧
        ∀ gpu start, pathWrites gpu (flat T) cdf r start paths.length nb k = some (slot (start + k * nb) path) := by
    intro r
    by_cases hr : r < T.length
    · obtain ⟨paths, h⟩ := hfsa r hr
      exact ⟨paths, fun _ => h⟩
    · exact ⟨[], fun h => absurd h hr⟩
  choose g hg using hfsa'
  have hPget : ∀ (r : Nat) (paths : List (List Nat)), ((List.range T.length).map g)[r]? = some paths →
      r < T.length ∧ g r = paths := by
    intro r paths h
    have hr : r < T.length := by have := (List.getElem?_eq_some_iff.mp h).1; simpa using this
    rw [List.getElem?_map, List.getElem?_range hr] at h
    exact ⟨hr, Option.some.inj h⟩
  refine ⟨(List.range T.length).map g, ?_, by simp, ?_⟩
  · intro gpu lp0
    have hnps : tot.map (fun x => if 0 < x then n else 0) = ((List.range T.length).map g).map List.length := by
      apply List.ext_getElem?
      intro r
      rw [List.getElem?_map, List.getElem?_map, List.getElem?_map]
      rcases Nat.lt_or_ge r T.length with hr | hr
      · obtain ⟨x, h3, h4, _⟩ := hg r hr
        rw [List.getElem?_range hr, h3, Option.map_some, Option.map_some, Option.map_some, h4]
      · rw [List.getElem?_eq_none (by omega), List.getElem?_eq_none (by simpa using hr)]
        rfl
    have hfin := randomPathsOf_eq gpu (flat T) cdf ((List.range T.length).map g) (B.map List.length)
      (fullLayers 2 (C : List (Nest Nat 2))) hcl (by rw [flat_sp1_length]; simp) (by simp [hnbs]) (by
        intro r hr
        have hr : r < T.length := by simpa using hr
        have hb := List.getElem?_eq_getElem (show r < B.length by omega)
        rw [batchCount_eq B C hB.nonempty hC r _ hb, List.getElem?_map, hb]
        rfl) (by
        intro r k nb paths path h3 h4 h5
        obtain ⟨hr, rfl⟩ := hPget r paths h3
        obtain ⟨x, _, _, _, h6⟩ := hg r hr
        obtain ⟨h7, h8, h9⟩ := h6 k nb path h4 h5
        exact ⟨h7, h8, fun start => h9 gpu start⟩)
    unfold randomPaths
    rw [if_neg (by omega)]
    simp only [f1, b1, p1, hcdf, t1, hsb, Option.bind_eq_bind, Option.bind_some]
    unfold randomPathsN
    rw [hnps]
    exact hfin
  · intro r f paths hf hp
    obtain ⟨hr, rfl⟩ := hPget r paths hp
    obtain ⟨x, _, _, h6, _⟩ := hg r hr
    rw [List.getD_eq_getElem?_getD, hf] at h6
    exact h6
end

/-! ## Examples -/

/-- The first FSA has two paths of weights 3 and 1, the second one has no path. -/
def sampleExample : List (List (List (Arc Nat))) :=
  [[[⟨0, 1, 1, 3⟩, ⟨0, 1, 2, 1⟩], [⟨1, 2, -1, 1⟩], []], [[], []]]

theorem sampleExample_ok : VecOk sampleExample := by
  intro f hf
  rcases List.mem_cons.mp hf with rfl | hf
  · intro s row hs a ha
    match s with
    | 0 => simp at hs; subst hs; simp at ha; rcases ha with rfl | rfl <;> decide
    | 1 => simp at hs; subst hs; simp at ha; subst ha; decide
    | 2 => simp at hs; subst hs; simp at ha
    | s + 3 => simp at hs
  · simp at hf; subst hf
    intro s row hs a ha
    match s with
    | 0 => simp at hs; subst hs; simp at ha
    | 1 => simp at hs; subst hs; simp at ha
    | s + 2 => simp at hs

/-- Three times the first path, once the second. -/
example : randomPaths false 4 (1 / 1000 : ℚ) (fun w : Nat => (w : ℚ)) (fun x y => (x + y) / 2) 4 (flat sampleExample) =
    some ([0, 4, 4], [0, 2, 4, 6, 8], [0, 2, 0, 2, 0, 2, 1, 2]) := by decide +kernel

example : randomPaths true 0 (1 / 1000 : ℚ) (fun w : Nat => (w : ℚ)) (fun x y => (x + y) / 2) 4 (flat sampleExample) =
    some ([0, 4, 4], [0, 2, 4, 6, 8], [0, 2, 0, 2, 0, 2, 1, 2]) := by decide +kernel

example (n : Nat) (h : 0 < n) := random_paths_sample (1 / 1000 : ℚ) (by norm_num) (fun w : Nat => (w : ℚ))
  (fun w => Nat.cast_nonneg w) (fun x y => (x + y) / 2) (by intro x; ring) n h sampleExample sampleExample_ok
  (by decide) (by decide) (by decide)

/-- An FSA with one state accepts the empty path, but `random_paths` stops at a failed check
(`K2_CHECK_GT(path_length, 0)`, k2/csrc/fsa_utils.cu 2605). -/
theorem random_paths_one_state : IAccepting (rowsFsa ([[]] : List (List (Arc Nat)))) [] ∧
    ∀ gpu, randomPaths gpu 4 (1 / 1000 : ℚ) (fun w : Nat => (w : ℚ)) (fun x y => (x + y) / 2) 1
      (flat ([[[]]] : List (List (List (Arc Nat))))) = none := by
  refine ⟨⟨by decide, (ipath_nil _ _ _).mpr rfl⟩, fun gpu => ?_⟩
  cases gpu <;> decide +kernel

end Verif.Fsa
