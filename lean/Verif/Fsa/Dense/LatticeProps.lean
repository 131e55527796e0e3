import Verif.Fsa.Dense.Lattice
import Verif.Fsa.Scores.Paths

/-!
# The lattice of one FSA is the pruned intersection
-/

set_option linter.unusedSectionVars false

namespace Verif.Fsa.Dn
open Verif.Ragged Verif.Util Verif.Fsa.Sco Verif.Fsa.Best Verif.Fsa.Top
variable {K : Type} [AddCommGroup K] [LinearOrder K] [IsOrderedAddMonoid K]

local notation "S" => WithBot K

variable (f : List (List (Arc (WithBot K)))) (fr : List (List (WithBot K))) (cut : WithBot K)
  (base stride : Nat)

/-! ## The best score -/

theorem align_path (js : List Nat) (p : List (Arc S)) (h : IsAlign f fr js p) :
    Path f.flatten 0 p (f.length - 1) := ⟨h.chain, path_of_index f js p h.arcs⟩

theorem path_index (A : List (Arc S)) (p : List (Arc S)) (h : ∀ a ∈ p, a ∈ A) :
    ∃ js : List Nat, js.map (fun j => A[j]?) = p.map some := by
  induction p with
  | nil => exact ⟨[], rfl⟩
  | cons a p ih =>
    obtain ⟨js, hjs⟩ := ih (fun b hb => h b (List.mem_cons_of_mem _ hb))
    obtain ⟨j, hj⟩ := List.mem_iff_getElem?.mp (h a List.mem_cons_self)
    exact ⟨j :: js, by rw [List.map_cons, List.map_cons, hjs, hj]⟩

theorem align_le_fwd (js : List Nat) (p : List (Arc S)) (h : IsAlign f fr js p) :
    alignScore p fr ≤ fwd f fr fr.length (f.length - 1) := by
  have := fwd_path_le f fr 0 p (f.length - 1) 0 (align_path f fr js p h) (by rw [h.len]; omega)
  rw [h.len, Nat.zero_add, fwd, if_pos rfl, zero_add, List.drop_zero] at this
  exact this

theorem align_le_bwd (hf : RowsOk f) (js : List Nat) (p : List (Arc S)) (h : IsAlign f fr js p) :
    alignScore p fr ≤ bwd f fr fr.length 0 := by
  have hp := h.pos
  have := bwd_path_le f hf fr 0 p (f.length - 1) 0 (align_path f fr js p h) (by rw [h.len]; omega)
  rw [h.len, Nat.zero_add, Nat.sub_self, List.drop_zero, bwd, if_pos (by omega), add_zero] at this
  exact this

/-- Both passes find the same best score. -/
theorem total_eq (hf : RowsOk f) (hn : 0 < f.length) :
    bwd f fr fr.length 0 = fwd f fr fr.length (f.length - 1) := by
  apply le_antisymm
  · by_cases h : bwd f fr fr.length 0 = ⊥
    · rw [h]; exact bot_le
    · obtain ⟨p, hp, _, hl, hs⟩ := bwd_attained f hf fr fr.length 0 (le_refl _) h
      obtain ⟨js, hjs⟩ := path_index f.flatten p hp.2
      rw [Nat.sub_self, List.drop_zero] at hs
      rw [← hs]
      exact align_le_fwd f fr js p ⟨hn, hp.1, hjs, hl⟩
  · by_cases h : fwd f fr fr.length (f.length - 1) = ⊥
    · rw [h]; exact bot_le
    · obtain ⟨p, hp, hl, hs⟩ := fwd_attained f fr fr.length (f.length - 1) (le_refl _) h
      obtain ⟨js, hjs⟩ := path_index f.flatten p hp.2
      rw [← hs]
      exact align_le_bwd f fr hf js p ⟨hn, hp.1, hjs, hl⟩

theorem cut_eq (hf : RowsOk f) (neg : S) (hn : 0 < f.length) :
    cutOf f fr neg = fwd f fr fr.length (f.length - 1) + neg := by
  unfold cutOf
  rw [if_neg (by omega), total_eq f fr hf hn, min_self]

/-- What is above the cutoff is in the beam. -/
theorem inBeam_of_cut (hf : RowsOk f) (neg w : S) (h : cutOf f fr neg < w) : InBeam f fr neg w := by
  intro js p hp
  rw [cut_eq f fr hf neg hp.pos] at h
  exact lt_of_le_of_lt (add_le_add_left (align_le_fwd f fr js p hp) _) h

/-- An alignment in the beam is above the cutoff. -/
theorem cut_of_inBeam (hf : RowsOk f) (neg : S) (js : List Nat) (p : List (Arc S)) (hp : IsAlign f fr js p)
    (h : InBeam f fr neg (alignScore p fr)) : cutOf f fr neg < alignScore p fr := by
  rw [cut_eq f fr hf neg hp.pos]
  by_cases hb : fwd f fr fr.length (f.length - 1) = ⊥
  · have := h js p hp
    rw [hb, WithBot.bot_add]
    rw [bot_lt_iff_ne_bot]
    intro hc
    rw [hc] at this
    exact not_lt_bot this
  · obtain ⟨q, hq, hl, hs⟩ := fwd_attained f fr fr.length (f.length - 1) (le_refl _) hb
    obtain ⟨js', hjs⟩ := path_index f.flatten q hq.2
    rw [← hs]
    exact h js' q ⟨hp.pos, hq.1, hjs, hl⟩

/-! ## The first and the last state -/

theorem kst_zero (s : Nat) (h : s ∈ kst f fr cut 0) : s = 0 := by
  have := ((mem_kst f fr cut 0 s).mp h).2
  by_contra hs
  rw [fwd, if_neg hs, WithBot.bot_add] at this
  exact not_lt_bot this

theorem kst_last (s : Nat) (h : s ∈ kst f fr cut fr.length) : s + 1 = f.length := by
  have := ((mem_kst f fr cut _ s).mp h).2
  by_contra hs
  rw [Nat.sub_self, bwd, if_neg hs, WithBot.add_bot] at this
  exact not_lt_bot this

theorem nodup_single (l : List Nat) (x : Nat) (hl : l.Nodup) (hx : x ∈ l) (h : ∀ y ∈ l, y = x) : l = [x] := by
  cases l with
  | nil => simp at hx
  | cons a l =>
    obtain rfl := h a List.mem_cons_self
    cases l with
    | nil => rfl
    | cons b l =>
      obtain rfl := h b (by simp)
      simp at hl

theorem num_zero (h : 0 ∈ kst f fr cut 0) : num f fr cut 0 0 = 0 := by
  have := nodup_single _ 0 (kst_nodup f fr cut 0) h (kst_zero f fr cut)
  rw [num, this, splits_zero]; simp

theorem num_last (h : f.length - 1 ∈ kst f fr cut fr.length) :
    num f fr cut fr.length (f.length - 1) = (outFsa f fr cut base stride).length - 1 := by
  have h1 := nodup_single _ _ (kst_nodup f fr cut fr.length) h (fun y hy => by
    have := kst_last f fr cut y hy; omega)
  have h2 := splits_succ _ _ _ (kstAll_get f fr cut fr.length (le_refl _))
  have h3 : splits (kstAll f fr cut) (fr.length + 1) = (kstAll f fr cut).flatten.length := by
    have : fr.length + 1 = (kstAll f fr cut).length := by simp [kstAll]
    rw [this, splits_length]
  rw [h1] at h2
  simp only [List.length_singleton] at h2
  rw [outFsa, List.length_map, outRows_length, ← h3, h2, num, h1]
  simp

/-- A kept state has a best path on each side. -/
theorem kept_paths (hf : RowsOk f) (t s : Nat) (ht : t ≤ fr.length)
    (h : cut < fwd f fr t s + bwd f fr (fr.length - t) s) :
    ∃ p q, Path f.flatten 0 p s ∧ Path f.flatten s q (f.length - 1) ∧ 0 < f.length ∧ p.length = t ∧
      q.length = fr.length - t ∧ alignScore p fr = fwd f fr t s ∧
      alignScore q (fr.drop t) = bwd f fr (fr.length - t) s := by
  have hx : fwd f fr t s + bwd f fr (fr.length - t) s ≠ ⊥ := fun hc => by rw [hc] at h; exact not_lt_bot h
  have h1 : fwd f fr t s ≠ ⊥ := fun hc => hx (by rw [hc, WithBot.bot_add])
  have h2 : bwd f fr (fr.length - t) s ≠ ⊥ := fun hc => hx (by rw [hc, WithBot.add_bot])
  obtain ⟨p, hp, hl, hs⟩ := fwd_attained f fr t s ht h1
  obtain ⟨q, hq, hn, hl', hs'⟩ := bwd_attained f hf fr (fr.length - t) s (by omega) h2
  rw [show fr.length - (fr.length - t) = t by omega] at hs'
  exact ⟨p, q, hp, hq, hn, hl, hl', hs, hs'⟩

theorem seg_first (hf : RowsOk f) (hn : 0 < f.length) (js : List Nat) (p : List (Arc S)) (s : Nat)
    (hp : Path f.flatten 0 p s) (hj : js.map (fun j => f.flatten[j]?) = p.map some) (ht : p.length ≤ fr.length)
    (h : cut < alignScore p fr + bwd f fr (fr.length - p.length) s) :
    ∃ is, is.map (fun i => (outMapA f fr cut base stride)[i]?) = js.map some ∧
      IPath (outFsa f fr cut base stride).flatten 0 is (num f fr cut p.length s) ∧
      0 ∈ kst f fr cut 0 ∧ s ∈ kst f fr cut p.length := by
  obtain ⟨is, h1, h2, h3, h4⟩ := seg_path f fr cut base stride hf js p 0 0 s hp.1 hj (by omega) hn (by
    rw [fwd, if_pos rfl, zero_add, List.drop_zero, Nat.zero_add]; exact h)
  rw [Nat.zero_add] at h2 h4
  rw [num_zero f fr cut h3] at h2
  exact ⟨is, h1, h2, h3, h4⟩

theorem seg_last (hf : RowsOk f) (hn : 0 < f.length) (js : List Nat) (q : List (Arc S)) (t s : Nat)
    (ht : t ≤ fr.length) (hs : s < f.length)
    (hq : Path f.flatten s q (f.length - 1)) (hj : js.map (fun j => f.flatten[j]?) = q.map some)
    (hl : q.length = fr.length - t) (h : cut < fwd f fr t s + alignScore q (fr.drop t)) :
    ∃ is, is.map (fun i => (outMapA f fr cut base stride)[i]?) = js.map some ∧
      IPath (outFsa f fr cut base stride).flatten (num f fr cut t s) is
        ((outFsa f fr cut base stride).length - 1) ∧
      f.length - 1 ∈ kst f fr cut fr.length := by
  have e : t + q.length = fr.length := by omega
  obtain ⟨is, h1, h2, h3, h4⟩ := seg_path f fr cut base stride hf js q t s (f.length - 1) hq.1 hj (by omega)
    hs (by rw [e, Nat.sub_self, bwd, if_pos (by omega), add_zero]; exact h)
  rw [e] at h2 h4
  rw [num_last f fr cut base stride h4] at h2
  exact ⟨is, h1, h2, h4⟩

theorem kept_ends (hf : RowsOk f) (t s : Nat) (ht : t ≤ fr.length) (hs : s ∈ kst f fr cut t) :
    0 < f.length ∧ 0 ∈ kst f fr cut 0 ∧ f.length - 1 ∈ kst f fr cut fr.length := by
  obtain ⟨hsl, hc⟩ := (mem_kst f fr cut t s).mp hs
  obtain ⟨p, q, hp, hq, hn, hl, hl', hsp, hsq⟩ := kept_paths f fr cut hf t s ht hc
  obtain ⟨js, hjs⟩ := path_index f.flatten p hp.2
  obtain ⟨js', hjs'⟩ := path_index f.flatten q hq.2
  obtain ⟨_, _, _, h0, _⟩ := seg_first f fr cut 0 0 hf hn js p s hp hjs (by omega) (by rw [hsp, hl]; exact hc)
  obtain ⟨_, _, _, h1⟩ := seg_last f fr cut 0 0 hf hn js' q t s ht hsl hq hjs' hl' (by rw [hsq]; exact hc)
  exact ⟨hn, h0, h1⟩

/-! ## Uniqueness -/

theorem ipath_unique (hf : RowsOk f) (is is' js : List Nat) (t s e e' : Nat) (ht : t ≤ fr.length)
    (hs : s ∈ kst f fr cut t)
    (h1 : IPath (outFsa f fr cut base stride).flatten (num f fr cut t s) is e)
    (h2 : IPath (outFsa f fr cut base stride).flatten (num f fr cut t s) is' e')
    (hj : is.map (fun i => (outMapA f fr cut base stride)[i]?) = js.map some)
    (hj' : is'.map (fun i => (outMapA f fr cut base stride)[i]?) = js.map some) : is = is' := by
  induction is generalizing is' js t s with
  | nil =>
    have : js = [] := by simpa using hj.symm
    subst this
    have : is' = [] := by simpa using hj'
    exact this.symm
  | cons i is ih =>
    cases js with
    | nil => simp at hj
    | cons j js =>
      cases is' with
      | nil => simp at hj'
      | cons i' is' =>
        simp only [List.map_cons, List.cons.injEq] at hj hj'
        obtain ⟨b, hb, hbs, hp⟩ := (ipath_cons _ _ _ _ _).mp h1
        obtain ⟨b', hb', hbs', hp'⟩ := (ipath_cons _ _ _ _ _).mp h2
        rw [outFsa_flatten, List.getElem?_map, Option.map_eq_some_iff] at hb hb'
        obtain ⟨x, hx, rfl⟩ := hb
        obtain ⟨x', hx', rfl⟩ := hb'
        obtain ⟨t1, s1, k1, j1, a1, ht1, he1, hk1, hi1⟩ := out_arc f fr cut base stride hf i x hx
        obtain ⟨t2, s2, k2, j2, a2, ht2, he2, hk2, hi2⟩ := out_arc f fr cut base stride hf i' x' hx'
        have g1 : num f fr cut t1 s1 = num f fr cut t s := by rw [← hbs, he1.eq]; rfl
        have g2 : num f fr cut t2 s2 = num f fr cut t s := by rw [← hbs', he2.eq]; rfl
        obtain ⟨rfl, rfl⟩ := num_inj f fr cut t1 s1 t s ht1 he1.kept ht hs g1
        obtain ⟨rfl, rfl⟩ := num_inj f fr cut t2 s2 t1 s1 ht2 he2.kept ht hs g2
        have m1 : x.2.1 = j := by
          have := hj.1
          rw [outMapA, List.getElem?_map, hx] at this
          exact Option.some.inj this
        have m2 : x'.2.1 = j := by
          have := hj'.1
          rw [outMapA, List.getElem?_map, hx'] at this
          exact Option.some.inj this
        have hk : k1 = k2 := by
          have hnd := row_nodup f fr cut base stride t2 s2
          have l1 := (List.getElem?_eq_some_iff.mp hk1).1
          refine (List.getElem?_inj (i := k1) (j := k2)
            (l := (outRow f fr cut base stride t2 s2).map (fun x => x.2.1))
            (by rw [List.length_map]; exact l1) hnd).mp ?_
          rw [List.getElem?_map, List.getElem?_map, hk1, hk2, Option.map_some, Option.map_some, m1, m2]
        subst hk
        have hxx : x = x' := by rw [hk1] at hk2; exact Option.some.inj hk2
        subst hxx
        have hd : x.1.dst = num f fr cut (t2 + 1) a1.dst := by rw [he1.eq]; rfl
        rw [hd] at hp hp'
        rw [hi1, hi2, ih is' js (t2 + 1) a1.dst he1.time he1.dst hp hp' hj.2 hj'.2]

/-! ## The main theorem -/

theorem lattice (hf : RowsOk f) (neg : S) : Lattice f fr neg base stride
    (outFsa f fr (cutOf f fr neg) base stride) (outMapA f fr (cutOf f fr neg) base stride)
    (outMapB f fr (cutOf f fr neg) base stride) := by
  set cut := cutOf f fr neg with hcut
  have hlen : (outFsa f fr cut base stride).length = (outRows f fr cut base stride).length := by simp [outFsa]
  have hrow : ∀ x row, (outFsa f fr cut base stride)[x]? = some row → ∃ t s, t ≤ fr.length ∧
      s ∈ kst f fr cut t ∧ x = num f fr cut t s ∧ row = (outRow f fr cut base stride t s).map Prod.fst := by
    intro x row hx
    have hxl := (List.getElem?_eq_some_iff.mp hx).1
    rw [hlen] at hxl
    obtain ⟨t, s, ht, hs, rfl⟩ := num_surj f fr cut base stride x hxl
    rw [outFsa, List.getElem?_map, outRows_get f fr cut base stride t s ht hs] at hx
    exact ⟨t, s, ht, hs, rfl, (Option.some.inj hx).symm⟩
  refine ⟨?_, ?_, ?_, ?_, ?_, ?_, ?_, ?_, ?_, ?_⟩
  · -- rows
    intro x row hx a ha
    obtain ⟨t, s, ht, hs, rfl, rfl⟩ := hrow x row hx
    obtain ⟨y, hy, rfl⟩ := List.mem_map.mp ha
    obtain ⟨j, b, he⟩ := row_entry f fr cut base stride hf t s hs y hy
    rw [hlen, he.eq]
    exact ⟨rfl, num_lt f fr cut base stride (t + 1) b.dst he.time he.dst⟩
  · -- top
    intro a ha
    rw [outFsa_flatten] at ha
    obtain ⟨x, hx, rfl⟩ := List.mem_map.mp ha
    obtain ⟨i, hi⟩ := List.mem_iff_getElem?.mp hx
    obtain ⟨t, s, k, j, b, ht, he, -, -⟩ := out_arc f fr cut base stride hf i x hi
    rw [he.eq]
    exact num_mono f fr cut t s b.dst he.time he.kept
  · rw [outMapA, outFsa_flatten, List.length_map, List.length_map]
  · rw [outMapB, outFsa_flatten, List.length_map, List.length_map]
  · -- sound
    intro is q hpos hc hq
    rw [hlen] at hpos
    obtain ⟨t, s, ht, hs, -⟩ := num_surj f fr cut base stride 0 hpos
    obtain ⟨hn, h0, h1⟩ := kept_ends f fr cut hf t s ht hs
    rw [← num_last f fr cut base stride h1] at hc
    have hc' : Chain (num f fr cut 0 0) q (num f fr cut fr.length (f.length - 1)) := by
      rw [num_zero f fr cut h0]; exact hc
    obtain ⟨js, p, g1, g2, g3, g4, g5, g6, g7⟩ := out_path f fr cut base stride hf is q 0 0 (by omega) h0
      (f.length - 1) h1 hc' hq
    refine ⟨js, p, g1, ⟨hn, g2, g3, by omega⟩, g5, by rw [g6, List.drop_zero], ?_⟩
    intro t i a hi ha
    have := g7 t i a hi ha
    rwa [Nat.zero_add] at this
  · -- complete
    intro js p hp hb
    have hc := cut_of_inBeam f fr hf neg js p hp hb
    rw [← hcut] at hc
    have hpath := align_path f fr js p hp
    have hn := hp.pos
    obtain ⟨is, h1, h2, h3, h4⟩ := seg_first f fr cut base stride hf hp.pos js p (f.length - 1) hpath hp.arcs
      (by rw [hp.len]) (by rw [hp.len, Nat.sub_self, bwd, if_pos (by omega), add_zero]; exact hc)
    rw [hp.len] at h2 h4
    rw [num_last f fr cut base stride h4] at h2
    have hpos : 0 < (outFsa f fr cut base stride).length := by
      rw [hlen]
      have := num_lt f fr cut base stride 0 0 (by omega) h3
      omega
    refine ⟨is, ⟨h1, hpos, h2⟩, ?_⟩
    rintro is' ⟨h1', -, h2'⟩
    refine ipath_unique f fr cut base stride hf is' is js 0 0 ((outFsa f fr cut base stride).length - 1)
      ((outFsa f fr cut base stride).length - 1) (by omega) h3 ?_ ?_ h1' h1
    · rw [num_zero f fr cut h3]; exact h2'
    · rw [num_zero f fr cut h3]; exact h2
  · -- arcs
    intro i hi
    rw [outFsa_flatten, List.length_map] at hi
    have hx := List.getElem?_eq_getElem hi
    set x := (outRows f fr cut base stride).flatten[i] with hxd
    obtain ⟨t, s, k, j, a, ht, he, hk, hik⟩ := out_arc f fr cut base stride hf i x hx
    have htt := he.time
    obtain ⟨hsl, hsc⟩ := (mem_kst f fr cut t s).mp he.kept
    obtain ⟨hdl, hdc⟩ := (mem_kst f fr cut (t + 1) a.dst).mp he.dst
    obtain ⟨p, _, hp, -, hn, hl, -, hps, -⟩ := kept_paths f fr cut hf t s ht hsc
    obtain ⟨_, q, -, hq, -, -, hl', -, hqs⟩ := kept_paths f fr cut hf (t + 1) a.dst he.time hdc
    obtain ⟨js, hjs⟩ := path_index f.flatten p hp.2
    obtain ⟨js', hjs'⟩ := path_index f.flatten q hq.2
    obtain ⟨is, h1, h2, h3, h4⟩ := seg_first f fr cut base stride hf hn js p s hp hjs (by omega)
      (by rw [hps, hl]; exact hsc)
    obtain ⟨is', h1', h2', h3'⟩ := seg_last f fr cut base stride hf hn js' q (t + 1) a.dst he.time hdl hq hjs' hl'
      (by rw [hqs]; exact hdc)
    have hpos : 0 < (outFsa f fr cut base stride).length := by
      rw [hlen]
      have := num_lt f fr cut base stride 0 0 (by omega) h3
      omega
    refine ⟨is ++ i :: is', js ++ j :: js', p ++ a :: q, by simp, ⟨hpos, ?_⟩, ?_, ⟨hn, ?_, ?_, ?_⟩, ?_⟩
    · refine (ipath_append _ _ _ _ _).mpr ⟨_, h2, (ipath_cons _ _ _ _ _).mpr ⟨x.1, ?_, ?_, ?_⟩⟩
      · change (outFsa f fr cut base stride).flatten[i]? = _
        rw [outFsa_flatten, List.getElem?_map, hx]; rfl
      · rw [he.eq, hl]; rfl
      · have : x.1.dst = num f fr cut (t + 1) a.dst := by rw [he.eq]; rfl
        rw [this]; exact h2'
    · rw [List.map_append, List.map_append, h1, List.map_cons, List.map_cons, h1', outMapA,
        List.getElem?_map, hx, he.eq]; rfl
    · refine (chain_append _ _ _ _).mpr ⟨s, hp.1, he.src, hq.1⟩
    · rw [List.map_append, List.map_append, hjs, List.map_cons, List.map_cons, hjs', he.arc]
    · simp only [List.length_append, List.length_cons]; omega
    · apply inBeam_of_cut f fr hf
      rw [← hcut]
      have e := alignScore_append p (a :: q) fr 0 (by omega)
      rw [List.drop_zero, Nat.zero_add] at e
      rw [e, alignScore_cons a q fr p.length (by omega), hl, hqs, hps, ← add_assoc]
      exact he.score
  · -- states
    intro x hx
    rw [hlen] at hx
    obtain ⟨t, s, ht, hs, rfl⟩ := num_surj f fr cut base stride x hx
    obtain ⟨hsl, hsc⟩ := (mem_kst f fr cut t s).mp hs
    obtain ⟨p, q, hp, hq, hn, hl, hl', hps, hqs⟩ := kept_paths f fr cut hf t s ht hsc
    obtain ⟨js, hjs⟩ := path_index f.flatten p hp.2
    obtain ⟨js', hjs'⟩ := path_index f.flatten q hq.2
    obtain ⟨is, h1, h2, h3, h4⟩ := seg_first f fr cut base stride hf hn js p s hp hjs (by omega)
      (by rw [hps, hl]; exact hsc)
    obtain ⟨is', h1', h2', h3'⟩ := seg_last f fr cut base stride hf hn js' q t s ht hsl hq hjs' hl'
      (by rw [hqs]; exact hsc)
    rw [hl] at h2
    refine ⟨is, is', js ++ js', p ++ q, h2, h2', by rw [List.map_append, List.map_append, h1, h1'],
      ⟨hn, (chain_append _ _ _ _).mpr ⟨s, hp.1, hq.1⟩,
        by rw [List.map_append, List.map_append, hjs, hjs'], by rw [List.length_append]; omega⟩, ?_⟩
    apply inBeam_of_cut f fr hf
    rw [← hcut]
    have e := alignScore_append p q fr 0 (by omega)
    rw [List.drop_zero, Nat.zero_add] at e
    rw [e, hl, hqs, hps]
    exact hsc
  · -- order
    intro x row hx
    obtain ⟨t, s, ht, hs, rfl, rfl⟩ := hrow x row hx
    have hsl := ((mem_kst f fr cut t s).mp hs).1
    refine ⟨s, f[s], List.getElem?_eq_getElem hsl, ?_⟩
    unfold outRow
    split
    · unfold labels
      rw [List.map_map, List.map_map]
      have e1 : ((Arc.label ∘ Prod.fst) ∘ outEntry f fr cut base stride t s) = Arc.label ∘ Prod.fst := rfl
      have e2 : f[s].map Arc.label = (f[s].zipIdx (splits f s)).map (Arc.label ∘ Prod.fst) := by
        rw [← List.map_map, List.zipIdx_map_fst]
      rw [e1, e2, List.getD_eq_getElem?_getD, List.getElem?_eq_getElem hsl]
      exact List.Sublist.map _ List.filter_sublist
    · simp [labels]
  · -- unique
    intro is is' h h' he
    obtain ⟨hpos, h2⟩ := h
    obtain ⟨-, h2'⟩ := h'
    have hpos' : 0 < (outFsa f fr cut base stride).length := hpos
    rw [hlen] at hpos'
    obtain ⟨t, s, ht, hs, -⟩ := num_surj f fr cut base stride 0 hpos'
    obtain ⟨hn, h0, h1⟩ := kept_ends f fr cut hf t s ht hs
    have hjs : ∃ js : List Nat, is.map (fun i => (outMapA f fr cut base stride)[i]?) = js.map some := by
      obtain ⟨p, -, hp⟩ := h2
      refine ⟨is.map (fun i => (outMapA f fr cut base stride).getD i 0), ?_⟩
      rw [List.map_map]
      apply List.map_congr_left
      intro i hi
      have : (outFsa f fr cut base stride).flatten[i]? ∈ p.map some := by
        rw [← hp]; exact List.mem_map.mpr ⟨i, hi, rfl⟩
      obtain ⟨a, -, ha⟩ := List.mem_map.mp this
      have hlt := (List.getElem?_eq_some_iff.mp ha.symm).1
      rw [outFsa_flatten, List.length_map] at hlt
      have hlt' : i < (outMapA f fr cut base stride).length := by rw [outMapA, List.length_map]; exact hlt
      simp [List.getElem?_eq_getElem hlt']
    obtain ⟨js, hjs⟩ := hjs
    refine ipath_unique f fr cut base stride hf is is' js 0 0 ((outFsa f fr cut base stride).length - 1)
      ((outFsa f fr cut base stride).length - 1) (by omega) h0 ?_ ?_ hjs (he ▸ hjs)
    · rw [num_zero f fr cut h0]; exact h2
    · rw [num_zero f fr cut h0]; exact h2'

end Verif.Fsa.Dn
