import Verif.Fsa.Dense.Best

/-!
# The lattice of one FSA

The states `kst t` that are kept at time `t`, their numbers, the arcs that are kept, and the proof that
they form the pruned intersection.
-/

set_option linter.unusedSectionVars false

namespace Verif.Fsa.Dn
open Verif.Ragged Verif.Util Verif.Fsa.Sco Verif.Fsa.Best
variable {K : Type} [AddCommGroup K] [LinearOrder K] [IsOrderedAddMonoid K]

local notation "S" => WithBot K

/-- The cutoff. -/
def cutOf (f : List (List (Arc S))) (fr : List (List S)) (neg : S) : S :=
  if f.length = 0 then ⊥ else min (bwd f fr fr.length 0) (fwd f fr fr.length (f.length - 1)) + neg

/-- State `s` is kept at time `t`. -/
def stFlag (f : List (List (Arc S))) (fr : List (List S)) (cut : S) (t s : Nat) : Bool :=
  decide (cut < fwd f fr t s + bwd f fr (fr.length - t) s)

/-- The states that are kept at time `t`. -/
def kst (f : List (List (Arc S))) (fr : List (List S)) (cut : S) (t : Nat) : List Nat :=
  (List.range f.length).filter (stFlag f fr cut t)

/-- The kept states at all times. -/
def kstAll (f : List (List (Arc S))) (fr : List (List S)) (cut : S) : List (List Nat) :=
  (List.range (fr.length + 1)).map (kst f fr cut)

/-- The number of state `s` at time `t` in the result. -/
def num (f : List (List (Arc S))) (fr : List (List S)) (cut : S) (t s : Nat) : Nat :=
  splits (kstAll f fr cut) t + (kst f fr cut t).idxOf s

/-- The arc is kept at time `t`. -/
def arcFlag (f : List (List (Arc S))) (fr : List (List S)) (cut : S) (t : Nat) (a : Arc S) : Bool :=
  stFlag f fr cut (t + 1) a.dst &&
    decide (cut < fwd f fr t a.src + useScore fr t a + bwd f fr (fr.length - (t + 1)) a.dst)

/-- The arc of the result for arc `a` at time `t`, with its position `j` and the place of its score. -/
def outEntry (f : List (List (Arc S))) (fr : List (List S)) (cut : S) (base stride t s : Nat)
    (x : Arc S × Nat) : Arc S × Nat × Nat :=
  (⟨num f fr cut t s, num f fr cut (t + 1) x.1.dst, x.1.label, useScore fr t x.1⟩, x.2,
    base + stride * t + (x.1.label + 1).toNat)

/-- The arcs of the result that leave state `s` at time `t`. -/
def outRow (f : List (List (Arc S))) (fr : List (List S)) (cut : S) (base stride t s : Nat) :
    List (Arc S × Nat × Nat) :=
  if t < fr.length then
    (((f.getD s []).zipIdx (splits f s)).filter (fun x => arcFlag f fr cut t x.1)).map
      (outEntry f fr cut base stride t s)
  else []

/-- The rows of the result. -/
def outRows (f : List (List (Arc S))) (fr : List (List S)) (cut : S) (base stride : Nat) :
    List (List (Arc S × Nat × Nat)) :=
  ((List.range (fr.length + 1)).map
    (fun t => (kst f fr cut t).map (outRow f fr cut base stride t))).flatten

variable (f : List (List (Arc (WithBot K)))) (fr : List (List (WithBot K))) (cut : WithBot K)
  (base stride : Nat)

theorem mem_kst (t s : Nat) :
    s ∈ kst f fr cut t ↔ s < f.length ∧ cut < fwd f fr t s + bwd f fr (fr.length - t) s := by
  simp [kst, stFlag]

theorem kst_nodup (t : Nat) : (kst f fr cut t).Nodup := List.Nodup.filter _ List.nodup_range

theorem kstAll_get (t : Nat) (ht : t ≤ fr.length) : (kstAll f fr cut)[t]? = some (kst f fr cut t) := by
  rw [kstAll, List.getElem?_map, List.getElem?_range (by omega)]; rfl

theorem outRows_length : (outRows f fr cut base stride).length = (kstAll f fr cut).flatten.length := by
  unfold outRows kstAll
  rw [List.length_flatten, List.length_flatten, List.map_map, List.map_map]
  congr 1
  apply List.map_congr_left
  intro t _
  simp

theorem outRows_get (t s : Nat) (ht : t ≤ fr.length) (hs : s ∈ kst f fr cut t) :
    (outRows f fr cut base stride)[num f fr cut t s]? = some (outRow f fr cut base stride t s) := by
  have h0 := List.idxOf_lt_length_of_mem hs
  have h1 := flatten_get ((List.range (fr.length + 1)).map
    (fun t => (kst f fr cut t).map (outRow f fr cut base stride t))) t
    ((kst f fr cut t).map (outRow f fr cut base stride t))
    (by rw [List.getElem?_map, List.getElem?_range (by omega)]; rfl) ((kst f fr cut t).idxOf s) (by simpa using h0)
  have h2 : splits ((List.range (fr.length + 1)).map
      (fun t => (kst f fr cut t).map (outRow f fr cut base stride t))) t = splits (kstAll f fr cut) t := by
    unfold splits kstAll
    rw [← List.map_take, ← List.map_take, List.map_map, List.map_map]
    congr 1
    apply List.map_congr_left
    intro t _
    simp
  rw [h2] at h1
  unfold outRows num
  rw [h1, List.getElem?_map, List.getElem?_eq_getElem h0, List.getElem_idxOf h0]
  rfl

theorem num_surj (x : Nat) (hx : x < (outRows f fr cut base stride).length) :
    ∃ t s, t ≤ fr.length ∧ s ∈ kst f fr cut t ∧ x = num f fr cut t s := by
  rw [outRows_length] at hx
  obtain ⟨t, r, k, hr, hk, rfl⟩ := flatten_pos _ x hx
  have ht : t ≤ fr.length := by
    have := (List.getElem?_eq_some_iff.mp hr).1
    simp [kstAll] at this; omega
  rw [kstAll_get f fr cut t ht] at hr
  obtain rfl := Option.some.inj hr
  refine ⟨t, (kst f fr cut t)[k], ht, List.getElem_mem _, ?_⟩
  rw [num, List.Nodup.idxOf_getElem (kst_nodup f fr cut t)]

theorem num_inj (t s t' s' : Nat) (ht : t ≤ fr.length) (hs : s ∈ kst f fr cut t) (ht' : t' ≤ fr.length)
    (hs' : s' ∈ kst f fr cut t') (h : num f fr cut t s = num f fr cut t' s') : t = t' ∧ s = s' := by
  obtain ⟨rfl, h2⟩ := flatten_pos_unique (kstAll f fr cut) (kstAll_get f fr cut t ht)
    (kstAll_get f fr cut t' ht') (List.idxOf_lt_length_of_mem hs) (List.idxOf_lt_length_of_mem hs') h
  refine ⟨rfl, ?_⟩
  have h3 := List.getElem_idxOf (List.idxOf_lt_length_of_mem hs)
  have h4 := List.getElem_idxOf (List.idxOf_lt_length_of_mem hs')
  rw [← h3, ← h4]; congr 1

theorem num_lt (t s : Nat) (ht : t ≤ fr.length) (hs : s ∈ kst f fr cut t) :
    num f fr cut t s < (outRows f fr cut base stride).length :=
  (List.getElem?_eq_some_iff.mp (outRows_get f fr cut base stride t s ht hs)).1

theorem num_mono (t s s' : Nat) (ht : t + 1 ≤ fr.length) (hs : s ∈ kst f fr cut t) :
    num f fr cut t s < num f fr cut (t + 1) s' := by
  have h1 := splits_succ _ _ _ (kstAll_get f fr cut t (by omega))
  have h2 := List.idxOf_lt_length_of_mem hs
  unfold num; omega

/-! ## Arcs of the result -/

/-- The FSA without the maps. -/
def outFsa : List (List (Arc S)) := (outRows f fr cut base stride).map (fun row => row.map Prod.fst)

/-- The map to the arcs of `f`. -/
def outMapA : List Nat := (outRows f fr cut base stride).flatten.map (fun x => x.2.1)

/-- The map to the scores. -/
def outMapB : List Nat := (outRows f fr cut base stride).flatten.map (fun x => x.2.2)

theorem outFsa_flatten : (outFsa f fr cut base stride).flatten =
    (outRows f fr cut base stride).flatten.map Prod.fst := by
  unfold outFsa; rw [List.map_flatten]

/-- Entry `x` is an arc that leaves state `s` at time `t`, made from arc `a` at position `j` of `f`. -/
structure Entry (t s j : Nat) (a : Arc S) (x : Arc S × Nat × Nat) : Prop where
  time : t < fr.length
  kept : s ∈ kst f fr cut t
  src : a.src = s
  arc : f.flatten[j]? = some a
  dst : a.dst ∈ kst f fr cut (t + 1)
  score : cut < fwd f fr t s + useScore fr t a + bwd f fr (fr.length - (t + 1)) a.dst
  eq : x = outEntry f fr cut base stride t s (a, j)

theorem row_entry (hf : RowsOk f) (t s : Nat) (hs : s ∈ kst f fr cut t) (x : Arc S × Nat × Nat)
    (hx : x ∈ outRow f fr cut base stride t s) : ∃ j a, Entry f fr cut base stride t s j a x := by
  unfold outRow at hx
  split at hx
  · next ht =>
    obtain ⟨⟨a, j⟩, hy, rfl⟩ := List.mem_map.mp hx
    obtain ⟨hy1, hy2⟩ := List.mem_filter.mp hy
    obtain ⟨k, hk⟩ := List.mem_iff_getElem?.mp hy1
    rw [List.getElem?_zipIdx] at hk
    have hrow : ∃ row, f[s]? = some row ∧ row[k]? = some a ∧ j = splits f s + k := by
      rw [List.getD_eq_getElem?_getD] at hk
      cases h : f[s]? with
      | none => rw [h] at hk; simp at hk
      | some row =>
        rw [h] at hk
        simp only [Option.getD_some, Option.map_eq_some_iff] at hk
        obtain ⟨b, hb1, hb2⟩ := hk
        injection hb2 with h1 h2
        subst h1
        exact ⟨row, rfl, hb1, h2.symm⟩
    obtain ⟨row, hr, ha, rfl⟩ := hrow
    have hk' := (List.getElem?_eq_some_iff.mp ha).1
    have hfl := flatten_get f s row hr k hk'
    have hok := hf s row hr a (List.mem_of_getElem? ha)
    simp only [arcFlag, stFlag, Bool.and_eq_true, decide_eq_true_eq] at hy2
    refine ⟨_, a, ht, hs, hok.1, by rw [hfl, ha], (mem_kst f fr cut _ _).mpr ⟨hok.2, hy2.1⟩, ?_, rfl⟩
    rw [← hok.1]; exact hy2.2
  · simp at hx

/-- Every arc that satisfies the conditions has exactly one entry in its row. -/
theorem entry_row (hf : RowsOk f) (t s j : Nat) (a : Arc S) (ht : t < fr.length)
    (hsrc : a.src = s) (ha : f.flatten[j]? = some a) (hd : a.dst ∈ kst f fr cut (t + 1))
    (hsc : cut < fwd f fr t s + useScore fr t a + bwd f fr (fr.length - (t + 1)) a.dst) :
    outEntry f fr cut base stride t s (a, j) ∈ outRow f fr cut base stride t s := by
  have hj := (List.getElem?_eq_some_iff.mp ha).1
  obtain ⟨s', row, k, hr, hk, rfl⟩ := flatten_pos f j hj
  rw [flatten_get f s' row hr k hk] at ha
  have hok := hf s' row hr a (List.mem_of_getElem? ha)
  obtain rfl : s' = s := hok.1.symm.trans hsrc
  unfold outRow
  rw [if_pos ht]
  refine List.mem_map.mpr ⟨_, List.mem_filter.mpr ⟨?_, ?_⟩, rfl⟩
  · rw [List.getD_eq_getElem?_getD, hr]
    refine List.mem_iff_getElem?.mpr ⟨k, ?_⟩
    rw [List.getElem?_zipIdx]
    simp [ha]
  · simp only [arcFlag, stFlag, Bool.and_eq_true, decide_eq_true_eq]
    refine ⟨((mem_kst f fr cut _ _).mp hd).2, ?_⟩
    rw [hsrc]; exact hsc

/-- The positions in `f` of the arcs of a row are different. -/
theorem row_nodup (t s : Nat) : ((outRow f fr cut base stride t s).map (fun x => x.2.1)).Nodup := by
  unfold outRow
  split
  · rw [List.map_map]
    have : (fun x : Arc S × Nat × Nat => x.2.1) ∘ outEntry f fr cut base stride t s = Prod.snd := rfl
    rw [this]
    refine List.Nodup.sublist (List.Sublist.map _ List.filter_sublist) ?_
    rw [List.zipIdx_map_snd]
    exact List.nodup_range'
  · simp

/-- Where an arc of the result is. -/
theorem out_arc (hf : RowsOk f) (i : Nat) (x : Arc S × Nat × Nat)
    (hx : (outRows f fr cut base stride).flatten[i]? = some x) :
    ∃ t s k j a, t ≤ fr.length ∧ Entry f fr cut base stride t s j a x ∧
      (outRow f fr cut base stride t s)[k]? = some x ∧
      i = splits (outRows f fr cut base stride) (num f fr cut t s) + k := by
  have hi := (List.getElem?_eq_some_iff.mp hx).1
  obtain ⟨g, row, k, hr, hk, rfl⟩ := flatten_pos _ i hi
  rw [flatten_get _ g row hr k hk] at hx
  obtain ⟨t, s, ht, hs, rfl⟩ := num_surj f fr cut base stride g (List.getElem?_eq_some_iff.mp hr).1
  rw [outRows_get f fr cut base stride t s ht hs] at hr
  obtain rfl := Option.some.inj hr
  obtain ⟨j, a, he⟩ := row_entry f fr cut base stride hf t s hs x (List.mem_of_getElem? hx)
  exact ⟨t, s, k, j, a, ht, he, hx, rfl⟩

theorem out_arc_mem (t s k : Nat) (x : Arc S × Nat × Nat) (ht : t ≤ fr.length) (hs : s ∈ kst f fr cut t)
    (hx : (outRow f fr cut base stride t s)[k]? = some x) :
    (outRows f fr cut base stride).flatten[splits (outRows f fr cut base stride) (num f fr cut t s) + k]? =
      some x := by
  rw [flatten_get _ _ _ (outRows_get f fr cut base stride t s ht hs) k (List.getElem?_eq_some_iff.mp hx).1, hx]

/-! ## Paths -/

/-- Index paths with entries: the arcs and the positions in `f`. -/
theorem out_path (hf : RowsOk f) (is : List Nat) (q : List (Arc S)) (t s : Nat) (ht : t ≤ fr.length)
    (hs : s ∈ kst f fr cut t) (s' : Nat) (hs' : s' ∈ kst f fr cut fr.length)
    (hc : Chain (num f fr cut t s) q (num f fr cut fr.length s'))
    (hq : is.map (fun i => (outFsa f fr cut base stride).flatten[i]?) = q.map some) :
    ∃ (js : List Nat) (p : List (Arc S)), is.map (fun i => (outMapA f fr cut base stride)[i]?) = js.map some ∧ Chain s p s' ∧
      js.map (fun j => f.flatten[j]?) = p.map some ∧ t + p.length = fr.length ∧ labels q = labels p ∧
      score q = alignScore p (fr.drop t) ∧
      ∀ (u i : Nat) (a : Arc S), is[u]? = some i → q[u]? = some a →
        (outMapB f fr cut base stride)[i]? = some (base + stride * (t + u) + (a.label + 1).toNat) := by
  induction q generalizing is t s with
  | nil =>
    have : is = [] := by simpa using hq
    subst this
    obtain ⟨rfl, rfl⟩ := num_inj f fr cut t s fr.length s' ht hs (le_refl _) hs' hc
    exact ⟨[], [], rfl, rfl, rfl, rfl, rfl, by rw [alignScore_nil]; rfl, by simp⟩
  | cons b q ih =>
    cases is with
    | nil => simp at hq
    | cons i is =>
      rw [List.map_cons, List.map_cons] at hq
      have hq' := (List.cons_eq_cons.mp hq).2
      have hb := (List.cons_eq_cons.mp hq).1
      obtain ⟨hsrc, hc⟩ := hc
      rw [outFsa_flatten, List.getElem?_map, Option.map_eq_some_iff] at hb
      obtain ⟨x, hx, rfl⟩ := hb
      obtain ⟨t', s'', k, j, a, ht', he, hk, hi⟩ := out_arc f fr cut base stride hf i x hx
      have hxe := he.eq
      have hsrc' : num f fr cut t' s'' = num f fr cut t s := by rw [← hsrc, hxe]; rfl
      obtain ⟨rfl, rfl⟩ := num_inj f fr cut t' s'' t s ht' he.kept ht hs hsrc'
      have hdst : x.1.dst = num f fr cut (t' + 1) a.dst := by rw [hxe]; rfl
      rw [hdst] at hc
      obtain ⟨js, p, h1, h2, h3, h4, h5, h6, h7⟩ := ih is (t' + 1) a.dst he.time he.dst hc hq'
      refine ⟨j :: js, a :: p, ?_, ⟨he.src, h2⟩, ?_, ?_, ?_, ?_, ?_⟩
      · rw [List.map_cons, List.map_cons, h1, outMapA, List.getElem?_map, hx, hxe]; rfl
      · rw [List.map_cons, List.map_cons, h3, he.arc]
      · simp only [List.length_cons]; omega
      · unfold labels at *
        rw [List.map_cons, List.map_cons, h5, hxe]; rfl
      · unfold score at *
        rw [List.map_cons, List.sum_cons, h6, alignScore_cons _ _ _ _ he.time, hxe]; rfl
      · intro u i' a' hu ha'
        cases u with
        | zero =>
          simp only [List.getElem?_cons_zero, Option.some.injEq] at hu ha'
          subst hu; subst ha'
          rw [outMapB, List.getElem?_map, hx, hxe]; rfl
        | succ u =>
          have := h7 u i' a' (by simpa using hu) (by simpa using ha')
          rw [this]; congr 3; ring

theorem path_of_index (js : List Nat) (p : List (Arc S)) (h : js.map (fun j => f.flatten[j]?) = p.map some) :
    ∀ a ∈ p, a ∈ f.flatten := by
  intro a ha
  have : some a ∈ p.map some := List.mem_map.mpr ⟨a, ha, rfl⟩
  rw [← h] at this
  obtain ⟨j, _, hj⟩ := List.mem_map.mp this
  exact List.mem_of_getElem? hj

/-- A path of `f` between two times whose continuation to both sides is better than the cutoff is in the
result. -/
theorem seg_path (hf : RowsOk f) (js : List Nat) (p : List (Arc S)) (t s s' : Nat)
    (hc : Chain s p s') (hj : js.map (fun j => f.flatten[j]?) = p.map some)
    (ht : t + p.length ≤ fr.length) (hs : s < f.length)
    (hsc : cut < fwd f fr t s + alignScore p (fr.drop t) + bwd f fr (fr.length - (t + p.length)) s') :
    ∃ is, is.map (fun i => (outMapA f fr cut base stride)[i]?) = js.map some ∧
      IPath (outFsa f fr cut base stride).flatten (num f fr cut t s) is (num f fr cut (t + p.length) s') ∧
      s ∈ kst f fr cut t ∧ s' ∈ kst f fr cut (t + p.length) := by
  induction p generalizing js t s with
  | nil =>
    have : js = [] := by simpa using hj
    subst this
    obtain rfl : s = s' := hc
    rw [alignScore_nil, add_zero] at hsc
    have hk := (mem_kst f fr cut t s).mpr ⟨hs, hsc⟩
    exact ⟨[], rfl, ⟨[], rfl, rfl⟩, hk, hk⟩
  | cons a p ih =>
    cases js with
    | nil => simp at hj
    | cons j js =>
      have hpath : Path f.flatten s (a :: p) s' := ⟨hc, path_of_index f _ _ hj⟩
      rw [List.map_cons, List.map_cons] at hj
      obtain ⟨ha, hj⟩ := List.cons_eq_cons.mp hj
      obtain ⟨hsrc, hc⟩ := hc
      have haf : a ∈ f.flatten := List.mem_of_getElem? ha
      have hlen : t + (a :: p).length = t + 1 + p.length := by simp only [List.length_cons]; omega
      rw [hlen] at ht hsc ⊢
      have hpath' : Path f.flatten a.dst p s' := ((path_cons _ _ _ _ _).mp hpath).2.2
      -- the source is kept
      have hb := bwd_path_le f hf fr s (a :: p) s' (fr.length - (t + 1 + p.length)) hpath (by
        simp only [List.length_cons]; omega)
      have e1 : fr.length - (t + 1 + p.length) + (a :: p).length = fr.length - t := by
        simp only [List.length_cons]; omega
      have e2 : fr.length - (fr.length - t) = t := by omega
      rw [e1, e2] at hb
      have hk : s ∈ kst f fr cut t := (mem_kst f fr cut t s).mpr ⟨hs, lt_of_lt_of_le hsc (by
        rw [add_assoc]; exact add_le_add_right hb _)⟩
      -- the arc is kept
      rw [alignScore_cons _ _ _ _ (by omega)] at hsc
      have hb' := bwd_path_le f hf fr a.dst p s' (fr.length - (t + 1 + p.length)) hpath' (by omega)
      have e3 : fr.length - (t + 1 + p.length) + p.length = fr.length - (t + 1) := by omega
      have e4 : fr.length - (fr.length - (t + 1)) = t + 1 := by omega
      rw [e3, e4] at hb'
      have harc : cut < fwd f fr t s + useScore fr t a + bwd f fr (fr.length - (t + 1)) a.dst :=
        lt_of_lt_of_le hsc (by
          rw [← add_assoc (fwd f fr t s), add_assoc (fwd f fr t s + useScore fr t a)]
          exact add_le_add_right hb' _)
      have hfw : fwd f fr t s + useScore fr t a ≤ fwd f fr (t + 1) a.dst := by
        rw [← hsrc]; exact fwd_succ_ge f fr t a haf
      obtain ⟨is, h1, h2, h3, h4⟩ := ih js (t + 1) a.dst hc hj (by omega)
        (arc_in_row f hf a haf).2.2 (lt_of_lt_of_le hsc (by
          rw [← add_assoc (fwd f fr t s)]
          exact add_le_add_left (add_le_add_left hfw _) _))
      obtain ⟨k, hkk⟩ := List.mem_iff_getElem?.mp
        (entry_row f fr cut base stride hf t s j a (by omega) hsrc ha h3 harc)
      have hx := out_arc_mem f fr cut base stride t s k _ (by omega) hk hkk
      obtain ⟨q, hq1, hq2⟩ := h2
      refine ⟨(splits (outRows f fr cut base stride) (num f fr cut t s) + k) :: is, ?_,
        ⟨(outEntry f fr cut base stride t s (a, j)).1 :: q, ⟨rfl, hq1⟩, ?_⟩, hk, h4⟩
      · rw [List.map_cons, List.map_cons, h1, outMapA, List.getElem?_map, hx]; rfl
      · rw [List.map_cons, List.map_cons, hq2, outFsa_flatten, List.getElem?_map, hx]; rfl

end Verif.Fsa.Dn
