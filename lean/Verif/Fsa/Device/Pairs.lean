import Verif.Fsa.Device.Search
import Verif.Fsa.Intersect.Spec
import Verif.Ragged.ChunkProps

/-!
# The pairs of arcs that an iteration looks at
-/

namespace Verif.Fsa.Idv
open Verif.Ragged Verif.Util
variable {W : Type}

theorem mapM_out {β : Type} (out : List (List β)) (n : Nat) (hn : n = out.flatten.length) (f : Nat → Option β)
    (h : ∀ (g k : Nat) (row : List β) (y : β), out[g]? = some row → row[k]? = some y → f (splits out g + k) = some y) :
    (List.range n).mapM f = some out.flatten := by
  apply mapM_some_of
  · simp [hn]
  · intro i b hb
    have hi : i < n := by have := (List.getElem?_eq_some_iff.mp hb).1; simpa using this
    rw [List.getElem?_range hi] at hb
    obtain rfl := Option.some.inj hb
    obtain ⟨g, row, k, h1, h2, h3⟩ := flatten_pos out i (by omega)
    rw [h3, h g k row _ h1 (List.getElem?_eq_getElem h2), flatten_get out g row h1 k h2,
      List.getElem?_eq_getElem h2]

section
variable (Ta Tb : List (List (List (Arc W))))

/-- The arcs that leave a state of `a`. -/
def ra (st : Nat × Nat) : List (Arc W) := Ta.flatten.getD st.1 []
/-- The arcs that leave a state of `b`. -/
def rb (st : Nat × Nat) : List (Arc W) := Tb.flatten.getD st.2 []

/-- The states of the pairs exist. -/
def BlockOk (block : List (Nat × Nat)) : Prop :=
  ∀ st ∈ block, st.1 < Ta.flatten.length ∧ st.2 < Tb.flatten.length

/-- The pair of arcs leaves a pair of states in the block. -/
def Fits (block : List (Nat × Nat)) (c : Cand) (x y : Arc W) : Prop :=
  ∃ st, block[c.si]? = some st ∧ ∃ ka kb : Nat, (ra Ta st)[ka]? = some x ∧ (rb Tb st)[kb]? = some y ∧
    c.ia = apos Ta st.1 + ka ∧ c.ib = apos Tb st.2 + kb

variable {Ta Tb}

theorem ra_get {st : Nat × Nat} (h : st.1 < Ta.flatten.length) : Ta.flatten[st.1]? = some (ra Ta st) := by
  rw [ra, List.getD_eq_getElem?_getD, List.getElem?_eq_getElem h]; rfl

theorem rb_get {st : Nat × Nat} (h : st.2 < Tb.flatten.length) : Tb.flatten[st.2]? = some (rb Tb st) := by
  rw [rb, List.getD_eq_getElem?_getD, List.getElem?_eq_getElem h]; rfl

theorem outdeg_flat (T : List (List (List (Arc W)))) (s : Nat) (row : List (Arc W)) (h : T.flatten[s]? = some row) :
    outdeg (flat T) s = some row.length := by
  have hlt := (List.getElem?_eq_some_iff.mp h).1
  unfold outdeg
  simp only [flat_sp2 T s (by omega), flat_sp2_succ T s row h, Option.bind_eq_bind, Option.bind_some,
    Nat.add_sub_cancel_left]

theorem outdegs_a {block : List (Nat × Nat)} (h : BlockOk Ta Tb block) :
    block.mapM (fun s => outdeg (flat Ta) s.1) = some (block.map (fun s => (ra Ta s).length)) := by
  apply mapM_some_of
  · simp
  · intro i st hi
    rw [outdeg_flat Ta _ _ (ra_get (h st (List.mem_of_getElem? hi)).1), List.getElem?_map, hi]
    rfl

theorem outdegs_b {block : List (Nat × Nat)} (h : BlockOk Ta Tb block) :
    block.mapM (fun s => outdeg (flat Tb) s.2) = some (block.map (fun s => (rb Tb s).length)) := by
  apply mapM_some_of
  · simp
  · intro i st hi
    rw [outdeg_flat Tb _ _ (rb_get (h st (List.mem_of_getElem? hi)).2), List.getElem?_map, hi]
    rfl

/-! ## Lists of blocks -/

theorem zipIdx_get {X : Type} (l : List X) (i : Nat) (x : X) (h : l[i]? = some x) : l.zipIdx[i]? = some (x, i) := by
  rw [List.getElem?_zipIdx, h]; simp

theorem blocks_mem (block : List (Nat × Nat)) (F : (Nat × Nat) × Nat → List Cand)
    (hF : ∀ x, ∀ c ∈ F x, c.si = x.2) (c : Cand) :
    c ∈ (block.zipIdx.map F).flatten ↔ ∃ st, block[c.si]? = some st ∧ c ∈ F (st, c.si) := by
  rw [List.mem_flatten]
  constructor
  · rintro ⟨l, hl, hc⟩
    obtain ⟨⟨st, i⟩, hx, rfl⟩ := List.mem_map.mp hl
    have hs := hF _ c hc
    simp only at hs
    subst hs
    exact ⟨st, List.mem_zipIdx_iff_getElem?.mp hx, hc⟩
  · rintro ⟨st, hst, hc⟩
    exact ⟨_, List.mem_map.mpr ⟨(st, c.si), List.mem_zipIdx_iff_getElem?.mpr hst, rfl⟩, hc⟩

theorem zipIdx_pairwise {X : Type} (l : List X) : l.zipIdx.Pairwise (fun x y => x.2 < y.2) := by
  have h : (l.zipIdx.map Prod.snd).Pairwise (· < ·) := by
    rw [List.zipIdx_map_snd]
    exact List.pairwise_lt_range'
  rwa [List.pairwise_map] at h

theorem blocks_nodup (block : List (Nat × Nat)) (F : (Nat × Nat) × Nat → List Cand)
    (hF : ∀ x, ∀ c ∈ F x, c.si = x.2) (hn : ∀ x, (F x).Nodup) : (block.zipIdx.map F).flatten.Nodup := by
  rw [List.nodup_flatten]
  constructor
  · intro l hl
    obtain ⟨x, -, rfl⟩ := List.mem_map.mp hl
    exact hn x
  · rw [List.pairwise_map]
    apply (zipIdx_pairwise block).imp
    intro x y hxy
    rw [List.disjoint_left]
    intro c h1 h2
    have := hF x c h1
    have := hF y c h2
    omega

theorem blocks_sorted (block : List (Nat × Nat)) (F : (Nat × Nat) × Nat → List Cand)
    (hF : ∀ x, ∀ c ∈ F x, c.si = x.2) : (block.zipIdx.map F).flatten.Pairwise (fun c d => c.si ≤ d.si) := by
  rw [List.pairwise_flatten]
  constructor
  · intro l hl
    obtain ⟨x, -, rfl⟩ := List.mem_map.mp hl
    rw [List.pairwise_iff_forall_sublist]
    intro c d hcd
    have h1 := hF x c (hcd.subset (by simp))
    have h2 := hF x d (hcd.subset (by simp))
    omega
  · rw [List.pairwise_map]
    apply (zipIdx_pairwise block).imp
    intro x y hxy c hc d hd
    have := hF x c hc
    have := hF y d hd
    omega

/-! ## All pairs -/

variable (Ta Tb)

def crossOf (x : (Nat × Nat) × Nat) : List Cand :=
  (List.range ((rb Tb x.1).length * (ra Ta x.1).length)).map (fun j =>
    ⟨x.2, apos Ta x.1.1 + j / (rb Tb x.1).length, apos Tb x.1.2 + j % (rb Tb x.1).length⟩)

variable {Ta Tb}

theorem crossPairs_eq (p : Args W) (ha : p.a = flat Ta) (hb : p.b = flat Tb) (block : List (Nat × Nat))
    (h : BlockOk Ta Tb block) : crossPairs p block = some (block.zipIdx.map (crossOf Ta Tb)).flatten := by
  have hlen : (block.zipIdx.map (crossOf Ta Tb)).map List.length =
      ((block.map (fun s => (rb Tb s).length)).zip (block.map (fun s => (ra Ta s).length))).map (fun x => x.1 * x.2) := by
    apply List.ext_getElem?
    intro i
    simp only [List.getElem?_map, List.getElem?_zipIdx, List.getElem?_zip_eq_some, List.zip, List.getElem?_zipWith]
    cases block[i]? <;> simp [crossOf]
  have htot := psum_splits (block.zipIdx.map (crossOf Ta Tb)) block.length (by simp)
  have hall : splits (block.zipIdx.map (crossOf Ta Tb)) block.length =
      ((block.zipIdx.map (crossOf Ta Tb)).map List.length).sum := by
    rw [splits_eq_take, List.take_of_length_le (by simp)]
  unfold crossPairs
  rw [ha, hb, outdegs_a h, outdegs_b h]
  simp only [Option.bind_eq_bind, Option.bind_some]
  rw [← hlen, htot, Option.bind_some, hall, rowSplitsToRowIds_psum, Option.bind_some]
  apply mapM_out
  · rw [List.length_flatten]
  · intro g k row c hg hc
    have hglt := (List.getElem?_eq_some_iff.mp hg).1
    rw [List.length_map, List.length_zipIdx] at hglt
    obtain ⟨hk, -⟩ := List.getElem?_eq_some_iff.mp hc
    obtain ⟨st, hst⟩ : ∃ st, block[g]? = some st := ⟨_, List.getElem?_eq_getElem hglt⟩
    have hrow : row = crossOf Ta Tb (st, g) := by
      rw [List.getElem?_map, zipIdx_get _ _ _ hst] at hg
      exact (Option.some.inj hg).symm
    obtain ⟨h1, h2⟩ := h st (List.mem_of_getElem? hst)
    have e1 := idsFrom_flat _ g row k hg hk
    have e2 := psum_splits (block.zipIdx.map (crossOf Ta Tb)) g (by simp; omega)
    rw [e1]
    simp only [Option.bind_some]
    rw [e2]
    simp only [Option.bind_some, hst, List.getElem?_map, Option.map_some]
    rw [flat_sp2 Ta _ (by omega), flat_sp2 Tb _ (by omega)]
    simp only [Option.bind_some, Nat.add_sub_cancel_left]
    rw [hrow] at hc hk
    simp only [crossOf, List.length_map, List.length_range] at hk
    rw [crossOf, List.getElem?_map, List.getElem?_range hk] at hc
    exact hc

theorem crossPairs_spec (p : Args W) (ha : p.a = flat Ta) (hb : p.b = flat Tb) (block : List (Nat × Nat))
    (h : BlockOk Ta Tb block) : ∃ C, crossPairs p block = some C ∧ C.Nodup ∧
      C.Pairwise (fun c d => c.si ≤ d.si) ∧ ∀ c, c ∈ C ↔ ∃ x y, Fits Ta Tb block c x y := by
  have hF : ∀ x, ∀ c ∈ crossOf Ta Tb x, c.si = x.2 := by
    intro x c hc
    obtain ⟨j, -, rfl⟩ := List.mem_map.mp hc
    rfl
  refine ⟨_, crossPairs_eq p ha hb block h, blocks_nodup _ _ hF ?_, blocks_sorted _ _ hF, ?_⟩
  · intro x
    apply List.Nodup.map_on _ List.nodup_range
    intro i hi j hj hij
    rw [List.mem_range] at hi hj
    simp only [Cand.mk.injEq, Nat.add_left_cancel_iff, true_and] at hij
    rw [← Nat.div_add_mod i (rb Tb x.1).length, ← Nat.div_add_mod j (rb Tb x.1).length, hij.1, hij.2]
  · intro c
    rw [blocks_mem _ _ hF]
    constructor
    · rintro ⟨st, hst, hc⟩
      obtain ⟨j, hj, hc'⟩ := List.mem_map.mp hc
      rw [List.mem_range] at hj
      simp only at hj hc'
      have hn : 0 < (rb Tb st).length := by
        rcases Nat.eq_zero_or_pos (rb Tb st).length with h0 | h0
        · rw [h0, Nat.zero_mul] at hj; omega
        · exact h0
      have h1 : j % (rb Tb st).length < (rb Tb st).length := Nat.mod_lt _ hn
      have h2 : j / (rb Tb st).length < (ra Ta st).length := by
        rw [Nat.div_lt_iff_lt_mul hn, Nat.mul_comm]; exact hj
      exact ⟨_, _, st, hst, _, _, List.getElem?_eq_getElem h2, List.getElem?_eq_getElem h1, by rw [← hc'], by rw [← hc']⟩
    · rintro ⟨x, y, st, hst, ka, kb, h1, h2, h3, h4⟩
      refine ⟨st, hst, List.mem_map.mpr ⟨(rb Tb st).length * ka + kb, ?_, ?_⟩⟩
      · have e1 := (List.getElem?_eq_some_iff.mp h1).1
        have e2 := (List.getElem?_eq_some_iff.mp h2).1
        rw [List.mem_range]
        have := Nat.mul_le_mul_left (rb Tb st).length (show ka + 1 ≤ (ra Ta st).length from e1)
        rw [Nat.mul_add] at this
        simp only
        omega
      · have e2 := (List.getElem?_eq_some_iff.mp h2).1
        simp only
        rw [Nat.mul_add_mod, Nat.mod_eq_of_lt e2, Nat.mul_add_div (by omega), Nat.div_eq_of_lt e2, Nat.add_zero,
          ← h3, ← h4]

/-! ## The pairs that a search finds -/

variable (Ta Tb)

/-- What the search finds for arc `kb` that leaves a pair of states. -/
def rngOf (st : Nat × Nat) (kb : Nat) : Nat × Nat :=
  match (rb Tb st)[kb]? with
  | none => (0, 0)
  | some y => (apos Ta st.1 + below (ra Ta st) (u32 y.label),
      below (ra Ta st) (u32 y.label + 1) - below (ra Ta st) (u32 y.label))

def rngsOf (x : (Nat × Nat) × Nat) : List (Nat × Nat) :=
  (List.range (rb Tb x.1).length).map (rngOf Ta Tb x.1)

def matchOf (x : (Nat × Nat) × Nat) : List (List Cand) :=
  (List.range (rb Tb x.1).length).map (fun kb =>
    (List.range (rngOf Ta Tb x.1 kb).2).map (fun t =>
      ⟨x.2, (rngOf Ta Tb x.1 kb).1 + t, apos Tb x.1.2 + kb⟩))

variable {Ta Tb}

theorem atRow (st : Nat × Nat) (h : st.1 < Ta.flatten.length) :
    AtRow (flat Ta).arcs (apos Ta st.1) (ra Ta st) := by
  intro t ht
  exact flat_arc Ta st.1 t _ (ra_get h) ht

theorem u32_lt (v : Int) : u32 v < 2 ^ 33 := by
  have := Int.emod_lt_of_pos v (b := 4294967296) (by omega)
  unfold u32
  omega

theorem flat_lengths (l : List ((Nat × Nat) × Nat)) :
    ((l.map (matchOf Ta Tb)).flatten).map List.length = ((l.map (rngsOf Ta Tb)).flatten).map Prod.snd := by
  induction l with
  | nil => rfl
  | cons x l ih =>
    rw [List.map_cons, List.map_cons, List.flatten_cons, List.flatten_cons, List.map_append, List.map_append, ih]
    congr 1
    simp [matchOf, rngsOf, Function.comp_def]

theorem splits_rngs (l : List ((Nat × Nat) × Nat)) (g : Nat) :
    splits (l.map (matchOf Ta Tb)) g = splits (l.map (rngsOf Ta Tb)) g := by
  rw [splits_eq_take, splits_eq_take, List.map_map, List.map_map]
  congr 3
  funext x
  simp [matchOf, rngsOf]

theorem sortedPairs_eq (p : Args W) (ha : p.a = flat Ta) (hb : p.b = flat Tb) (block : List (Nat × Nat))
    (h : BlockOk Ta Tb block)
    (hs : ∀ row ∈ Ta.flatten, row.Pairwise (fun x y => u32 x.label ≤ u32 y.label)) :
    sortedPairs p block = some (block.zipIdx.map (matchOf Ta Tb)).flatten.flatten := by
  have hlen : (block.zipIdx.map (rngsOf Ta Tb)).map List.length = block.map (fun s => (rb Tb s).length) := by
    apply List.ext_getElem?
    intro i
    simp only [List.getElem?_map, List.getElem?_zipIdx]
    cases block[i]? <;> simp [rngsOf]
  have htot := psum_splits (block.zipIdx.map (rngsOf Ta Tb)) block.length (by simp)
  have hall : splits (block.zipIdx.map (rngsOf Ta Tb)) block.length =
      ((block.zipIdx.map (rngsOf Ta Tb)).map List.length).sum := by
    rw [splits_eq_take, List.take_of_length_le (by simp)]
  have hrs : ranges p block (psum ((block.zipIdx.map (rngsOf Ta Tb)).map List.length))
      (idsFrom 0 ((block.zipIdx.map (rngsOf Ta Tb)).map List.length))
      ((block.zipIdx.map (rngsOf Ta Tb)).map List.length).sum = some (block.zipIdx.map (rngsOf Ta Tb)).flatten := by
    unfold ranges
    rw [ha, hb]
    apply mapM_out
    · rw [List.length_flatten]
    · intro g k row c hg hc
      have hglt := (List.getElem?_eq_some_iff.mp hg).1
      rw [List.length_map, List.length_zipIdx] at hglt
      obtain ⟨hk, -⟩ := List.getElem?_eq_some_iff.mp hc
      obtain ⟨st, hst⟩ : ∃ st, block[g]? = some st := ⟨_, List.getElem?_eq_getElem hglt⟩
      have hrow : row = rngsOf Ta Tb (st, g) := by
        rw [List.getElem?_map, zipIdx_get _ _ _ hst] at hg
        exact (Option.some.inj hg).symm
      obtain ⟨h1, h2⟩ := h st (List.mem_of_getElem? hst)
      have e1 := idsFrom_flat _ g row k hg hk
      have e2 := psum_splits (block.zipIdx.map (rngsOf Ta Tb)) g (by simp; omega)
      rw [hrow] at hc hk
      simp only [rngsOf, List.length_map, List.length_range] at hk
      rw [rngsOf, List.getElem?_map, List.getElem?_range hk] at hc
      simp only [e1, e2, hst, Option.bind_eq_bind, Option.bind_some, Nat.add_sub_cancel_left]
      rw [flat_sp2 Tb _ (by omega)]
      simp only [Option.bind_some]
      have e3 : (flat Tb).arcs[apos Tb st.2 + k]? = some (rb Tb st)[k] := by
        rw [← List.getElem?_eq_getElem hk]
        exact flat_arc Tb st.2 k _ (rb_get h2) hk
      rw [e3, flat_sp2 Ta _ (by omega), flat_sp2_succ Ta _ _ (ra_get h1)]
      simp only [Option.bind_some]
      rw [rangeOf_eq p _ _ (by rw [ha]; exact atRow st h1) (hs _ (List.mem_of_getElem? (ra_get h1))) _ (u32_lt _), ← hc,
        Option.map_some, rngOf, List.getElem?_eq_getElem hk]
  unfold sortedPairs
  rw [hb, outdegs_b h, Option.bind_eq_bind, Option.bind_some, Option.bind_eq_bind, ← hlen, htot, Option.bind_some, hall, rowSplitsToRowIds_psum, Option.bind_some, hrs, Option.bind_eq_bind, Option.bind_some,
    ← flat_lengths, expand]
  simp only [Option.bind_eq_bind]
  have hn : (block.zipIdx.map (rngsOf Ta Tb)).flatten.length =
      (block.zipIdx.map (matchOf Ta Tb)).flatten.length := by
    have := congrArg List.length (flat_lengths (Ta := Ta) (Tb := Tb) block.zipIdx)
    rw [List.length_map, List.length_map] at this
    exact this.symm
  rw [hn, psum_splits _ _ (Nat.le_refl _), Option.bind_some,
    show splits (block.zipIdx.map (matchOf Ta Tb)).flatten (block.zipIdx.map (matchOf Ta Tb)).flatten.length =
      ((block.zipIdx.map (matchOf Ta Tb)).flatten.map List.length).sum by
        rw [splits_eq_take, List.take_of_length_le (by rw [List.length_map])],
    rowSplitsToRowIds_psum, Option.bind_some]
  apply mapM_out
  · rw [List.length_flatten (L := (block.zipIdx.map (matchOf Ta Tb)).flatten)]
  · intro g k row c hg hc
    have hglt := (List.getElem?_eq_some_iff.mp hg).1
    obtain ⟨hk, -⟩ := List.getElem?_eq_some_iff.mp hc
    have e1 := idsFrom_flat _ g row k hg hk
    have e2 := psum_splits (block.zipIdx.map (matchOf Ta Tb)).flatten g (by omega)
    obtain ⟨si, rows, kb, f1, f2, f3⟩ := flatten_pos _ g hglt
    have hsi := (List.getElem?_eq_some_iff.mp f1).1
    rw [List.length_map, List.length_zipIdx] at hsi
    obtain ⟨st, hst⟩ : ∃ st, block[si]? = some st := ⟨_, List.getElem?_eq_getElem hsi⟩
    have hrows : rows = matchOf Ta Tb (st, si) := by
      rw [List.getElem?_map, zipIdx_get _ _ _ hst] at f1
      exact (Option.some.inj f1).symm
    have hkb : kb < (rb Tb st).length := by
      rw [hrows] at f2
      simpa [matchOf] using f2
    have hrng : (block.zipIdx.map (rngsOf Ta Tb))[si]? = some (rngsOf Ta Tb (st, si)) := by
      rw [List.getElem?_map, zipIdx_get _ _ _ hst]; rfl
    have hkb2 : kb < (rngsOf Ta Tb (st, si)).length := by simpa [rngsOf] using hkb
    have e3 := idsFrom_flat _ si _ kb hrng hkb2
    have e4 := psum_splits (block.zipIdx.map (rngsOf Ta Tb)) si (by simp; omega)
    have e5 := flatten_get _ si _ hrng kb hkb2
    rw [← splits_rngs, ← f3] at e3 e5
    rw [← splits_rngs] at e4
    obtain ⟨h1, h2⟩ := h st (List.mem_of_getElem? hst)
    simp only [e1, e2, e3, e4, hst, e5, Option.bind_some, Nat.add_sub_cancel_left]
    rw [hb, flat_sp2 Tb _ (by omega), Option.bind_some, rngsOf, List.getElem?_map, List.getElem?_range hkb]
    simp only [Option.map_some, Option.bind_some]
    have hrow : row = (List.range (rngOf Ta Tb st kb).2).map (fun t =>
      ⟨si, (rngOf Ta Tb st kb).1 + t, apos Tb st.2 + kb⟩) := by
      have := flatten_get _ si rows f1 kb f2
      rw [← f3, hg, hrows, matchOf, List.getElem?_map, List.getElem?_range hkb] at this
      exact Option.some.inj this
    rw [hrow] at hc hk
    rw [List.length_map, List.length_range] at hk
    rw [List.getElem?_map, List.getElem?_range hk] at hc
    rw [← Option.some.inj hc, f3, Nat.add_sub_cancel_left]

theorem flatten_flatten_map {X Y : Type} (l : List X) (F : X → List (List Y)) :
    (l.map F).flatten.flatten = (l.map (fun x => (F x).flatten)).flatten := by
  induction l with
  | nil => rfl
  | cons x l ih => simp [ih]

theorem sortedPairs_spec (p : Args W) (ha : p.a = flat Ta) (hb : p.b = flat Tb) (block : List (Nat × Nat))
    (h : BlockOk Ta Tb block)
    (hs : ∀ row ∈ Ta.flatten, row.Pairwise (fun x y => u32 x.label ≤ u32 y.label)) :
    ∃ C, sortedPairs p block = some C ∧ C.Nodup ∧ C.Pairwise (fun c d => c.si ≤ d.si) ∧
      ∀ c, c ∈ C ↔ ∃ x y, Fits Ta Tb block c x y ∧ u32 x.label = u32 y.label := by
  have hF : ∀ x, ∀ c ∈ (matchOf Ta Tb x).flatten, c.si = x.2 := by
    intro x c hc
    obtain ⟨l, hl, hc⟩ := List.mem_flatten.mp hc
    obtain ⟨kb, -, rfl⟩ := List.mem_map.mp hl
    obtain ⟨t, -, rfl⟩ := List.mem_map.mp hc
    rfl
  refine ⟨_, sortedPairs_eq p ha hb block h hs, ?_, ?_, ?_⟩
  · rw [flatten_flatten_map]
    apply blocks_nodup _ _ hF
    intro x
    rw [List.nodup_flatten]
    constructor
    · intro l hl
      obtain ⟨kb, -, rfl⟩ := List.mem_map.mp hl
      apply List.Nodup.map_on _ List.nodup_range
      intro i hi j hj hij
      simpa using hij
    · rw [matchOf, List.pairwise_map]
      apply List.pairwise_lt_range.imp
      intro i j hij
      rw [List.disjoint_left]
      intro c h1 h2
      obtain ⟨t, -, rfl⟩ := List.mem_map.mp h1
      obtain ⟨u, -, he⟩ := List.mem_map.mp h2
      simp only [Cand.mk.injEq] at he
      omega
  · rw [flatten_flatten_map]
    exact blocks_sorted _ _ hF
  · intro c
    rw [flatten_flatten_map, blocks_mem _ _ hF]
    constructor
    · rintro ⟨st, hst, hc⟩
      obtain ⟨l, hl, hc⟩ := List.mem_flatten.mp hc
      obtain ⟨kb, hkb, rfl⟩ := List.mem_map.mp hl
      obtain ⟨t, ht, hc'⟩ := List.mem_map.mp hc
      rw [List.mem_range] at hkb ht
      simp only at hkb ht hc'
      obtain ⟨h1, h2⟩ := h st (List.mem_of_getElem? hst)
      have hrow := hs _ (List.mem_of_getElem? (ra_get h1))
      have hy := List.getElem?_eq_getElem hkb
      rw [rngOf, hy] at ht hc'
      simp only at ht hc'
      have hle := below_le (ra Ta st) (u32 ((rb Tb st)[kb]).label + 1)
      have hka : below (ra Ta st) (u32 ((rb Tb st)[kb]).label) + t < (ra Ta st).length := by omega
      refine ⟨_, _, ⟨st, hst, _, kb, List.getElem?_eq_getElem hka, hy, ?_, ?_⟩, ?_⟩
      · rw [← hc', Nat.add_assoc]
      · rw [← hc']
      · rw [between_iff _ hrow _ _ _ (List.getElem?_eq_getElem hka)]
        omega
    · rintro ⟨x, y, ⟨st, hst, ka, kb, g1, g2, g3, g4⟩, he⟩
      obtain ⟨h1, h2⟩ := h st (List.mem_of_getElem? hst)
      have hrow := hs _ (List.mem_of_getElem? (ra_get h1))
      rw [between_iff _ hrow _ _ _ g1] at he
      have hkb := (List.getElem?_eq_some_iff.mp g2).1
      refine ⟨st, hst, List.mem_flatten.mpr ⟨_, List.mem_map.mpr ⟨kb, List.mem_range.mpr hkb, rfl⟩, ?_⟩⟩
      refine List.mem_map.mpr ⟨ka - below (ra Ta st) (u32 y.label), ?_, ?_⟩
      · rw [List.mem_range, rngOf]
        simp only [g2]
        omega
      · rw [rngOf]
        simp only [g2]
        rw [← g4, show apos Ta st.1 + below (ra Ta st) (u32 y.label) + (ka - below (ra Ta st) (u32 y.label)) = c.ia by omega]

/-- The pairs of arcs that are looked at: each one once, in the order of the states. -/
theorem pairsOf_spec (p : Args W) (ha : p.a = flat Ta) (hb : p.b = flat Tb) (block : List (Nat × Nat))
    (h : BlockOk Ta Tb block) (hs : p.sorted = true → ∀ f ∈ Ta, Isect.RowSorted f)
    (hla : ∀ f ∈ Ta, ∀ x ∈ f.flatten, Int32 x.label) (hlb : ∀ f ∈ Tb, ∀ x ∈ f.flatten, Int32 x.label) :
    ∃ C, pairsOf p block = some C ∧ C.Nodup ∧ C.Pairwise (fun c d => c.si ≤ d.si) ∧
      ∀ c, c ∈ C ↔ ∃ x y, Fits Ta Tb block c x y ∧ (p.sorted = true → x.label = y.label) := by
  unfold pairsOf
  split
  · rename_i hp
    obtain ⟨C, h1, h2, h3, h4⟩ := sortedPairs_spec p ha hb block h (by
      intro row hrow
      obtain ⟨f, hf, hr⟩ := List.mem_flatten.mp hrow
      exact hs hp f hf row hr)
    refine ⟨C, h1, h2, h3, ?_⟩
    intro c
    rw [h4]
    constructor
    · rintro ⟨x, y, hf, he⟩
      refine ⟨x, y, hf, fun _ => ?_⟩
      obtain ⟨st, hst, ka, kb, g1, g2, -, -⟩ := hf
      obtain ⟨b1, b2⟩ := h st (List.mem_of_getElem? hst)
      have hx : Int32 x.label := by
        obtain ⟨f, hf, hr⟩ := List.mem_flatten.mp (List.mem_of_getElem? (ra_get b1))
        exact hla f hf x (List.mem_flatten.mpr ⟨_, hr, List.mem_of_getElem? g1⟩)
      have hy : Int32 y.label := by
        obtain ⟨f, hf, hr⟩ := List.mem_flatten.mp (List.mem_of_getElem? (rb_get b2))
        exact hlb f hf y (List.mem_flatten.mpr ⟨_, hr, List.mem_of_getElem? g2⟩)
      exact u32_inj _ _ hx hy he
    · rintro ⟨x, y, hf, he⟩
      exact ⟨x, y, hf, by rw [he hp]⟩
  · rename_i hp
    obtain ⟨C, h1, h2, h3, h4⟩ := crossPairs_spec p ha hb block h
    refine ⟨C, h1, h2, h3, ?_⟩
    intro c
    rw [h4]
    constructor
    · rintro ⟨x, y, hf⟩
      exact ⟨x, y, hf, fun hq => absurd hq hp⟩
    · rintro ⟨x, y, hf, -⟩
      exact ⟨x, y, hf⟩

end

end Verif.Fsa.Idv
