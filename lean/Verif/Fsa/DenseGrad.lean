import Verif.Fsa.Dense.Witness
import Verif.Fsa.Pruned.Witness
import Verif.Tensor.GradProps

/-!
# Gradients of `intersect_dense` and `intersect_dense_pruned`

k2/python/k2/autograd.py.  The score of an arc of the result is the sum of the scores that the arc maps name, and
`backward` is the gradient of these sums.  Numbers are exact.
-/

set_option linter.unusedSectionVars false

namespace Verif.Fsa.Grad
open Verif.Ragged Verif.Util Verif.Tensor Finset

/-! ## Model -/

/-- `backward` of `_IntersectDensePrunedFunction`, autograd.py 474-508, and of `_IntersectDenseFunction`, 631-660:
`na` is the number of scores of `a_fsas`, `nb` that of `b_fsas`; `grad_b.view(-1)` has one axis.  The threads of the
two calls of `index_add` add in the orders `oa` and `ob`. -/
def denseBackward {R : Type} [Add R] [Zero R] (na nb : Nat) (mapA mapB : List Int) (g : List R) (oa ob : List Nat) :
    Option (Tensor R × Tensor R) := do
  let ga ← indexAdd1 (vec g) mapA (vec (List.replicate na 0)) oa
  let gb ← indexAdd1 (vec g) mapB (vec (List.replicate nb 0)) ob
  some (ga, gb)

/-- `seqframe_idx` and `frame_idx` of an arc, autograd.py 449-471 and 606-627; `ids` and `splits` are the row_ids and
row_splits of the dense FSA. -/
def frameIdx (cols : Nat) (ids splits : List Nat) (j : Nat) : Option (Nat × Nat) := do
  let s := j / cols
  let r ← ids[s]?
  let x ← splits[r]?
  some (s, s - x)

/-! ## `backward` -/

theorem val_vec {R : Type} [Zero R] (l : List R) (i : Nat) : val (vec l) [i] = l.getD i 0 := by
  simp [Tensor.val, elem, vec, readAt, ofDims, mkStrides, dot, List.getD_eq_getElem?_getD]

/-- One of the two calls. -/
theorem add_gradient {R : Type} [CommRing R] (n : Nat) (map : List Int) (g : List R) (hl : map.length = g.length)
    (hin : ∀ k ∈ map, -1 ≤ k ∧ k < n) (o : List Nat) (ho : o.Perm (List.range g.length)) :
    ∃ u, indexAdd1 (vec g) map (vec (List.replicate n 0)) o = some u ∧ u.shape = ofDims [n] ∧ Valid u ∧
      ∀ D : Nat → R, ∑ k ∈ range n, val u [k] * D k = ∑ i ∈ range g.length, g.getD i 0 * pick map D i := by
  obtain ⟨u, e, s, hv, h⟩ := index_add (vec g) (vec (List.replicate n (0 : R))) (vec_valid _) (vec_valid _)
    (contig_injective _ _ _) g.length n (by simp [vec, ofDims]) (by simp [vec, ofDims]) map hl hin o ho
  refine ⟨u, e, by rw [s]; simp [vec], hv, fun D => ?_⟩
  have h' : ∀ k ∈ range n, val u [k] * D k =
      (∑ i ∈ range map.length, if map[i]? = some (k : Int) then g.getD i 0 else 0) * D k := by
    intro k hk
    rw [h k (mem_range.1 hk), val_zeros, zero_add, hl]
    simp only [val_vec]
  rw [sum_congr rfl h', adjoint map n hin (fun i => g.getD i 0) D, hl]

/-- `backward` succeeds, whatever the orders of the additions, and gives the gradient of the sums of two scores. -/
theorem dense_backward {R : Type} [CommRing R] (na nb : Nat) (mapA mapB : List Int) (g : List R)
    (hla : mapA.length = g.length) (hlb : mapB.length = g.length) (ha : ∀ k ∈ mapA, -1 ≤ k ∧ k < na)
    (hb : ∀ k ∈ mapB, -1 ≤ k ∧ k < nb) (oa ob : List Nat) (hoa : oa.Perm (List.range g.length))
    (hob : ob.Perm (List.range g.length)) :
    ∃ ga gb, denseBackward na nb mapA mapB g oa ob = some (ga, gb) ∧ ga.shape = ofDims [na] ∧ gb.shape = ofDims [nb] ∧
      Valid ga ∧ Valid gb ∧ ∀ a a' b b' : Nat → R,
        ∑ i ∈ range g.length, g.getD i 0 * ((pick mapA a' i + pick mapB b' i) - (pick mapA a i + pick mapB b i)) =
          ∑ k ∈ range na, val ga [k] * (a' k - a k) + ∑ k ∈ range nb, val gb [k] * (b' k - b k) := by
  obtain ⟨ga, e1, s1, v1, h1⟩ := add_gradient na mapA g hla ha oa hoa
  obtain ⟨gb, e2, s2, v2, h2⟩ := add_gradient nb mapB g hlb hb ob hob
  refine ⟨ga, gb, by simp [denseBackward, e1, e2], s1, s2, v1, v2, fun a a' b b' => ?_⟩
  rw [h1, h2, ← sum_add_distrib]
  refine sum_congr rfl (fun i _ => ?_)
  have hp : ∀ (map : List Int) (x y : Nat → R), pick map (fun k => x k - y k) i = pick map x i - pick map y i := by
    intro map x y
    unfold Tensor.pick
    cases map[i]? with
    | none => simp
    | some k => by_cases h : k = -1 <;> simp [h]
  rw [hp, hp]
  ring

/-! ## The scores of the result -/

/-- Every arc of the result has the score of the arc of `a` that `ma` names plus the score of `b` that `mb` names. -/
def ScoreSum {S : Type} [Add S] (a : List S) (b : List S) (out : List S) (ma mb : List Int) : Prop :=
  ma.length = out.length ∧ mb.length = out.length ∧
    ∀ (i : Nat) (x : S), out[i]? = some x → ∃ (k j : Nat) (y z : S), ma[i]? = some (k : Int) ∧ mb[i]? = some (j : Int) ∧
      a[k]? = some y ∧ b[j]? = some z ∧ x = y + z

section
variable {S : Type} [Add S] [Zero S] [Bot S] [Max S] [Min S] [LT S] [DecidableLT S]

theorem carc_score (v : FsaVec S) (inv : List Nat) (l : List (Dn.CArc S))
    (h : (List.range v.arcs.length).mapM (Dn.compressArc v inv) = some l) (i : Nat) (c : Dn.CArc S)
    (hi : l[i]? = some c) : ∃ a, v.arcs[i]? = some a ∧ c.score = a.score := by
  obtain ⟨hl, hg⟩ := mapM_get h
  have hlt := (List.getElem?_eq_some_iff.1 hi).1
  rw [hl, List.length_range] at hlt
  have := hg i i (List.getElem?_range hlt)
  rw [hi] at this
  have := this.symm
  simp only [Dn.compressArc, Option.bind_eq_bind, Option.bind_eq_some_iff, Option.some.injEq] at this
  obtain ⟨a, h1, _, _, _, _, _, _, _, _, _, _, _, _, _, _, rfl⟩ := this
  exact ⟨a, h1, rfl⟩

theorem ansArc_score (v : FsaVec S) (b : Dn.Dense S) (carcs : List (Dn.CArc S)) (infos : List Dn.FsaInfo) (T : Nat)
    (sc : List (List S)) (A : Dn.AnsShape) (i st : Nat) (z : Dn.AnsArc S)
    (h : Dn.ansArc v b carcs infos T sc A i st = some z) :
    carcs[z.arc]? = some z.c ∧ ∃ m, b.mem[z.sidx]? = some m ∧ z.score = z.c.score + m := by
  unfold Dn.ansArc at h
  obtain ⟨x, _, h⟩ := Option.bind_eq_some_iff.1 h
  obtain ⟨tt, _, h⟩ := Option.bind_eq_some_iff.1 h
  obtain ⟨r, _, h⟩ := Option.bind_eq_some_iff.1 h
  obtain ⟨x0, _, h⟩ := Option.bind_eq_some_iff.1 h
  obtain ⟨g, _, h⟩ := Option.bind_eq_some_iff.1 h
  obtain ⟨info, _, h⟩ := Option.bind_eq_some_iff.1 h
  obtain ⟨ab, _, h⟩ := Option.bind_eq_some_iff.1 h
  obtain ⟨c, hc, h⟩ := Option.bind_eq_some_iff.1 h
  obtain ⟨m, hm, h⟩ := Option.bind_eq_some_iff.1 h
  obtain ⟨src, _, h⟩ := Option.bind_eq_some_iff.1 h
  split at h
  · obtain ⟨d0, _, h⟩ := Option.bind_eq_some_iff.1 h
    obtain ⟨d1, _, h⟩ := Option.bind_eq_some_iff.1 h
    obtain ⟨fw, _, h⟩ := Option.bind_eq_some_iff.1 h
    obtain ⟨bw, _, h⟩ := Option.bind_eq_some_iff.1 h
    obtain rfl := Option.some.inj h
    exact ⟨hc, m, hm, rfl⟩
  · simp at h

/-- The scores of `IntersectDense`. -/
theorem intersect_dense_scores (dev : Verif.Ragged.Dev) (debug : Bool) (fuel maxSize : Nat) (dec : S → Nat → Nat → S)
    (v : FsaVec S) (b : Dn.Dense S) (map : List Nat) (neg : S) (maxStates maxArcs : Nat) (w : FsaVec S)
    (ma mb : List Nat)
    (h : Dn.intersectDense dev debug fuel maxSize dec v b map neg maxStates maxArcs = some (w, ma, mb)) :
    ScoreSum (v.arcs.map Arc.score) b.mem (w.arcs.map Arc.score) (ma.map Nat.cast) (mb.map Nat.cast) := by
  unfold Dn.intersectDense at h
  split at h
  · simp only [Option.bind_eq_bind, Option.bind_eq_some_iff] at h
    obtain ⟨d, hd, s0, _, sc, _, ⟨cut, flags⟩, _, hf⟩ := h
    have hcarcs : ∃ inv, (List.range v.arcs.length).mapM (Dn.compressArc v inv) = some d.carcs := by
      unfold Dn.denseInit at hd
      split at hd
      · simp only [Option.bind_eq_bind, Option.bind_eq_some_iff] at hd
        obtain ⟨⟨ish, order⟩, _, inv, _, carcs, hc, ⟨comb, _⟩, _, infos, _, hd⟩ := hd
        split at hd
        · simp only [Option.bind_eq_some_iff] at hd
          obtain ⟨copies, _, c0, _, per, _, hd⟩ := hd
          split at hd
          · simp only [Option.bind_eq_some_iff, Option.some.injEq] at hd
            obtain ⟨steps, _, rfl⟩ := hd
            exact ⟨inv, hc⟩
          · simp at hd
        · simp at hd
      · simp at hd
    obtain ⟨inv, hcarcs⟩ := hcarcs
    unfold Dn.formatOutput at hf
    simp only [Option.bind_eq_bind, Option.bind_eq_some_iff] at hf
    obtain ⟨n2o, _, tot1, _, id1, _, sts, _, sp2, _, ⟨arcs, ids3⟩, _, outs, ho, sp3', _, sh, _, hf⟩ := hf
    have hres : w.arcs = outs.map Prod.fst ∧ ma = outs.map (fun x => x.2.1) ∧ mb = outs.map (fun x => x.2.2) := by
      split at hf
      · simp only [Option.some.injEq, Prod.mk.injEq] at hf
        obtain ⟨rfl, rfl, rfl⟩ := hf
        exact ⟨rfl, rfl, rfl⟩
      · simp at hf
    obtain ⟨e1, rfl, rfl⟩ := hres
    rw [e1]
    refine ⟨by simp, by simp, fun i x hx => ?_⟩
    simp only [List.getElem?_map, Option.map_eq_some_iff] at hx
    obtain ⟨_, ⟨y, hy, rfl⟩, rfl⟩ := hx
    obtain ⟨hl, hg⟩ := mapM_get ho
    have hlt := (List.getElem?_eq_some_iff.1 hy).1
    have := hg i _ (List.getElem?_eq_getElem (by omega))
    rw [hy] at this
    have := this.symm
    simp only [Dn.outArc, Option.bind_eq_bind, Option.bind_eq_some_iff] at this
    obtain ⟨z, hz, x0, _, base, _, hout⟩ := this
    split at hout
    · rw [Option.some.injEq] at hout
      obtain ⟨hc, m, hm, hs'⟩ := ansArc_score _ _ _ _ _ _ _ _ _ _ hz
      obtain ⟨a, ha, hs⟩ := carc_score v inv d.carcs hcarcs _ _ hc
      subst hout
      refine ⟨z.arc, z.sidx, a.score, m, ?_, ?_, ?_, hm, by rw [← hs]; exact hs'⟩
      · simp only [List.getElem?_map, hy, Option.map_some]
      · simp only [List.getElem?_map, hy, Option.map_some]
      · rw [List.getElem?_map, ha]; rfl
    · simp at hout
  · simp at h

end

/-! ## The scores of `IntersectDensePruned` -/

section
variable {K : Type} [Field K] [LinearOrder K] [IsStrictOrderedRing K]
variable {p : Dp.Args K} {F : List (List (List (Arc (WithBot K))))} {B : List (List (List (WithBot K)))}

/-- The arcs of the result, with their values in the arc maps. -/
def allRows (p : Dp.Args K) (F : List (List (List (Arc (WithBot K))))) (B : List (List (List (WithBot K))))
    (L : Nat → Nat → List Nat) : List (Arc (WithBot K) × Int × Nat) :=
  ((List.range p.seqs).map (fun i => (Dp.outRows p (Dp.seqOf F B i) (Dp.rest p (Dp.seqOf F B i) (L i))).flatten)).flatten

theorem results_rows (L : Nat → Nat → List Nat) (res : FsaVec (WithBot K) × List Int × List Nat)
    (h : Dp.Results p F B (Dp.outs p F B L) res) : res.1.arcs = (allRows p F B L).map Prod.fst ∧
      res.2.1 = (allRows p F B L).map (fun x => x.2.1) ∧ res.2.2 = (allRows p F B L).map (fun x => x.2.2) := by
  refine ⟨?_, ?_, ?_⟩
  · rw [h.fsas]
    show (List.map Prod.fst (Dp.outs p F B L)).flatten.flatten = _
    rw [List.flatten_flatten, allRows, List.map_flatten, Dp.outs, List.map_map, List.map_map, List.map_map]
    congr 1
    refine List.map_congr_left (fun i _ => ?_)
    exact Dp.outFsa_flatten p _ _
  · rw [h.mapA, allRows, List.map_flatten, Dp.outs, List.map_map, List.map_map]
    rfl
  · rw [h.mapB, allRows, List.map_flatten, Dp.outs, List.map_map, List.map_map]
    rfl

/-- The scores of `IntersectDensePruned`, if no partial results are made and the scores are contiguous.  All of them
are finite. -/
theorem intersect_dense_pruned_scores_partial (hA : Dp.ArgsOk p F B) (hst : p.b.stride = p.b.cols)
    (hp : p.allowPartial = false) (order : Nat → Nat → List Nat) (ho : ∀ t n, (order t n).Perm (List.range n)) :
    ∃ w ma mb, Dp.intersectDensePruned p order = some (w, ma, mb) ∧
      ScoreSum (p.v.arcs.map Arc.score) p.b.mem (w.arcs.map Arc.score) ma (mb.map Nat.cast) ∧
      ∀ a ∈ w.arcs, a.score ≠ ⊥ := by
  obtain ⟨L, h1, ⟨w, ma, mb⟩, h2, h3⟩ := hA.run order ho
  obtain ⟨e1, e2, e3⟩ := results_rows L _ h3
  have e1 : w.arcs = _ := e1
  have e2 : ma = _ := e2
  have e3 : mb = _ := e3
  have key : ∀ y ∈ allRows p F B L, ∃ (k : Nat) (a : Arc (WithBot K)) (m : WithBot K), y.2.1 = (k : Int) ∧
      p.v.arcs[k]? = some a ∧ p.b.mem[y.2.2]? = some m ∧ y.1.score = a.score + m ∧ y.1.score ≠ ⊥ := by
    intro y hy
    obtain ⟨l, hl, hy⟩ := List.mem_flatten.1 hy
    obtain ⟨i, hi, rfl⟩ := List.mem_map.1 hl
    have hi := List.mem_range.1 hi
    have hc := hA.seq_ok i hi
    have hT := hA.setup.maxT i hi
    have hs := Dp.rest_good p _ hT (L i) (h1 i hi)
    have hpf : Dp.partFlag p (Dp.seqOf F B i) = false := by simp [Dp.partFlag, hp]
    obtain ⟨n, hn⟩ := List.mem_iff_getElem?.1 hy
    obtain ⟨t, q, k, ht, hq, hk, -⟩ := Dp.lay_arc _ _ _ (Dp.lay_nodup hc hs) n y hn
    obtain ⟨g1, z, g2, g3, g4, g5, g6, g7⟩ := Dp.entries_of hc hs t q y k hk
    have hnf : ¬ Dp.faked (Dp.seqOf F B i) t z.1 := by
      intro hf
      rw [Dp.faked_part hc hs t g1 z g5 g6 hf] at hpf
      simp at hpf
    have hsc : y.1.score = z.1.score + Dn.labScore ((Dp.seqOf F B i).fr.getD t []) z.1.label := by
      rw [g3]
      show (Dp.seqOf F B i).sc (Dp.partFlag p (Dp.seqOf F B i)) t z.1 = _
      rw [hpf, Dp.Seq.sc, if_neg (by simp), add_comm]
    refine ⟨(Dp.seqOf F B i).aoff + z.2, z.1, Dn.labScore ((Dp.seqOf F B i).fr.getD t []) z.1.label, ?_,
      hA.setup.arc i hi _ _ g5, ?_, hsc, ?_⟩
    · rw [g3]
      simp only [Dp.entry, if_neg hnf]
    · have := hA.setup.mem i hi z.1 (List.mem_of_getElem? g5) t g1
      rw [hst] at this
      rw [g3]
      exact this
    · rw [g3]
      exact hs.real t g1 z g6
  refine ⟨w, ma, mb, h2, ⟨?_, ?_, ?_⟩, ?_⟩
  · rw [e1, e2]; simp
  · rw [e1, e3]; simp
  · intro i x hx
    rw [e1] at hx
    simp only [List.getElem?_map, Option.map_eq_some_iff] at hx
    obtain ⟨_, ⟨y, hy, rfl⟩, rfl⟩ := hx
    obtain ⟨k, a, m, r1, r2, r3, r4, r5⟩ := key y (List.mem_of_getElem? hy)
    refine ⟨k, y.2.2, a.score, m, ?_, ?_, ?_, r3, r4⟩
    · rw [e2, List.getElem?_map, hy, Option.map_some, r1]
    · rw [e3]; simp [hy]
    · rw [List.getElem?_map, r2]; rfl
  · intro a ha
    rw [e1] at ha
    obtain ⟨y, hy, rfl⟩ := List.mem_map.1 ha
    obtain ⟨k, a, m, r1, r2, r3, r4, r5⟩ := key y hy
    exact r5

end

/-! ## The gradient -/

/-- A finite score as a number. -/
def fin {K : Type} [Zero K] (x : WithBot K) : K := x.unbotD 0

/-- If the scores before and after a change are sums according to the same arc maps, `backward` gives the gradient:
the changes of the scores of the result, weighted with the gradient of the result, add up to the changes of the scores
of the two arguments, weighted with the gradients that `backward` returns. -/
theorem score_sum_gradient {K : Type} [CommRing K] (a a' b b' out out' : List (WithBot K)) (ma mb : List Int)
    (h : ScoreSum a b out ma mb) (h' : ScoreSum a' b' out' ma mb) (hf : ∀ x ∈ out, x ≠ ⊥)
    (hf' : ∀ x ∈ out', x ≠ ⊥) (g : List K) (hg : g.length = out.length) (oa ob : List Nat)
    (hoa : oa.Perm (List.range g.length)) (hob : ob.Perm (List.range g.length)) :
    ∃ ga gb, denseBackward a.length b.length ma mb g oa ob = some (ga, gb) ∧ ga.shape = ofDims [a.length] ∧
      gb.shape = ofDims [b.length] ∧
      ∑ i ∈ range g.length, g.getD i 0 * (fin (out'.getD i ⊥) - fin (out.getD i ⊥)) =
        ∑ k ∈ range a.length, Tensor.val ga [k] * (fin (a'.getD k ⊥) - fin (a.getD k ⊥)) +
        ∑ k ∈ range b.length, Tensor.val gb [k] * (fin (b'.getD k ⊥) - fin (b.getD k ⊥)) := by
  have hma : ∀ k ∈ ma, -1 ≤ k ∧ k < a.length := by
    intro k hk
    obtain ⟨i, hi⟩ := List.mem_iff_getElem?.1 hk
    have hlt := (List.getElem?_eq_some_iff.1 hi).1
    obtain ⟨k', j, y, z, e1, e2, e3, e4, e5⟩ := h.2.2 i _ (List.getElem?_eq_getElem (by rw [← h.1]; exact hlt))
    rw [hi, Option.some.injEq] at e1
    have := (List.getElem?_eq_some_iff.1 e3).1
    omega
  have hmb : ∀ k ∈ mb, -1 ≤ k ∧ k < b.length := by
    intro k hk
    obtain ⟨i, hi⟩ := List.mem_iff_getElem?.1 hk
    have hlt := (List.getElem?_eq_some_iff.1 hi).1
    obtain ⟨k', j, y, z, e1, e2, e3, e4, e5⟩ := h.2.2 i _ (List.getElem?_eq_getElem (by rw [← h.2.1]; exact hlt))
    rw [hi, Option.some.injEq] at e2
    have := (List.getElem?_eq_some_iff.1 e4).1
    omega
  obtain ⟨ga, gb, r1, r2, r3, _, _, r6⟩ := dense_backward a.length b.length ma mb g (by rw [hg, h.1])
    (by rw [hg, h.2.1]) hma hmb oa ob hoa hob
  refine ⟨ga, gb, r1, r2, r3, ?_⟩
  rw [← r6 (fun k => fin (a.getD k ⊥)) (fun k => fin (a'.getD k ⊥)) (fun k => fin (b.getD k ⊥))
    (fun k => fin (b'.getD k ⊥))]
  have key : ∀ (a b out : List (WithBot K)), ScoreSum a b out ma mb → (∀ x ∈ out, x ≠ ⊥) → ∀ i, i < out.length →
      fin (out.getD i ⊥) = Tensor.pick ma (fun k => fin (a.getD k ⊥)) i + Tensor.pick mb (fun k => fin (b.getD k ⊥)) i := by
    intro a b out h hf i hi
    have e := List.getElem?_eq_getElem hi
    obtain ⟨k, j, y, z, e1, e2, e3, e4, e5⟩ := h.2.2 i _ e
    have hne := hf _ (List.mem_of_getElem? e)
    rw [e5] at hne
    simp only [Tensor.pick, e1, e2, List.getD_eq_getElem?_getD, e, Option.getD_some, Int.toNat_natCast, e3, e4]
    rw [if_neg (by omega), if_neg (by omega), e5]
    cases y with
    | bot => simp at hne
    | coe y =>
      cases z with
      | bot => simp at hne
      | coe z => rfl
  have hl : out'.length = out.length := by rw [← h'.1, h.1]
  refine sum_congr rfl (fun i hi => ?_)
  have hi := mem_range.1 hi
  rw [key a b out h hf i (by omega), key a' b' out' h' hf' i (by omega)]

/-- `intersect_dense`: two calls that give the same arc maps. -/
theorem intersect_dense_gradient {K : Type} [CommRing K] [LinearOrder K] (dev : Verif.Ragged.Dev) (debug : Bool)
    (fuel maxSize : Nat) (dec : WithBot K → Nat → Nat → WithBot K) (v v' : FsaVec (WithBot K))
    (b b' : Dn.Dense (WithBot K)) (map : List Nat) (neg : WithBot K) (maxStates maxArcs : Nat)
    (w w' : FsaVec (WithBot K)) (ma mb : List Nat)
    (h : Dn.intersectDense dev debug fuel maxSize dec v b map neg maxStates maxArcs = some (w, ma, mb))
    (h' : Dn.intersectDense dev debug fuel maxSize dec v' b' map neg maxStates maxArcs = some (w', ma, mb))
    (hf : ∀ x ∈ w.arcs, x.score ≠ ⊥) (hf' : ∀ x ∈ w'.arcs, x.score ≠ ⊥) (g : List K)
    (hg : g.length = w.arcs.length) (oa ob : List Nat) (hoa : oa.Perm (List.range g.length))
    (hob : ob.Perm (List.range g.length)) :
    ∃ ga gb, denseBackward v.arcs.length b.mem.length (ma.map Nat.cast) (mb.map Nat.cast) g oa ob = some (ga, gb) ∧
      ga.shape = ofDims [v.arcs.length] ∧ gb.shape = ofDims [b.mem.length] ∧
      ∑ i ∈ range g.length, g.getD i 0 *
          (fin ((w'.arcs.map Arc.score).getD i ⊥) - fin ((w.arcs.map Arc.score).getD i ⊥)) =
        ∑ k ∈ range v.arcs.length, Tensor.val ga [k] *
          (fin ((v'.arcs.map Arc.score).getD k ⊥) - fin ((v.arcs.map Arc.score).getD k ⊥)) +
        ∑ k ∈ range b.mem.length, Tensor.val gb [k] * (fin (b'.mem.getD k ⊥) - fin (b.mem.getD k ⊥)) := by
  have := score_sum_gradient _ _ _ _ _ _ _ _ (intersect_dense_scores dev debug fuel maxSize dec v b map neg maxStates
    maxArcs w ma mb h) (intersect_dense_scores dev debug fuel maxSize dec v' b' map neg maxStates maxArcs w' ma mb h')
    (by simpa using hf) (by simpa using hf') g (by simpa using hg) oa ob hoa hob
  simpa using this

/-- `intersect_dense_pruned` without partial results: two calls, with any orders of insertions, that give the same arc
maps. -/
theorem intersect_dense_pruned_gradient_partial {K : Type} [Field K] [LinearOrder K] [IsStrictOrderedRing K]
    (p p' : Dp.Args K) (F F' : List (List (List (Arc (WithBot K))))) (B B' : List (List (List (WithBot K))))
    (hA : Dp.ArgsOk p F B) (hA' : Dp.ArgsOk p' F' B') (hst : p.b.stride = p.b.cols) (hst' : p'.b.stride = p'.b.cols)
    (hp : p.allowPartial = false) (hp' : p'.allowPartial = false) (order order' : Nat → Nat → List Nat)
    (ho : ∀ t n, (order t n).Perm (List.range n)) (ho' : ∀ t n, (order' t n).Perm (List.range n)) :
    ∃ w ma mb w' ma' mb', Dp.intersectDensePruned p order = some (w, ma, mb) ∧
      Dp.intersectDensePruned p' order' = some (w', ma', mb') ∧ (ma = ma' → mb = mb' →
      ∀ (g : List K) (oa ob : List Nat), g.length = w.arcs.length → oa.Perm (List.range g.length) →
      ob.Perm (List.range g.length) →
      ∃ ga gb, denseBackward p.v.arcs.length p.b.mem.length ma (mb.map Nat.cast) g oa ob = some (ga, gb) ∧
        ga.shape = ofDims [p.v.arcs.length] ∧ gb.shape = ofDims [p.b.mem.length] ∧
        ∑ i ∈ range g.length, g.getD i 0 *
            (fin ((w'.arcs.map Arc.score).getD i ⊥) - fin ((w.arcs.map Arc.score).getD i ⊥)) =
          ∑ k ∈ range p.v.arcs.length, Tensor.val ga [k] *
            (fin ((p'.v.arcs.map Arc.score).getD k ⊥) - fin ((p.v.arcs.map Arc.score).getD k ⊥)) +
          ∑ k ∈ range p.b.mem.length, Tensor.val gb [k] * (fin (p'.b.mem.getD k ⊥) - fin (p.b.mem.getD k ⊥))) := by
  obtain ⟨w, ma, mb, e1, e2, e3⟩ := intersect_dense_pruned_scores_partial hA hst hp order ho
  obtain ⟨w', ma', mb', e1', e2', e3'⟩ := intersect_dense_pruned_scores_partial hA' hst' hp' order' ho'
  refine ⟨w, ma, mb, w', ma', mb', e1, e1', ?_⟩
  rintro rfl rfl g oa ob hg hoa hob
  have := score_sum_gradient _ _ _ _ _ _ _ _ e2 e2' (by simpa using e3) (by simpa using e3') g (by simpa using hg) oa ob
    hoa hob
  simpa using this

/-- The hypotheses hold for an example. -/
example : ∃ w ma mb, Dp.intersectDensePruned (Dp.exArgs false) Dp.inOrder = some (w, ma, mb) ∧
    ScoreSum ((Dp.exArgs false).v.arcs.map Arc.score) (Dp.exArgs false).b.mem (w.arcs.map Arc.score) ma
      (mb.map Nat.cast) ∧ ∀ a ∈ w.arcs, a.score ≠ ⊥ :=
  intersect_dense_pruned_scores_partial (Dp.ex_args false) rfl rfl _ (fun _ _ => List.Perm.refl _)

/-- The gradients for the arc maps of this example; arc 1 of the graph is used three times. -/
example : (denseBackward 4 15 [0, 1, 1, 2, 3, 1, 3] [1, 2, 5, 4, 6, 11, 12] [(1 : ℚ), 2, 4, 8, 16, 32, 64]
      [6, 0, 2, 1, 3, 5, 4] [0, 1, 2, 3, 4, 5, 6]).map (fun r => (r.1.data, r.2.data)) =
    some ([1, 38, 8, 80], [0, 1, 2, 0, 8, 4, 16, 0, 0, 0, 0, 32, 64, 0, 0]) := by decide +kernel

/-! ## Partial results -/

/-- The example with partial results, with score `x` for the arc that becomes final. -/
def longWith (x : ℚ) : Dp.Args ℚ :=
  ⟨flat [[[⟨0, 1, 1, Dp.w 0⟩], [⟨1, 2, 1, Dp.w x⟩], [⟨2, 3, -1, Dp.w 0⟩], []]],
    ⟨[0, 2], 3, 3, [⊥, Dp.w 0, Dp.w 7, Dp.w 0, ⊥, ⊥]⟩, 8, 4, 1, 10, true⟩

/-- With partial results, `backward` is not the gradient.  If the score of the second arc of the graph grows from 5 to
6, so does the score of the second arc of the result, and the arc maps do not change.  But for the gradient 1 of this
arc, `backward` gives gradient 0 to all arcs of the graph, and gradient 1 to a score of the network that the result does
not depend on. -/
theorem intersect_dense_pruned_gradient_neg :
    (∀ x ∈ [(5 : ℚ), 6], (Dp.intersectDensePruned (longWith x) Dp.inOrder).map (fun r => (r.1.arcs, r.2.1, r.2.2)) =
      some ([⟨0, 1, 1, Dp.w 7⟩, ⟨1, 2, -1, Dp.w x⟩], [0, -1], [2, 5])) ∧
    (denseBackward 3 6 [0, -1] [2, 5] [(0 : ℚ), 1] [0, 1] [0, 1]).map (fun r => (r.1.data, r.2.data)) =
      some ([0, 0, 0], [0, 0, 0, 0, 0, 1]) := by
  refine ⟨?_, by decide +kernel⟩
  decide +kernel

/-! ## Frames -/

/-- For row `t` of sequence `i` of a dense FSA and any column, `seqframe_idx` is the number of the row in the batch and
`frame_idx` the number of the row in the sequence. -/
theorem frame_idx {X : Type} (B : List (List X)) (cols i t c : Nat) (fr : List X) (hi : B[i]? = some fr)
    (ht : t < fr.length) (hc : c < cols) :
    frameIdx cols (idsFrom 0 (B.map List.length)) (psum (B.map List.length)) ((splits B i + t) * cols + c) =
      some (splits B i + t, t) := by
  have hlt := (List.getElem?_eq_some_iff.1 hi).1
  have hd : ((splits B i + t) * cols + c) / cols = splits B i + t := by
    rw [Nat.add_comm, Nat.add_mul_div_right _ _ (by omega), Nat.div_eq_of_lt hc, Nat.zero_add]
  simp only [frameIdx, hd, Option.bind_eq_bind]
  rw [idsFrom_flat B i fr t hi ht, Option.bind_some, psum_splits B i (by omega), Option.bind_some]
  congr 2
  omega

example : frameIdx 3 [0, 0, 1, 1, 1] [0, 2, 5] 13 = some (4, 2) := by decide

end Verif.Fsa.Grad
