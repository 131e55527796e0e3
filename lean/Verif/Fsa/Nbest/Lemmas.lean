import Verif.Fsa.Nbest.Model
import Verif.Fsa.Random.Props
import Verif.Fsa.Ctc.LinearBatch
import Verif.Fsa.Prune.Lemmas
import Verif.Ragged.UniqueIndex

/-! # Lemmas on `Nbest.from_lattice` -/

namespace Verif.Fsa
variable {W : Type}

/-! ## Specification -/

/-- The arcs with the given numbers. -/
def arcsAt (A : List (Arc W)) (path : List Nat) : List (Arc W) := path.filterMap (fun i => A[i]?)

/-- The linear FSA with the labels and the scores of the given arcs, as the arcs of its states. -/
def lineFsa (p : List (Arc W)) : List (List (Arc W)) :=
  p.mapIdx (fun k a => [⟨k, k + 1, a.label, a.score⟩]) ++ [[]]

/-- The attribute holds the words of each arc. -/
def AuxIs : Nb.Aux → List (List Int) → Prop
  | .tensor vals, A => A = vals.map (fun x => [x])
  | .ragged splits vals, A => splits = Ragged.psum (A.map List.length) ∧ vals = A.flatten

/-- The words along a path; words that are not positive do not count. -/
def wordsOf (A : List (List Int)) (path : List Nat) : List Int :=
  (path.map (fun i => A.getD i [])).flatten.filter (fun x => decide (0 < x))

namespace Nb
open Verif.Ragged Verif.Util Verif.Fsa.Bat Verif.Fsa.Sco Verif.Fsa.Top Verif.Fsa.CtcB

/-! ## Auxiliary labels -/

theorem layer_psum (ns : List Nat) : layer (psum ns) = some (psum ns, idsFrom 0 ns) := by
  unfold layer
  simp only [psum_getLastD, rowSplitsToRowIds_psum, Option.bind_eq_bind, Option.bind_some]

theorem gather_getD {X : Type} (l : List X) (d : X) (idx : List Nat) (h : ∀ i ∈ idx, i < l.length) :
    idx.mapM (fun i => l[i]?) = some (idx.map (fun i => l.getD i d)) := by
  apply mapM_of_map
  rw [List.map_map]
  apply List.map_congr_left
  intro i hi
  rw [Function.comp_apply, List.getD_eq_getElem?_getD, List.getElem?_eq_getElem (h i hi)]; rfl

theorem index0_rows (A : List (List Int)) (idx : List Nat) (h : ∀ i ∈ idx, i < A.length) :
    ∃ elems, indexRagged [(psum (A.map List.length), idsFrom 0 (A.map List.length))] A.flatten 0 idx =
      some ([(psum ((idx.map (fun i => A.getD i [])).map List.length),
        idsFrom 0 ((idx.map (fun i => A.getD i [])).map List.length))], (idx.map (fun i => A.getD i [])).flatten, elems) := by
  obtain ⟨elems, e1, e2⟩ := index_axis0 (α := Int) 0 A (idx.map (fun n : Nat => (n : Int))) (by
    intro i hi
    obtain ⟨a, ha, rfl⟩ := List.mem_map.mp hi
    have := h a ha
    omega)
  have hp : pick (α := Int) A (idx.map (fun n : Nat => (n : Int))) = idx.map (fun i => A.getD i []) := by
    rw [pick, List.map_map]
    apply List.map_congr_left
    intro a _
    rw [Function.comp_apply, if_neg (by omega), Int.toNat_natCast, List.getD_eq_getElem?_getD]
  have hv := mapM_of_map e2
  have e3 : fullLayers 1 (pick (α := Int) A (idx.map (fun n : Nat => (n : Int)))) = _ :=
    fullLayers_succ 0 (α := Int) (pick (α := Int) A (idx.map (fun n : Nat => (n : Int))))
  rw [hp] at e3
  refine ⟨elems, ?_⟩
  unfold indexRagged indexAxis
  rw [if_neg (by simp), if_pos rfl]
  have e4 : indexAxis0 ([(psum (A.map List.length), idsFrom 0 (A.map List.length))].map Prod.fst)
      (idx.map (fun n : Nat => (n : Int))) = _ := e1
  have hv' : elems.mapM (fun e => A.flatten[e]?) = _ := hv
  simp only [e4, hv', Option.bind_eq_bind, Option.bind_some]
  have e5 : fullLayers (0 + 1) (pick (α := Nest Int 0) A (idx.map (fun n : Nat => (n : Int)))) =
      [(psum ((idx.map (fun i => A.getD i [])).map List.length),
        idsFrom 0 ((idx.map (fun i => A.getD i [])).map List.length))] := by
    refine Eq.trans ?_ e3
    show fullLayers 1 (pick (α := Int) A (idx.map (fun n : Nat => (n : Int))) : List (Nest Int 1)) = _
    rw [hp]
  have e6 : valuesOf (0 + 1) (pick (α := Nest Int 0) A (idx.map (fun n : Nat => (n : Int)))) =
      (idx.map (fun i => A.getD i [])).flatten := by
    show (pick (α := Int) A (idx.map (fun n : Nat => (n : Int)))).flatten = _
    rw [hp]
  rw [e5, e6]

theorem removeAxis_two (x : List Nat × List Nat) (V : List (List (List Int))) :
    removeAxis [x, (psum (V.map List.length), idsFrom 0 (V.map List.length)),
      (psum (V.flatten.map List.length), idsFrom 0 (V.flatten.map List.length))] 2 =
      some [x, (psum ((V.map List.flatten).map List.length), idsFrom 0 ((V.map List.flatten).map List.length))] := by
  have g5 := gather_ids V [] 0
  rw [List.nil_append, List.length_nil] at g5
  have f5 : (V.map List.flatten).map List.length = V.map (fun l => l.flatten.length) := by
    rw [List.map_map]; rfl
  unfold removeAxis
  rw [if_neg (by simp), if_neg (by omega), if_pos (by simp)]
  simp only [List.getElem?_cons_succ, List.getElem?_cons_zero, Nat.add_sub_cancel, Nat.reduceSub]
  simp only [gather_splits, g5, Option.bind_eq_bind, Option.bind_some, f5]
  rfl

theorem auxIs_length {aux : Aux} {A : List (List Int)} (h : AuxIs aux A) : aux.dim = A.length := by
  cases aux with
  | tensor vals => simp only [AuxIs] at h; subst h; simp [Aux.dim]
  | ragged sp vals => simp only [AuxIs] at h; obtain ⟨rfl, rfl⟩ := h; simp [Aux.dim]

theorem auxIndex_eq {aux : Aux} {A : List (List Int)} (h : AuxIs aux A) (idx : List Nat) (hi : ∀ i ∈ idx, i < A.length) :
    ∃ aux', auxIndex aux idx = some aux' ∧ AuxIs aux' (idx.map (fun i => A.getD i [])) := by
  cases aux with
  | tensor vals =>
    simp only [AuxIs] at h
    subst h
    have hi' : ∀ i ∈ idx, i < vals.length := by simpa using hi
    refine ⟨.tensor (idx.map (fun i => vals.getD i 0)), ?_, ?_⟩
    · unfold auxIndex
      simp only [gather_getD vals 0 idx hi', Option.bind_eq_bind, Option.bind_some]
    · simp only [AuxIs]
      rw [List.map_map]
      apply List.map_congr_left
      intro i hm
      have := hi' i hm
      simp only [Function.comp_apply, List.getD_eq_getElem?_getD, List.getElem?_map, List.getElem?_eq_getElem this,
        Option.map_some, Option.getD_some]
  | ragged sp vals =>
    simp only [AuxIs] at h
    obtain ⟨rfl, rfl⟩ := h
    obtain ⟨elems, he⟩ := index0_rows A idx hi
    refine ⟨.ragged _ _, ?_, rfl, rfl⟩
    unfold auxIndex
    simp only [layer_psum, he, Option.bind_eq_bind, Option.bind_some]

theorem wordSeq_eq {aux : Aux} {A : List (List Int)} (h : AuxIs aux A) (x : List Nat × List Nat) (Y : List (List Nat))
    (hi : ∀ i ∈ Y.flatten, i < A.length) :
    wordSeq aux [x, (psum (Y.map List.length), idsFrom 0 (Y.map List.length))] Y.flatten =
      some ([x] ++ [(psum ((Y.map (fun path => (path.map (fun i => A.getD i [])).flatten)).map List.length),
        idsFrom 0 ((Y.map (fun path => (path.map (fun i => A.getD i [])).flatten)).map List.length))],
        (Y.map (fun path => (path.map (fun i => A.getD i [])).flatten)).flatten) := by
  cases aux with
  | tensor vals =>
    simp only [AuxIs] at h
    subst h
    have hi' : ∀ i ∈ Y.flatten, i < vals.length := by simpa using hi
    have hrow : Y.map (fun path => (path.map (fun i => (vals.map (fun x => [x])).getD i [])).flatten) =
        Y.map (fun path => path.map (fun i => vals.getD i 0)) := by
      apply List.map_congr_left
      intro path hp
      rw [← List.flatMap_def, List.map_eq_flatMap (f := fun i => vals.getD i 0)]
      apply List.flatMap_congr
      intro i hm
      have := hi' i (List.mem_flatten.mpr ⟨path, hp, hm⟩)
      simp only [List.getD_eq_getElem?_getD, List.getElem?_map, List.getElem?_eq_getElem this,
        Option.map_some, Option.getD_some]
    have hlen : (Y.map (fun path => path.map (fun i => vals.getD i 0))).map List.length = Y.map List.length := by
      rw [List.map_map]; apply List.map_congr_left; intro p _; simp
    unfold wordSeq
    rw [hrow, hlen]
    simp only [gather_getD vals 0 _ hi', Option.bind_eq_bind, Option.bind_some]
    rw [List.map_flatten]
    rfl
  | ragged sp vals =>
    simp only [AuxIs] at h
    obtain ⟨rfl, rfl⟩ := h
    obtain ⟨elems, he⟩ := index0_rows A Y.flatten hi
    have hr := removeAxis_two x (Y.map (fun path => path.map (fun i => A.getD i [])))
    have h1 : (Y.map (fun path => path.map (fun i => A.getD i []))).map List.length = Y.map List.length := by
      rw [List.map_map]; apply List.map_congr_left; intro p _; simp
    have h2 : (Y.map (fun path => path.map (fun i => A.getD i []))).flatten = Y.flatten.map (fun i => A.getD i []) := by
      rw [List.map_flatten]
    have h3 : (Y.map (fun path => path.map (fun i => A.getD i []))).map List.flatten =
        Y.map (fun path => (path.map (fun i => A.getD i [])).flatten) := by rw [List.map_map]; rfl
    rw [h1, h2, h3] at hr
    unfold wordSeq
    simp only [layer_psum, he, Option.bind_eq_bind, Option.bind_some, List.cons_append, List.nil_append,
      List.length_cons, List.length_nil, Nat.zero_add, Nat.reduceAdd, Nat.reduceSub, hr]
    congr 2
    rw [← h2, List.flatten_flatten, h3]

/-! ## The linear FSAs -/

/-- The labels of a path that -1 ends. -/
def Ends (p : List (Arc W)) : Prop := ∃ p0 a, p = p0 ++ [a] ∧ a.label = -1 ∧ ∀ b ∈ p0, b.label ≠ -1

/-- The linear FSA without scores. -/
def line0 [Zero W] (p : List (Arc W)) : List (List (Arc W)) := p.mapIdx (fun k a => [⟨k, k + 1, a.label, 0⟩]) ++ [[]]

theorem linearRows_line [Zero W] (p : List (Arc W)) (h : Ends p) :
    linearRows (W := W) ((p.map (fun a => a.label)).filter (fun x => x != -1)) = line0 p := by
  obtain ⟨p0, a, rfl, ha, hb⟩ := h
  have hf : ((p0 ++ [a]).map (fun a => a.label)).filter (fun x => x != -1) = p0.map (fun a => a.label) := by
    rw [List.map_append, List.filter_append, List.filter_eq_self.mpr, List.map_singleton, ha]
    · simp
    · intro x hx
      obtain ⟨b, hb', rfl⟩ := List.mem_map.mp hx
      simpa using hb b hb'
  rw [hf, linearRows, line0]
  congr 1
  apply List.ext_getElem?
  intro k
  rw [List.getElem?_map, List.getElem?_mapIdx, List.length_map]
  by_cases hk : k < p0.length + 1
  · rw [List.getElem?_range hk]
    rcases Nat.lt_or_ge k p0.length with h1 | h1
    · rw [List.getElem?_append_left h1, List.getElem?_eq_getElem h1]
      simp [linearArc, h1]
    · obtain rfl : k = p0.length := by omega
      rw [List.getElem?_append_right (le_refl _), Nat.sub_self]
      simp [linearArc, ha]
  · rw [List.getElem?_eq_none (by simp; omega), List.getElem?_eq_none (by simp; omega)]
    rfl

theorem line0_flatten [Zero W] (p : List (Arc W)) :
    (line0 p).flatten = p.mapIdx (fun k a => ⟨k, k + 1, a.label, 0⟩) := by
  rw [line0, List.flatten_append]
  simp only [List.flatten_cons, List.flatten_nil, List.append_nil]
  rw [show p.mapIdx (fun k a => [(⟨k, k + 1, a.label, 0⟩ : Arc W)]) =
    (p.mapIdx (fun k a => (⟨k, k + 1, a.label, 0⟩ : Arc W))).map (fun x => [x]) by
      apply List.ext_getElem?; intro k; simp [List.getElem?_mapIdx, Function.comp_def], ← List.flatMap_def]
  exact (List.flatMap_singleton' _)

theorem lineFsa_flatten (p : List (Arc W)) :
    (lineFsa p).flatten = p.mapIdx (fun k a => ⟨k, k + 1, a.label, a.score⟩) := by
  rw [lineFsa, List.flatten_append]
  simp only [List.flatten_cons, List.flatten_nil, List.append_nil]
  rw [show p.mapIdx (fun k a => [(⟨k, k + 1, a.label, a.score⟩ : Arc W)]) =
    (p.mapIdx (fun k a => (⟨k, k + 1, a.label, a.score⟩ : Arc W))).map (fun x => [x]) by
      apply List.ext_getElem?; intro k; simp [List.getElem?_mapIdx, Function.comp_def], ← List.flatMap_def]
  exact (List.flatMap_singleton' _)

theorem line_lengths [Zero W] (p : List (Arc W)) :
    (lineFsa p).map List.length = (line0 p).map List.length := by
  rw [lineFsa, line0, List.map_append, List.map_append]
  congr 1
  apply List.ext_getElem?
  intro k
  simp [List.getElem?_mapIdx, Function.comp_def]

/-- The scores of the arcs are put back. -/
theorem setScores_lines [Zero W] (Ps : List (List (Arc W))) :
    setScores (flat (Ps.map line0)) (Ps.flatten.map (fun a => a.score)) = some (flat (Ps.map lineFsa)) := by
  have hz : ∀ Ps : List (List (Arc W)),
      (Ps.map line0).flatten.flatten.length = Ps.flatten.length ∧
      List.zipWith (fun (a : Arc W) s => { a with score := s }) (Ps.map line0).flatten.flatten
        (Ps.flatten.map (fun a => a.score)) = (Ps.map lineFsa).flatten.flatten := by
    intro Ps
    induction Ps with
    | nil => exact ⟨rfl, rfl⟩
    | cons p Ps ih =>
      have hl : (line0 p).flatten.length = p.length := by rw [line0_flatten, List.length_mapIdx]
      simp only [List.map_cons, List.flatten_cons, List.flatten_append, List.map_append]
      refine ⟨by rw [List.length_append, List.length_append, ih.1, hl], ?_⟩
      rw [List.zipWith_append (by rw [hl, List.length_map]), ih.2]
      congr 1
      rw [line0_flatten, lineFsa_flatten]
      apply List.ext_getElem?
      intro k
      rw [List.getElem?_zipWith, List.getElem?_mapIdx, List.getElem?_mapIdx, List.getElem?_map]
      cases p[k]? <;> rfl
  have h1 : (Ps.map line0).map List.length = (Ps.map lineFsa).map List.length := by
    rw [List.map_map, List.map_map]
    apply List.map_congr_left
    intro p _
    have := congrArg List.length (line_lengths p)
    simpa using this.symm
  have h2 : (Ps.map line0).flatten.map List.length = (Ps.map lineFsa).flatten.map List.length := by
    rw [List.map_flatten, List.map_flatten, List.map_map, List.map_map]
    congr 1
    apply List.map_congr_left
    intro p _
    exact (line_lengths p).symm
  unfold setScores
  rw [if_pos (by rw [List.length_map]; exact (hz Ps).1.symm)]
  unfold flat
  simp only [h1, h2, (hz Ps).2]

/-! ## Paths -/

theorem arcsAt_of {A : List (Arc W)} {path : List Nat} {p : List (Arc W)} (h : path.map (fun i => A[i]?) = p.map some) :
    arcsAt A path = p := by
  have : path.filterMap (fun i => A[i]?) = (path.map (fun i => A[i]?)).filterMap id := by
    rw [List.filterMap_map]; rfl
  rw [arcsAt, this, h, List.filterMap_map]
  simp

theorem chain_last (p : List (Arc W)) (s t : Nat) (hfw : ∀ a ∈ p, a.src < a.dst) (hp : p ≠ []) (h : Chain s p t) :
    ∃ p0 a, p = p0 ++ [a] ∧ a.dst = t ∧ ∀ b ∈ p0, b.dst < t := by
  induction p generalizing s with
  | nil => exact absurd rfl hp
  | cons a p ih =>
    cases p with
    | nil => exact ⟨[], a, rfl, h.2, by simp⟩
    | cons b p =>
      obtain ⟨p0, c, e, h1, h2⟩ := ih a.dst (fun x hx => hfw x (List.mem_cons_of_mem _ hx)) (by simp) h.2
      refine ⟨a :: p0, c, by rw [e]; rfl, h1, ?_⟩
      intro x hx
      rcases List.mem_cons.mp hx with rfl | hx
      · have h3 : b.src = x.dst := h.2.1
        have h4 := hfw b (by simp)
        rcases p0 with _ | ⟨d, p0⟩
        · simp only [List.nil_append, List.cons.injEq] at e
          obtain ⟨rfl, _⟩ := e
          omega
        · simp only [List.cons_append, List.cons.injEq] at e
          obtain ⟨rfl, _⟩ := e
          have := h2 b (by simp)
          omega
      · exact h2 x hx

theorem arc_at (T : List (List (List (Arc W)))) (r k : Nat) (f : List (List (Arc W))) (hf : T[r]? = some f)
    (hk : k < f.flatten.length) : (flat T).arcs[base T r + k]? = f.flatten[k]? := by
  have := row_at (T.map List.flatten) r k f.flatten (by rw [List.getElem?_map, hf]; rfl) hk
  rw [← List.flatten_flatten, List.map_map] at this
  exact this

/-- Every sampled path ends with -1. -/
theorem path_ends (T : List (List (List (Arc W)))) (r : Nat) (f : List (List (Arc W))) (hf : T[r]? = some f)
    (hfw : ∀ a ∈ f.flatten, a.src < a.dst) (hone : f.length ≠ 1)
    (hlab : ∀ a ∈ f.flatten, a.label = -1 ↔ a.dst + 1 = f.length) (is : List Nat) (h : IAccepting (rowsFsa f) is) :
    ∃ p, (is.map (base T r + ·)).map (fun i => (flat T).arcs[i]?) = p.map some ∧ Ends p := by
  obtain ⟨h0, p, hc, hp⟩ := h
  have hpos : 0 < f.length := h0
  have hfin : (rowsFsa f).final = f.length - 1 := rfl
  rw [hfin] at hc
  have harcs : (rowsFsa f).arcs = f.flatten := rfl
  rw [harcs] at hp
  have hmem : ∀ a ∈ p, a ∈ f.flatten := by
    intro a ha
    have : some a ∈ is.map (fun i => f.flatten[i]?) := by rw [hp]; exact List.mem_map.mpr ⟨a, ha, rfl⟩
    obtain ⟨i, _, hi⟩ := List.mem_map.mp this
    exact List.mem_of_getElem? hi
  have hne : p ≠ [] := by
    rintro rfl
    have : 0 = f.length - 1 := hc
    omega
  refine ⟨p, ?_, ?_⟩
  · rw [← hp, List.map_map]
    apply List.map_congr_left
    intro i hi
    exact arc_at T r i f hf (Pap.ipath_lt f.flatten is 0 _ ⟨p, hc, hp⟩ i hi)
  · obtain ⟨p0, a, rfl, h1, h2⟩ := chain_last p 0 _ (fun a ha => hfw a (hmem a ha)) hne hc
    refine ⟨p0, a, rfl, (hlab a (hmem a (by simp))).mpr (by omega), ?_⟩
    intro b hb h3
    have h4 := h2 b hb
    have := (hlab b (hmem b (by simp [hb]))).mp h3
    omega

/-! ## The second half of `from_lattice` -/

theorem mapM_arcs {X : Type} (A : List (Arc W)) (g : Arc W → X) (Y : List (List Nat)) (Ps : List (List (Arc W)))
    (h : Y.map (fun path => path.map (fun i => A[i]?)) = Ps.map (List.map some)) :
    Y.flatten.mapM (fun i => (A[i]?).map g) = some ((Ps.map (List.map g)).flatten) := by
  apply mapM_of_map
  have h1 := congrArg (List.map (List.map (Option.map g))) h
  have h2 := congrArg List.flatten h1
  rw [List.map_map, List.map_map] at h2
  rw [List.map_flatten, List.map_flatten, List.map_map]
  refine Eq.trans ?_ (h2.trans ?_)
  · congr 1
    apply List.map_congr_left
    intro path _
    simp only [Function.comp_apply, List.map_map]
    rfl
  · congr 1
    apply List.map_congr_left
    intro p _
    simp only [Function.comp_apply, List.map_map]
    rfl

theorem nbestOf_eq [Zero W] (v : FsaVec W) {aux : Aux} {A : List (List Int)} (haux : AuxIs aux A)
    (hA : A.length = v.arcs.length) (Q : List (List (List Nat)))
    (hQ : ∀ path ∈ Q.flatten, ∃ p, path.map (fun i => v.arcs[i]?) = p.map some ∧ Ends p) :
    ∃ aux', AuxIs aux' (Q.flatten.flatten.map (fun i => A.getD i [])) ∧
      nbestOf v aux (fullLayers 2 (Q : List (Nest Nat 2))) Q.flatten.flatten =
        some ⟨flat (Q.flatten.map (fun path => lineFsa (arcsAt v.arcs path))), aux',
          (psum (Q.map List.length), idsFrom 0 (Q.map List.length)),
          [(psum (Q.flatten.map List.length), idsFrom 0 (Q.flatten.map List.length))], Q.flatten.flatten⟩ := by
  obtain ⟨Ps, hPs, hends⟩ : ∃ Ps : List (List (Arc W)),
      Q.flatten.map (fun path => path.map (fun i => v.arcs[i]?)) = Ps.map (List.map some) ∧
      (∀ p ∈ Ps, Ends p) := by
    refine ⟨Q.flatten.map (fun path => arcsAt v.arcs path), ?_, ?_⟩
    · rw [List.map_map]
      apply List.map_congr_left
      intro path hp
      obtain ⟨p, h1, _⟩ := hQ path hp
      rw [Function.comp_apply, arcsAt_of h1, h1]
    · intro p hp
      obtain ⟨path, hpath, rfl⟩ := List.mem_map.mp hp
      obtain ⟨p, h1, h2⟩ := hQ path hpath
      rw [arcsAt_of h1]; exact h2
  have hPs' : Q.flatten.map (fun path => arcsAt v.arcs path) = Ps := by
    have h1 := congrArg (List.map (List.filterMap id)) hPs
    rw [List.map_map, List.map_map] at h1
    refine Eq.trans ?_ (h1.trans ?_)
    · apply List.map_congr_left
      intro path _
      simp only [Function.comp_apply, List.filterMap_map, arcsAt]
      rfl
    · conv_rhs => rw [← List.map_id Ps]
      apply List.map_congr_left
      intro p _
      simp only [Function.comp_apply, List.filterMap_map, id]
      simp
  have hlens : Q.flatten.map List.length = Ps.map List.length := by
    have h1 := congrArg (List.map List.length) hPs
    rw [List.map_map, List.map_map] at h1
    simpa [Function.comp_def] using h1
  have hidx : ∀ i ∈ Q.flatten.flatten, i < A.length := by
    intro i hi
    obtain ⟨path, hp, hm⟩ := List.mem_flatten.mp hi
    obtain ⟨p, h1, _⟩ := hQ path hp
    have : v.arcs[i]? ∈ p.map some := by rw [← h1]; exact List.mem_map.mpr ⟨i, hm, rfl⟩
    obtain ⟨a, _, ha⟩ := List.mem_map.mp this
    rw [hA]
    exact (List.getElem?_eq_some_iff.mp ha.symm).1
  obtain ⟨aux', ha1, ha2⟩ := auxIndex_eq haux Q.flatten.flatten hidx
  refine ⟨aux', ha2, ?_⟩
  have f1 : fullLayers 2 (Q : List (Nest Nat 2)) = _ := fullLayers_succ 1 (α := Nat) Q
  have f2 : fullLayers 1 (Q.flatten : List (Nest Nat 1)) = _ := fullLayers_succ 0 (α := Nat) Q.flatten
  have f2' : fullLayers 1 (Q.flatten : List (Nest Nat 1)) =
      [(psum (Q.flatten.map List.length), idsFrom 0 (Q.flatten.map List.length))] := f2
  have hr : removeAxis (fullLayers 2 (Q : List (Nest Nat 2))) 0 = _ := removeAxis_zero (α := Nat) 0 Q
  have hr' : removeAxis (fullLayers 2 (Q : List (Nest Nat 2))) 0 =
      some [(psum (Q.flatten.map List.length), idsFrom 0 (Q.flatten.map List.length))] := hr.trans (congrArg some f2')
  have hlab := mapM_arcs v.arcs (fun a => a.label) Q.flatten Ps hPs
  have hsc := mapM_arcs v.arcs (fun a => a.score) Q.flatten Ps hPs
  have hrm := removeValuesEq_rows [] (Ps.map (List.map (fun a => a.label))) (-1)
  have hl2 : (Ps.map (List.map (fun a : Arc W => a.label))).map List.length = Q.flatten.map List.length := by
    rw [hlens, List.map_map]; apply List.map_congr_left; intro p _; simp
  rw [hl2] at hrm
  simp only [List.nil_append] at hrm
  have hline : ((Ps.map (List.map (fun a : Arc W => a.label))).map (List.filter (fun x => x != -1))).map
      (linearRows (W := W)) = Ps.map line0 := by
    rw [List.map_map, List.map_map]
    apply List.map_congr_left
    intro p hp
    exact linearRows_line p (hends p hp)
  have hlin := linearBatch_eq (W := W) ((Ps.map (List.map (fun a : Arc W => a.label))).map (List.filter (fun x => x != -1)))
  rw [linAll, hline] at hlin
  have hss := setScores_lines Ps
  have hdim : aux'.dim = (flat (Ps.map line0)).arcs.length := by
    rw [auxIs_length ha2, List.length_map]
    have h1 : (Ps.flatten.map (fun a => a.score)).length = (flat (Ps.map line0)).arcs.length := by
      by_contra hne
      unfold setScores at hss
      rw [if_neg hne] at hss
      cases hss
    rw [← h1, List.length_map, List.length_flatten, List.length_flatten, hlens]
  unfold nbestOf
  simp only [hr', Option.bind_eq_bind, Option.bind_some, hlab, hrm, ha1, hlin]
  have f3 : (fullLayers 2 (Q : List (Nest Nat 2)))[0]? = some (psum (Q.map List.length), idsFrom 0 (Q.map List.length)) := by
    rw [f1]; rfl
  rw [f3]
  simp only [Option.bind_some]
  rw [if_pos hdim, hsc]
  rw [show (Ps.map (List.map (fun a : Arc W => a.score))).flatten = Ps.flatten.map (fun a => a.score) by
    rw [List.map_flatten]]
  simp only [Option.bind_some, hss]
  unfold mkNbest
  rw [if_pos, ← hPs', List.map_map]
  · rfl
  · unfold totSize
    have : ((flat (Ps.map lineFsa)).sp1).length = Ps.length + 1 := by
      show (psum _).length = _
      rw [psum_length, List.length_map, List.length_map]
    rw [if_neg (by omega), this]
    simp only [Nat.sub_self, List.getElem?_cons_zero, Option.map_some, psum_getLastD, Nat.add_sub_cancel]
    rw [← hPs', List.length_map, List.length_flatten]

end Nb
end Verif.Fsa
