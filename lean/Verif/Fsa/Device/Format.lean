import Verif.Fsa.Device.Order

/-!
# `FormatOutput`
-/

namespace Verif.Fsa.Idv
open Verif.Ragged Verif.Util Verif.Fsa.Dn Verif.Fsa.Top
variable {W : Type}

/-- What is known about the states and arcs before they are reordered. -/
structure Whole (Ta Tb : List (List (List (Arc W)))) (p : Args W) (s : St) (B : List (List (Nat × Nat))) : Prop where
  states : s.states = B.flatten
  iters : s.iters = psum (B.map List.length)
  here : ∀ st ∈ s.states, ∃ i j u v f g, Here Ta Tb p i j u v f g st
  bySeq : ∀ l ∈ B, l.Pairwise (fun x y => fsaOf Tb x ≤ fsaOf Tb y)
  arcsNodup : s.arcs.Nodup
  arcsSorted : s.arcs.Pairwise (fun c d => c.si ≤ d.si)
  arcs : ∀ c ∈ s.arcs, ∃ x y st d, s.states[c.si]? = some st ∧ Leads Ta Tb p c x y st d ∧ x.label = y.label ∧
    (x.label ≠ -1 → ∃ o : Nat, s.hash.lookup (pkey Ta Tb p d) = some o ∧ s.states[o]? = some d)

/-- The FSA of a state. -/
def fk (Tb : List (List (List (Arc W)))) (s : St) (q : Nat) : Nat := fsaOf Tb (s.states.getD q (0, 0))
/-- The iteration of a state. -/
def itOf (B : List (List (Nat × Nat))) (q : Nat) : Nat := (idsFrom 0 (B.map List.length)).getD q 0
/-- The state that an arc leaves. -/
def siOf (s : St) (k : Nat) : Nat := (s.arcs.getD k ⟨0, 0, 0⟩).si
/-- The arcs that leave a state. -/
def arow (s : St) (q : Nat) : List Nat := (List.range s.arcs.length).filter (fun k => siOf s k == q)
/-- The states of an FSA. -/
def gr (Tb : List (List (List (Arc W)))) (s : St) (f : Nat) : List Nat := grp (fk Tb s) s.states.length f

section
variable {Ta Tb : List (List (List (Arc W)))} {p : Args W} {s : St} {B : List (List (Nat × Nat))}

theorem fk_get {q : Nat} {st : Nat × Nat} (h : s.states[q]? = some st) : fk Tb s q = fsaOf Tb st := by
  rw [fk, List.getD_eq_getElem?_getD, h]; rfl

theorem Whole.nums (h : Whole Ta Tb p s B) : Nums (itOf B) (fk Tb s) s.states.length B.length Tb.length := by
  have hlen : (idsFrom 0 (B.map List.length)).length = s.states.length := by
    rw [idsFrom_length, h.states, List.length_flatten]
  have hit : ∀ q, q < s.states.length → (idsFrom 0 (B.map List.length))[q]? = some (itOf B q) := by
    intro q hq
    rw [itOf, List.getD_eq_getElem?_getD, List.getElem?_eq_getElem (by omega)]; rfl
  have hlt : ∀ q, q < s.states.length → fk Tb s q < Tb.length := by
    intro q hq
    obtain ⟨st, hst⟩ : ∃ st, s.states[q]? = some st := ⟨_, List.getElem?_eq_getElem hq⟩
    obtain ⟨i, j, u, v, f, g, hh⟩ := h.here st (List.mem_of_getElem? hst)
    rw [fk_get hst, hh.fsa]
    exact (List.getElem?_eq_some_iff.mp hh.fb).1
  have hle : ∀ q r, q < r → r < s.states.length → itOf B q ≤ itOf B r := by
    intro q r h1 h2
    have hp := idsFrom_pairwise 0 (B.map List.length)
    rw [List.pairwise_iff_getElem] at hp
    have := hp q r (by omega) (by omega) h1
    have e1 := hit q (by omega)
    have e2 := hit r h2
    rw [List.getElem?_eq_getElem (by omega)] at e1 e2
    rwa [Option.some.inj e1, Option.some.inj e2] at this
  refine ⟨?_, ?_, hlt, ?_⟩
  · rw [List.pairwise_iff_getElem]
    intro q r hq0 hr0 hqr
    have hq : q < s.states.length := by simpa using hq0
    have hr : r < s.states.length := by simpa using hr0
    rw [List.getElem_range, List.getElem_range]
    exact hle q r hqr hr
  · intro q hq
    have := idsFrom_mem 0 _ _ (List.mem_of_getElem? (hit q hq))
    simpa using this.2
  · rw [List.pairwise_iff_getElem]
    intro q r hq0 hr0 hqr
    have hq : q < s.states.length := by simpa using hq0
    have hr : r < s.states.length := by simpa using hr0
    rw [List.getElem_range, List.getElem_range]
    have h1 := hle q r hqr hr
    rcases Nat.lt_or_ge (itOf B q) (itOf B r) with h2 | h2
    · have h3 := hlt q hq
      have : (itOf B q + 1) * Tb.length ≤ itOf B r * Tb.length := Nat.mul_le_mul_right _ h2
      rw [Nat.add_mul] at this
      omega
    · have he : itOf B q = itOf B r := by omega
      rw [he]
      apply Nat.add_le_add_left
      obtain ⟨g, row, k, a1, a2, a3⟩ := flatten_pos B q (by rw [← h.states]; exact hq)
      obtain ⟨g', row', k', b1, b2, b3⟩ := flatten_pos B r (by rw [← h.states]; exact hr)
      have i1 : itOf B q = g := by
        have := ids_at (B.map List.length) g row.length k (by rw [List.getElem?_map, a1]; rfl) a2
        rw [← splits_eq_take, ← a3, hit q hq] at this
        exact Option.some.inj this
      have i2 : itOf B r = g' := by
        have := ids_at (B.map List.length) g' row'.length k' (by rw [List.getElem?_map, b1]; rfl) b2
        rw [← splits_eq_take, ← b3, hit r hr] at this
        exact Option.some.inj this
      have hg : g = g' := by omega
      subst hg
      rw [a1] at b1
      obtain rfl := Option.some.inj b1
      have f1 : s.states[q]? = some row[k] := by
        rw [h.states, a3, flatten_get B g row a1 k a2, List.getElem?_eq_getElem a2]
      have f2 : s.states[r]? = some row[k'] := by
        rw [h.states, b3, flatten_get B g row a1 k' b2, List.getElem?_eq_getElem b2]
      rw [fk_get f1, fk_get f2]
      exact List.pairwise_iff_getElem.mp (h.bySeq row (List.mem_of_getElem? a1)) k k' a2 b2 (by omega)

theorem siOf_get {k : Nat} {c : Cand} (h : s.arcs[k]? = some c) : siOf s k = c.si := by
  rw [siOf, List.getD_eq_getElem?_getD, h]; rfl

theorem Whole.si_lt (h : Whole Ta Tb p s B) {c : Cand} (hc : c ∈ s.arcs) : c.si < s.states.length := by
  obtain ⟨x, y, st, d, h1, -⟩ := h.arcs c hc
  exact (List.getElem?_eq_some_iff.mp h1).1

theorem Whole.si_sorted (h : Whole Ta Tb p s B) :
    (List.range s.arcs.length).Pairwise (fun k l => siOf s k ≤ siOf s l) := by
  rw [List.pairwise_iff_getElem]
  intro k l hk0 hl0 hkl
  have hk : k < s.arcs.length := by simpa using hk0
  have hl : l < s.arcs.length := by simpa using hl0
  rw [List.getElem_range, List.getElem_range]
  rw [siOf_get (List.getElem?_eq_getElem hk), siOf_get (List.getElem?_eq_getElem hl)]
  exact List.pairwise_iff_getElem.mp h.arcsSorted k l hk hl hkl

theorem Whole.si_lt' (h : Whole Ta Tb p s B) : ∀ k ∈ List.range s.arcs.length, siOf s k < s.states.length := by
  intro k hk
  rw [List.mem_range] at hk
  rw [siOf_get (List.getElem?_eq_getElem hk)]
  exact h.si_lt (List.getElem_mem hk)

theorem mem_arow {s : St} {k q : Nat} : k ∈ arow s q ↔ ∃ c, s.arcs[k]? = some c ∧ c.si = q := by
  rw [arow, List.mem_filter, List.mem_range, beq_iff_eq]
  constructor
  · rintro ⟨h1, h2⟩
    exact ⟨_, List.getElem?_eq_getElem h1, by rw [← h2, siOf_get (List.getElem?_eq_getElem h1)]⟩
  · rintro ⟨c, h1, h2⟩
    exact ⟨(List.getElem?_eq_some_iff.mp h1).1, by rw [siOf_get h1, h2]⟩

theorem siMap (s : St) : s.arcs.map Cand.si = (List.range s.arcs.length).map (siOf s) := by
  apply List.ext_getElem?
  intro k
  rw [List.getElem?_map, List.getElem?_map]
  rcases Nat.lt_or_ge k s.arcs.length with h | h
  · rw [List.getElem?_range h, List.getElem?_eq_getElem h, Option.map_some, Option.map_some,
      siOf_get (List.getElem?_eq_getElem h)]
  · rw [List.getElem?_eq_none h, List.getElem?_eq_none (by simpa using h)]
    rfl

theorem Whole.splits3 (h : Whole Ta Tb p s B) :
    rowIdsToRowSplits (s.arcs.map Cand.si) s.states.length =
      some (psum ((rowsBy (siOf s) s.states.length (List.range s.arcs.length)).map List.length)) := by
  rw [siMap, rowsBy_ids _ s.states.length _ h.si_sorted h.si_lt']
  have := rowIdsToRowSplits_idsFrom ((rowsBy (siOf s) s.states.length (List.range s.arcs.length)).map List.length)
  rwa [List.length_map, show (rowsBy (siOf s) s.states.length (List.range s.arcs.length)).length = s.states.length by
    simp [rowsBy]] at this

theorem Whole.index3 (h : Whole Ta Tb p s B) (l : List Nat) (hl : ∀ q ∈ l, q < s.states.length) :
    indexAxis0 [psum ((rowsBy (siOf s) s.states.length (List.range s.arcs.length)).map List.length)]
        (l.map (fun i : Nat => (i : Int))) =
      some ([(psum ((l.map (arow s)).map List.length), idsFrom 0 ((l.map (arow s)).map List.length))],
        (l.map (arow s)).flatten) := by
  have hfl := rowsBy_flatten (siOf s) s.states.length (List.range s.arcs.length) h.si_sorted h.si_lt'
  have hp : pick (rowsBy (siOf s) s.states.length (List.range s.arcs.length)) (l.map (fun i : Nat => (i : Int))) =
      l.map (arow s) := by
    unfold pick
    rw [List.map_map]
    apply List.map_congr_left
    intro q hq
    simp only [Function.comp_apply]
    rw [if_neg (by omega), Int.toNat_natCast, rowsBy, List.getElem?_map, List.getElem?_range (hl q hq)]
    rfl
  rw [index_one _ _ (by
    intro i hi
    obtain ⟨q, hq, rfl⟩ := List.mem_map.mp hi
    have := hl q hq
    simp only [rowsBy, List.length_map, List.length_range]
    omega) (by rw [hfl, List.length_range]), hp]

theorem Whole.count3 (h : Whole Ta Tb p s B) (l : List Nat) (hl : l.Perm (List.range s.states.length)) :
    (l.map (arow s)).flatten.length = s.arcs.length := by
  have hfl := rowsBy_flatten (siOf s) s.states.length (List.range s.arcs.length) h.si_sorted h.si_lt'
  have h1 : ((l.map (arow s)).flatten).Perm (((List.range s.states.length).map (arow s)).flatten) :=
    (hl.map _).flatten
  rw [h1.length_eq]
  have h2 : (List.range s.states.length).map (arow s) = rowsBy (siOf s) s.states.length (List.range s.arcs.length) := rfl
  rw [h2, hfl, List.length_range]

theorem ids2_eq (hc : Ctx Ta Tb p) (h : Whole Ta Tb p s B) :
    (s.states.zip (idsFrom 0 (B.map List.length))).mapM
        (fun x => (p.b.id1[x.1.2]?).map (fun f => x.2 * p.fsas + f)) =
      some ((List.range s.states.length).map (fun q => itOf B q * Tb.length + fk Tb s q)) := by
  have hlen : (idsFrom 0 (B.map List.length)).length = s.states.length := by
    rw [idsFrom_length, h.states, List.length_flatten]
  have hf : p.fsas = Tb.length := by
    rw [Args.fsas, hc.b, flat_sp1_length, Nat.add_sub_cancel]
  apply mapM_some_of
  · simp [hlen]
  · rintro q ⟨st, t⟩ hq
    rw [List.getElem?_zip_eq_some] at hq
    obtain ⟨h1, h2⟩ := hq
    have hlt := (List.getElem?_eq_some_iff.mp h1).1
    obtain ⟨i, j, u, v, f, g, hh⟩ := h.here st (List.mem_of_getElem? h1)
    have e1 : (flat Tb).id1[st.2]? = some i := by
      rw [hh.eq]
      exact flat_id1 Tb i v g hh.fb hh.hv
    have e2 : itOf B q = t := by
      rw [itOf, List.getD_eq_getElem?_getD, h2]; rfl
    simp only
    rw [List.getElem?_map, List.getElem?_range hlt, hc.b, e1, hf, Option.map_some, Option.map_some, e2, fk_get h1,
      hh.fsa]

end

/-! ## The arcs of the output -/

section
variable [AddCommMonoid W]

/-- Arc `k` in the output, with the numbers of the arcs that it is made from. -/
def val (Tb : List (List (List (Arc W)))) (p : Args W) (s : St) (k : Nat) : Arc W × Nat × Nat :=
  let c := s.arcs.getD k ⟨0, 0, 0⟩
  let x := p.a.arcs.getD c.ia ⟨0, 0, 0, 0⟩
  let y := p.b.arcs.getD c.ib ⟨0, 0, 0, 0⟩
  let f := fk Tb s c.si
  (⟨(gr Tb s f).idxOf c.si,
    if x.label = -1 then (gr Tb s f).length - 1 else
      (gr Tb s f).idxOf ((s.hash.lookup (x.dst * p.mult + (y.dst + (s.states.getD c.si (0, 0)).2 - y.src))).getD 0),
    x.label, x.score + y.score⟩, c.ia, c.ib)

/-- The FSA `f` of the output. -/
def outRows (Tb : List (List (List (Arc W)))) (p : Args W) (s : St) (f : Nat) : List (List (Arc W × Nat × Nat)) :=
  (gr Tb s f).map (fun q => (arow s q).map (val Tb p s))

/-- The output. -/
def outVec (Tb : List (List (List (Arc W)))) (p : Args W) (s : St) : List (List (List (Arc W × Nat × Nat))) :=
  (List.range Tb.length).map (outRows Tb p s)

/-- Only the arcs. -/
def arcsOnly (R : List (List (Arc W × Nat × Nat))) : List (List (Arc W)) := R.map (fun l => l.map Prod.fst)

variable {Ta Tb : List (List (List (Arc W)))} {p : Args W} {s : St} {B : List (List (Nat × Nat))}

theorem val_get {k : Nat} {c : Cand} {x y : Arc W} {st d : Nat × Nat} (hk : s.arcs[k]? = some c)
    (hst : s.states[c.si]? = some st) (hl : Leads Ta Tb p c x y st d) :
    val Tb p s k = (⟨(gr Tb s (fsaOf Tb st)).idxOf c.si,
      if x.label = -1 then (gr Tb s (fsaOf Tb st)).length - 1 else
        (gr Tb s (fsaOf Tb st)).idxOf ((s.hash.lookup (pkey Ta Tb p d)).getD 0),
      x.label, x.score + y.score⟩, c.ia, c.ib) := by
  have e0 : s.arcs.getD k ⟨0, 0, 0⟩ = c := by rw [List.getD_eq_getElem?_getD, hk]; rfl
  have e1 : p.a.arcs.getD c.ia ⟨0, 0, 0, 0⟩ = x := by rw [List.getD_eq_getElem?_getD, hl.ia]; rfl
  have e2 : p.b.arcs.getD c.ib ⟨0, 0, 0, 0⟩ = y := by rw [List.getD_eq_getElem?_getD, hl.ib]; rfl
  have e3 : s.states.getD c.si (0, 0) = st := by rw [List.getD_eq_getElem?_getD, hst]; rfl
  unfold val
  simp only [e0, e1, e2, e3, fk_get hst, hl.key]

theorem ord_idxOf (f : Nat → Nat) (N n i q : Nat) (hi : i < n) (hq : q ∈ grp f N i) :
    (ord f N n).idxOf q = splits ((List.range n).map (grp f N)) i + (grp f N i).idxOf q := by
  have hr : ((List.range n).map (grp f N))[i]? = some (grp f N i) := by
    rw [List.getElem?_map, List.getElem?_range hi]; rfl
  have hlt := List.idxOf_lt_length_of_mem hq
  have hg := flatten_get _ i _ hr _ hlt
  rw [List.getElem?_eq_getElem hlt, List.getElem_idxOf] at hg
  have hnd : (ord f N n).Nodup := by
    rw [ord, List.nodup_flatten]
    refine ⟨?_, ?_⟩
    · intro l hl
      obtain ⟨g, -, rfl⟩ := List.mem_map.mp hl
      exact grp_nodup f N g
    · rw [List.pairwise_map]
      refine List.nodup_range.imp ?_
      intro g g' hne
      rw [List.disjoint_left]
      intro q h1 h2
      exact hne ((mem_grp.mp h1).2.symm.trans (mem_grp.mp h2).2)
  have h1 := List.getElem?_eq_some_iff.mp hg
  obtain ⟨h2, h3⟩ := h1
  conv_lhs => rw [← h3]
  exact List.Nodup.idxOf_getElem hnd _ h2

theorem format_eq (hc : Ctx Ta Tb p) (h : Whole Ta Tb p s B) :
    format p s = some (flat ((outVec Tb p s).map arcsOnly), (outVec Tb p s).flatten.flatten.map (fun x => x.2.1),
      (outVec Tb p s).flatten.flatten.map (fun x => x.2.2)) := by
  have hn := h.nums
  have hf : p.fsas = Tb.length := by
    rw [Args.fsas, hc.b, flat_sp1_length, Nat.add_sub_cancel]
  have hK : s.iters.length - 1 = B.length := by rw [h.iters, psum_length, List.length_map, Nat.add_sub_cancel]
  have hids : rowSplitsToRowIds s.iters s.states.length = some (idsFrom 0 (B.map List.length)) := by
    rw [h.iters, h.states, List.length_flatten]
    exact rowSplitsToRowIds_psum _
  have hperm := hn.ord_perm
  have hol : (ord (fk Tb s) s.states.length Tb.length).length = s.states.length := by
    rw [hperm.length_eq, List.length_range]
  have hlt : ∀ q ∈ ord (fk Tb s) s.states.length Tb.length, q < s.states.length := by
    intro q hq
    exact List.mem_range.mp (hperm.mem_iff.mp hq)
  have hidx := hn.index
  unfold trIdx at hidx
  set O := ord (fk Tb s) s.states.length Tb.length with hO
  have hinv := invertPermutation_eq O (by rw [hol]; exact hperm)
  set F := (outVec Tb p s).map arcsOnly with hF
  have hflat : (outVec Tb p s).flatten = O.map (fun q => (arow s q).map (val Tb p s)) := by
    rw [hO, ord, List.map_flatten, List.map_map]
    rfl
  have hFl : F.flatten = O.map (fun q => (arow s q).map (fun k => (val Tb p s k).1)) := by
    have : F.flatten = (outVec Tb p s).flatten.map (fun l => l.map Prod.fst) := by
      rw [hF, List.map_flatten]; rfl
    rw [this, hflat, List.map_map]
    apply List.map_congr_left
    intro q _
    simp [Function.comp_def]
  have hl1 : ((List.range Tb.length).map (grp (fk Tb s) s.states.length)).map List.length = F.map List.length := by
    rw [hF, outVec, List.map_map, List.map_map, List.map_map]
    apply List.map_congr_left
    intro f _
    simp [outRows, arcsOnly, gr]
  have hl2 : (O.map (arow s)).map List.length = F.flatten.map List.length := by
    rw [hFl, List.map_map, List.map_map]
    apply List.map_congr_left
    intro f _
    simp
  have hcnt := h.count3 O hperm
  have hshape := hn.shape (arow s)
  rw [← hO] at hshape
  have hshape' : removeAxis (regularLayer Tb.length B.length ::
      [(psum ((((List.range Tb.length).map (fun f => rowsBy (itOf B) B.length (grp (fk Tb s) s.states.length f))).flatten).map List.length),
        idsFrom 0 ((((List.range Tb.length).map (fun f => rowsBy (itOf B) B.length (grp (fk Tb s) s.states.length f))).flatten).map List.length))] ++
      [(psum ((O.map (arow s)).map List.length), idsFrom 0 ((O.map (arow s)).map List.length))]) 1 =
      some [((flat F).sp1, (flat F).id1), ((flat F).sp2, (flat F).id2)] := by
    rw [hshape, hl1, hl2]
    rfl
  have hout : (List.range s.arcs.length).mapM (outArc p s (flat F).sp1 (flat F).id1 (flat F).id2 (O.map (arow s)).flatten
      ((List.range O.length).map (fun i => O.idxOf i))) = some ((outVec Tb p s).flatten.flatten) := by
    rw [hflat]
    apply mapM_out
    · rw [← hcnt, List.length_flatten, List.length_flatten, List.map_map, List.map_map]
      congr 1
      apply List.map_congr_left
      intro q _
      simp
    · intro g k row z hg hk
      rw [List.getElem?_map] at hg
      obtain ⟨q, hq, rfl⟩ := Option.map_eq_some_iff.mp hg
      rw [List.getElem?_map] at hk
      obtain ⟨a, ha, rfl⟩ := Option.map_eq_some_iff.mp hk
      obtain ⟨c, hca, hcq⟩ := mem_arow.mp (List.mem_of_getElem? ha)
      obtain ⟨x, y, st, d, f1, f2, f3, f4⟩ := h.arcs c (List.mem_of_getElem? hca)
      rw [val_get hca f1 f2]
      have hklt := (List.getElem?_eq_some_iff.mp ha).1
      have hFg : F.flatten[g]? = some ((arow s q).map (fun k => (val Tb p s k).1)) := by
        rw [hFl, List.getElem?_map, hq]; rfl
      have hsp : splits (O.map (fun q => (arow s q).map (val Tb p s))) g = apos F g := by
        rw [splits_eq_take, apos, ← hl2, List.map_map, List.map_map]
        congr 2
        apply List.map_congr_left
        intro q _
        simp
      have hid2 : (flat F).id2[apos F g + k]? = some g := flat_id2 F g k _ hFg (by rw [List.length_map]; exact hklt)
      have harc : (O.map (arow s)).flatten[apos F g + k]? = some a := by
        have := flatten_get (O.map (arow s)) g (arow s q) (by rw [List.getElem?_map, hq]; rfl) k hklt
        rw [splits_eq_take, hl2] at this
        exact this.trans ha
      obtain ⟨i, j, u, v, fa, gb, hh1, hh2, -⟩ := f2.ex
      have hi : fsaOf Tb st = i := hh1.fsa
      have hin : i < Tb.length := (List.getElem?_eq_some_iff.mp hh1.fb).1
      have hqi : q ∈ grp (fk Tb s) s.states.length i := by
        rw [mem_grp, ← hcq, fk_get f1]
        exact ⟨(List.getElem?_eq_some_iff.mp f1).1, hi⟩
      have hFi : F[i]? = some (arcsOnly (outRows Tb p s i)) := by
        rw [hF, outVec, List.getElem?_map, List.getElem?_map, List.getElem?_range hin]; rfl
      have hFil : (arcsOnly (outRows Tb p s i)).length = (gr Tb s i).length := by
        simp [arcsOnly, outRows]
      have hoff : splits ((List.range Tb.length).map (grp (fk Tb s) s.states.length)) i = off F i := by
        rw [splits_eq_take, hl1]; rfl
      have hge : g = off F i + (gr Tb s i).idxOf q := by
        rw [← hoff]
        have := ord_idxOf (fk Tb s) s.states.length Tb.length i q hin hqi
        rw [← hO] at this
        rw [gr, ← this]
        obtain ⟨h2, h3⟩ := List.getElem?_eq_some_iff.mp hq
        rw [← h3]
        exact (List.Nodup.idxOf_getElem (hperm.nodup_iff.mpr List.nodup_range) _ h2).symm
      have hid1 : (flat F).id1[g]? = some i := by
        rw [hge]
        refine flat_id1 F i _ _ hFi ?_
        rw [hFil]
        exact List.idxOf_lt_length_of_mem hqi
      have hsp1 : (flat F).sp1[i]? = some (off F i) := flat_sp1 F i (by
        have := (List.getElem?_eq_some_iff.mp hFi).1; omega)
      have hsp1s : (flat F).sp1[i + 1]? = some (off F i + (gr Tb s i).length) := by
        rw [flat_sp1_succ F i _ hFi, hFil]
      have hpos : 0 < (gr Tb s i).length := List.length_pos_of_mem hqi
      have hkey : x.dst * p.mult + (st.2 + y.dst - y.src) = pkey Ta Tb p d := by
        rw [← f2.key, Nat.add_comm y.dst]
      unfold outArc
      rw [hsp]
      simp only [hid2, harc, hca, hid1, f2.ia, f2.ib, hsp1, hsp1s, f2.id2, hkey, Option.bind_eq_bind, Option.bind_some,
        Option.map_some, hi]
      by_cases hlab : x.label = -1
      · rw [if_pos hlab, Option.bind_some, if_pos f3, if_pos hlab]
        have e1 : g - off F i = (gr Tb s i).idxOf c.si := by rw [hcq]; omega
        have e2 : off F i + (gr Tb s i).length - 1 - off F i = (gr Tb s i).length - 1 := by omega
        rw [e1, e2]
      · rw [if_neg hlab]
        obtain ⟨o, ho1, ho2⟩ := f4 hlab
        have hol' := (List.getElem?_eq_some_iff.mp ho2).1
        have hoi : o ∈ grp (fk Tb s) s.states.length i := by
          rw [mem_grp, fk_get ho2]
          exact ⟨hol', hh2.fsa⟩
        have e3 : ((List.range O.length).map (fun i => O.idxOf i))[o]? = some (off F i + (gr Tb s i).idxOf o) := by
          rw [List.getElem?_map, List.getElem?_range (by rw [hol]; exact hol'), Option.map_some]
          have := ord_idxOf (fk Tb s) s.states.length Tb.length i o hin hoi
          rw [← hO] at this
          rw [this, hoff]
          rfl
        rw [ho1, Option.bind_some, e3, Option.bind_some, if_pos f3, if_neg hlab]
        have e1 : g - off F i = (gr Tb s i).idxOf c.si := by rw [hcq]; omega
        rw [e1, Nat.add_sub_cancel_left]
        rfl
  have hlen2 : (flat F).id2.length = s.arcs.length := by
    rw [← hcnt]
    simp only [flat, idsFrom_length]
    rw [← hl2, List.length_flatten]
  unfold format
  simp only [hK, hids, hf, Option.bind_eq_bind, Option.bind_some]
  rw [← hf, ids2_eq hc h, hf]
  simp only [Option.bind_some, hn.splits, h.splits3, hidx, h.index3 O hlt, hshape', hinv, hout, hlen2, if_true]
  congr 2
  rw [flat, hF]
  congr 1
  rw [List.map_flatten, List.map_flatten]
  congr 1

end

end Verif.Fsa.Idv
