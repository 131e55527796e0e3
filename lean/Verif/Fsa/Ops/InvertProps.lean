import Verif.Fsa.Ops.ExpandProps

/-! # C32: invert swaps input and output -/

namespace Verif.Fsa
open Verif.Util
variable {W : Type}

theorem strip_auxAt (aux : List (List Int)) (T : List (Arc (W × Int × Int)))
    (h : ∀ a ∈ T, -1 ≤ a.score.2.2) :
    strip (T.map (fun a => auxAt aux a.score.2.2)) =
      strip ((T.filterMap (fun x => if x.score.2.2 < 0 then none else some x.score.2.2.toNat)).filterMap
        (fun m => aux.flatten[m]?)) := by
  induction T with
  | nil => rfl
  | cons a T ih =>
    have ih := ih (fun b hb => h b (by simp [hb]))
    have ha := h a (by simp)
    rw [List.map_cons, ← List.singleton_append, strip_append, ih]
    rw [List.filterMap_cons]
    by_cases h0 : a.score.2.2 < 0
    · have : a.score.2.2 = -1 := by omega
      rw [if_pos h0]
      simp [auxAt, this, strip]
    · have h1 : ¬ a.score.2.2 = -1 := by omega
      rw [if_neg h0, List.filterMap_cons]
      unfold auxAt
      rw [if_neg h1, List.getD_eq_getElem?_getD]
      cases hx : aux.flatten[a.score.2.2.toNat]? with
      | none => simp [strip]
      | some v =>
        simp only [Option.getD_some]
        rw [← strip_append, List.singleton_append]

theorem attrs_tags {V : Type} (T : List (Arc V)) (g : Arc V → List Int)
    (jp : List (Nat × Arc W)) (p : List (Arc V))
    (h : jp.map (fun x => T[x.1]?) = p.map some) :
    attrs (T.map g) jp = p.flatMap g := by
  unfold attrs
  induction jp generalizing p with
  | nil =>
    cases p with
    | nil => rfl
    | cons => simp at h
  | cons y jp ih =>
    cases p with
    | nil => simp at h
    | cons x p =>
      simp only [List.map_cons, List.cons.injEq] at h
      rw [List.flatMap_cons, List.flatMap_cons, ih p h.2, List.getD_eq_getElem?_getD,
        List.getElem?_map, h.1]
      rfl

theorem flatMap_invAux (p : List (Arc (W × Int × Int))) :
    p.flatMap invAux = (labels p).filter (· ≠ 0) := by
  induction p with
  | nil => rfl
  | cons a p ih =>
    rw [List.flatMap_cons, ih, labels_cons, List.filter_cons]
    unfold invAux
    by_cases h : a.label = 0 <;> simp [h]

theorem chain_labMap_ge [Zero W] (f : Fsa W) (aux : List (List Int)) (s k : Nat) (a : Arc W)
    (x : Arc (W × Int × Int)) (hx : x ∈ chainOf f aux s k a) : -1 ≤ x.score.2.2 := by
  obtain ⟨q, _, rfl⟩ := List.mem_map.mp hx
  unfold entry oarc
  simp only
  split <;> omega

/-- What a path of the inverted FST and the path it comes from have in common. -/
theorem invert_facts [AddMonoid W] {f : Fsa W} (hf : f.Valid) (aux : List (List Int))
    (hl : aux.length = f.arcs.length)
    (ip : List ((Nat × Nat) × Arc W)) (hip : RPath f 0 ip f.final) (jp : List (Nat × Arc W))
    (h1 : jp.map (fun x => (expandTagged f aux).arcs[x.1]?) =
      (ip.flatMap (fun x => chainOf f aux x.1.1 x.1.2 x.2)).map some)
    (h2 : jp.map Prod.snd = (ip.flatMap (fun x => chainOf f aux x.1.1 x.1.2 x.2)).map (invArc aux)) :
    let ip' : List (Nat × Arc W) := ip.map (fun x => (splits f.rows x.1.1 + x.1.2, x.2))
    pstring jp = strip (attrs aux ip') ∧ pscore jp = pscore ip' ∧
      comesFrom (invert f aux).2.2 jp = ip'.map Prod.fst ∧
      attrs (invert f aux).2.1 jp = (labels (ip'.map Prod.snd)).filter (· ≠ 0) := by
  intro ip'
  -- the same positions, read in the expanded FSA
  have hacc := (expand_accepting hf aux _).mpr ⟨ip, hip, rfl⟩
  obtain ⟨jp', hj', h1', h2'⟩ := tagged_ppath (expandTagged f aux) untag (fun _ => rfl)
    (fun _ => rfl) _ hacc
  obtain ⟨e1, e2, e3, e4, e5⟩ := expand_facts hf aux hl ip hip jp' h1' h2'
  refine ⟨?_, ?_, ?_, ?_⟩
  · unfold pstring
    rw [h2]
    unfold labels
    rw [List.map_map]
    have hs := strip_auxAt aux (ip.flatMap (fun x => chainOf f aux x.1.1 x.1.2 x.2)) (by
      intro a ha
      obtain ⟨x, _, hx⟩ := List.mem_flatMap.mp ha
      exact chain_labMap_ge f aux _ _ _ a hx)
    have hc : (Arc.label ∘ invArc aux : Arc (W × Int × Int) → Int) =
      (fun a => auxAt aux a.score.2.2) := rfl
    rw [hc, hs]
    unfold spelled at e4
    rw [show (expandArcs f aux).2.2 = (expandTagged f aux).arcs.map (fun x => x.score.2.2) from rfl,
      comesFrom_tags (expandTagged f aux).arcs (fun x => x.score.2.2) jp' _ h1'] at e4
    rw [e4]
  · rw [← e2]
    unfold pscore
    rw [h2, h2']
    unfold score
    rw [List.map_map, List.map_map]
    rfl
  · rw [← e3, show (invert f aux).2.2 = (expandTagged f aux).arcs.map (fun x => x.score.2.1) from rfl,
      comesFrom_tags (expandTagged f aux).arcs (fun x => x.score.2.1) jp _ h1]
    rw [show (expandArcs f aux).2.1 = (expandTagged f aux).arcs.map (fun x => x.score.2.1) from rfl,
      comesFrom_tags (expandTagged f aux).arcs (fun x => x.score.2.1) jp' _ h1']
  · rw [show (invert f aux).2.1 = (expandTagged f aux).arcs.map invAux from rfl,
      attrs_tags _ invAux jp _ h1, flatMap_invAux, ← e5, h2']
    rw [labels_map untag _ (fun _ _ => rfl)]

/-! ## The theorems -/

/-- Every accepting path of the inverted FST comes from one of the input, with the label string
and the aux-label string exchanged. -/
theorem invert_sound [AddMonoid W] (f : Fsa W) (hf : f.Valid) (aux : List (List Int))
    (hl : aux.length = f.arcs.length) (jp : List (Nat × Arc W))
    (h : PPath (invert f aux).1 jp) :
    ∃ ip, PPath f ip ∧ comesFrom (invert f aux).2.2 jp = ip.map Prod.fst ∧
      pstring jp = strip (attrs aux ip) ∧
      attrs (invert f aux).2.1 jp = (labels (ip.map Prod.snd)).filter (· ≠ 0) ∧
      pscore jp = pscore ip := by
  obtain ⟨p, hp, h1, h2⟩ := ppath_tagged (expandTagged f aux) (invArc aux) (fun _ => rfl)
    (fun _ => rfl) jp h
  obtain ⟨ip, hip, rfl⟩ := (expand_accepting hf aux p).mp hp
  obtain ⟨e1, e2, e3, e4⟩ := invert_facts hf aux hl ip hip jp h1 h2
  exact ⟨_, rpath_ppath hf ip hip, e3, e1, e4, e2⟩

theorem invert_complete [AddMonoid W] (f : Fsa W) (hf : f.Valid) (aux : List (List Int))
    (hl : aux.length = f.arcs.length) (ip : List (Nat × Arc W)) (h : PPath f ip) :
    ∃ jp, PPath (invert f aux).1 jp ∧ comesFrom (invert f aux).2.2 jp = ip.map Prod.fst ∧
      pstring jp = strip (attrs aux ip) ∧
      attrs (invert f aux).2.1 jp = (labels (ip.map Prod.snd)).filter (· ≠ 0) ∧
      pscore jp = pscore ip := by
  obtain ⟨ip', hip, rfl⟩ := ppath_rpath hf ip h
  obtain ⟨jp, hj, h1, h2⟩ := tagged_ppath (expandTagged f aux) (invArc aux) (fun _ => rfl)
    (fun _ => rfl) _ ((expand_accepting hf aux _).mpr ⟨ip', hip, rfl⟩)
  obtain ⟨e1, e2, e3, e4⟩ := invert_facts hf aux hl ip' hip jp h1 h2
  exact ⟨jp, hj, e3, e1, e4, e2⟩

/-- `f` with aux labels maps the input string `x` to the output string `y` with score `w`. -/
def FstAccepts [Add W] [Zero W] (f : Fsa W) (aux : List (List Int)) (x y : List Int) (w : W) :
    Prop :=
  ∃ ip, PPath f ip ∧ pstring ip = x ∧ strip (attrs aux ip) = y ∧ pscore ip = w

/-- Inversion exchanges input and output strings. -/
theorem invert_rel [AddMonoid W] (f : Fsa W) (hf : f.Valid) (aux : List (List Int))
    (hl : aux.length = f.arcs.length) (x y : List Int) (w : W) :
    FstAccepts (invert f aux).1 (invert f aux).2.1 y x w ↔ FstAccepts f aux x y w := by
  constructor
  · rintro ⟨jp, hj, rfl, rfl, rfl⟩
    obtain ⟨ip, hi, _, h1, h2, h3⟩ := invert_sound f hf aux hl jp hj
    refine ⟨ip, hi, ?_, h1.symm, h3.symm⟩
    rw [h2, ← strip_filter]; rfl
  · rintro ⟨ip, hi, rfl, rfl, rfl⟩
    obtain ⟨jp, hj, _, h1, h2, h3⟩ := invert_complete f hf aux hl ip hi
    refine ⟨jp, hj, h1, ?_, h3⟩
    rw [h2, ← strip_filter]; rfl

/-- The documented precondition (k2/csrc/fsa_algo.h): the aux labels of a final arc end with -1,
and -1 occurs nowhere else. -/
def AuxFinal (f : Fsa W) (aux : List (List Int)) : Prop :=
  ∀ (i : Nat) (a : Arc W) (l : List Int), f.arcs[i]? = some a → aux[i]? = some l →
    if a.label = -1 then ∃ xs, l = xs ++ [-1] ∧ (-1 : Int) ∉ xs else (-1 : Int) ∉ l

theorem entry_newLabel [Zero W] (f : Fsa W) (aux : List (List Int)) (s k q : Nat) (a : Arc W)
    (l : List Int) (hl : aux[splits f.rows s + k]? = some l) :
    auxAt aux (entry f aux s k a q).score.2.2 = l.getD q 0 := by
  have hL : labelsLen f aux s k = l.length := by
    unfold labelsLen; rw [List.getD_eq_getElem?_getD, hl]; rfl
  unfold entry oarc
  simp only [hL]
  by_cases h : q < l.length
  · rw [if_pos h]
    unfold auxAt
    rw [if_neg (by omega), Int.toNat_natCast, List.getD_eq_getElem?_getD,
      flatten_get aux _ l hl q h, List.getD_eq_getElem?_getD]
  · rw [if_neg h, List.getD_eq_getElem?_getD, List.getElem?_eq_none (by omega)]
    rfl

/-- Under the documented precondition the inverted FST is valid. -/
theorem invert_valid [Zero W] (f : Fsa W) (hf : f.Valid) (aux : List (List Int))
    (hl : aux.length = f.arcs.length) (hpre : AuxFinal f aux) : (invert f aux).1.Valid := by
  have hv := expand_valid f hf aux
  have h2 := hf.two
  obtain ⟨hfin, hn⟩ := expand_final hf aux
  have hfl : f.final < f.numStates := by simp only [Fsa.final]; omega
  refine ⟨hv.two, ?_, ?_, ?_, ?_⟩
  · have := hv.sorted
    unfold Fsa.Sorted at this ⊢
    simp only [invert, expandArcs, List.pairwise_map] at this ⊢
    exact this
  · intro b hb
    obtain ⟨x, hx, rfl⟩ := List.mem_map.mp hb
    exact hv.src_lt (untag x) (List.mem_map.mpr ⟨x, hx, rfl⟩)
  · intro b hb
    obtain ⟨x, hx, rfl⟩ := List.mem_map.mp hb
    exact hv.dst_lt (untag x) (List.mem_map.mpr ⟨x, hx, rfl⟩)
  · intro b hb
    obtain ⟨x, hx, rfl⟩ := List.mem_map.mp hb
    obtain ⟨pos, o, ho, hx⟩ := (expand_mem f aux x).mp hx
    have hex : ∃ s k a q, s < f.numStates ∧ (row f s)[k]? = some a ∧
        (q = 0 ∨ q < labelsLen f aux s k) ∧ x = entry f aux s k a q := by
      rcases ostates_cases f aux pos o ho with ⟨s, hs, rfl, rfl⟩ | ⟨s, k, q, hs, hk, hq, rfl, rfl⟩
      · obtain ⟨k, hk, rfl⟩ := List.mem_mapIdx.mp hx
        exact ⟨s, k, _, 0, hs, List.getElem?_eq_getElem hk, Or.inl rfl, rfl⟩
      · have ha := List.getElem?_eq_getElem hk
        simp only [oarcsOf, ha, Option.toList_some, List.map_cons, List.map_nil,
          List.mem_singleton] at hx
        subst hx
        refine ⟨s, k, _, q + 1, hs, ha, Or.inr (by omega), ?_⟩
        unfold entry
        rw [if_neg (by omega), Nat.add_sub_cancel]
    obtain ⟨s, k, a, q, hs, ha, hq, rfl⟩ := hex
    have hk := (List.getElem?_eq_some_iff.mp ha).1
    have hpos : f.arcs[splits f.rows s + k]? = some a := by
      have h5 := flatten_get f.rows s _ (rows_get f s hs) k hk
      rw [hf.rows_flatten] at h5
      rw [h5]; exact ha
    obtain ⟨l, hlx⟩ : ∃ l, aux[splits f.rows s + k]? = some l := by
      have := (List.getElem?_eq_some_iff.mp hpos).1
      exact ⟨_, List.getElem?_eq_getElem (by omega)⟩
    have hL : labelsLen f aux s k = l.length := by
      unfold labelsLen; rw [List.getD_eq_getElem?_getD, hlx]; rfl
    have hp := hpre _ _ _ hpos hlx
    have hfi := hf.final_iff a (row_mem f s k a ha).1
    have hd := hf.dst_lt a (row_mem f s k a ha).1
    show auxAt aux (entry f aux s k a q).score.2.2 = -1 ↔
      (entry f aux s k a q).dst = (expandTagged f aux).final
    rw [entry_newLabel f aux s k q a l hlx, hfin]
    have hdst : (entry f aux s k a q).dst =
        if q + 1 ≥ l.length then origNum f aux a.dst else midNum f aux s k q := by
      unfold entry oarc; simp only [hL]
    rw [hdst]
    by_cases hlab : a.label = -1
    · rw [if_pos hlab] at hp
      obtain ⟨xs, rfl, hxs⟩ := hp
      have hlen : (xs ++ [(-1 : Int)]).length = xs.length + 1 := by simp
      rw [hlen]
      by_cases hqx : q < xs.length
      · rw [if_neg (by omega)]
        refine iff_of_false ?_
          (mid_ne_orig f aux s k q f.final hs hk (by rw [hL, hlen]; omega) hfl)
        rw [List.getD_eq_getElem?_getD, List.getElem?_append_left hqx,
          List.getElem?_eq_getElem hqx, Option.getD_some]
        intro h
        exact hxs (h ▸ List.getElem_mem hqx)
      · rw [if_pos (by omega)]
        have hqe : q = xs.length := by
          rw [hL, hlen] at hq
          omega
        subst hqe
        rw [hfi.mp hlab]
        simp
    · rw [if_neg hlab] at hp
      refine iff_of_false ?_ ?_
      · rw [List.getD_eq_getElem?_getD]
        cases hlq : l[q]? with
        | none => simp
        | some v =>
          rw [Option.getD_some]
          rintro rfl
          exact hp (List.mem_of_getElem? hlq)
      · split
        · intro h
          exact hlab (hfi.mpr (origNum_inj f aux _ _ hd hfl h))
        · exact mid_ne_orig f aux s k q f.final hs hk (by omega) hfl

/-- Inverting twice gives back the input and output strings with their scores. -/
theorem invert_twice [AddMonoid W] (f : Fsa W) (hf : f.Valid) (aux : List (List Int))
    (hl : aux.length = f.arcs.length) (hpre : AuxFinal f aux) (x y : List Int) (w : W) :
    FstAccepts (invert (invert f aux).1 (invert f aux).2.1).1
      (invert (invert f aux).1 (invert f aux).2.1).2.1 x y w ↔ FstAccepts f aux x y w := by
  rw [invert_rel _ (invert_valid f hf aux hl hpre) _ (by simp [invert]), invert_rel f hf aux hl]

/-! ## Concrete case -/

theorem expandExample_auxFinal : AuxFinal expandExample expandExampleAux := by
  intro i a l h1 h2
  match i with
  | 0 => cases h1; cases h2; simp
  | 1 => cases h1; cases h2; simp
  | 2 => cases h1; cases h2; exact ⟨[7], rfl, by decide⟩
  | i + 3 => simp [expandExample] at h1

example : invert expandExample expandExampleAux =
    (⟨6, [⟨0, 1, 10, 1⟩, ⟨0, 3, 0, 2⟩, ⟨1, 2, 11, 0⟩, ⟨2, 3, 12, 0⟩, ⟨3, 4, 7, 4⟩, ⟨4, 5, -1, 0⟩]⟩,
      [[5], [6], [], [], [], [-1]], [0, 1, -1, -1, 2, -1]) := by decide +kernel

end Verif.Fsa
