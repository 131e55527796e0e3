import Verif.Fsa.Ops.ExpandPaths
import Mathlib.Data.List.Nodup
import Mathlib.Tactic.FinCases

/-!
# C31: ExpandArcs spells the label sequences

A path of positions of arcs together with the arcs (`PPath`) is a more precise notion than a path
of arcs when an FSA has parallel identical arcs.
-/

namespace Verif.Fsa
open Verif.Util
variable {W : Type}

/-- An accepting path given as (position, arc) pairs. -/
def PPath (f : Fsa W) (ip : List (Nat × Arc W)) : Prop :=
  2 ≤ f.numStates ∧ Chain 0 (ip.map Prod.snd) f.final ∧ ∀ x ∈ ip, f.arcs[x.1]? = some x.2

/-- Input string, score and positions of a path. -/
def pstring (ip : List (Nat × Arc W)) : List Int := strip (labels (ip.map Prod.snd))
def pscore [Add W] [Zero W] (ip : List (Nat × Arc W)) : W := score (ip.map Prod.snd)

/-- The non-negative entries of an arc map along a path: the input arcs it came from. -/
def comesFrom (arcMap : List Int) (ip : List (Nat × Arc W)) : List Nat :=
  ip.filterMap (fun x => (arcMap[x.1]?).bind (fun m => if m < 0 then none else some m.toNat))

/-- The concatenation of a ragged attribute along a path. -/
def attrs (aux : List (List Int)) (ip : List (Nat × Arc W)) : List Int :=
  ip.flatMap (fun x => aux.getD x.1 [])

/-- The values that the labels arc map selects along a path. -/
def spelled (aux : List (List Int)) (labMap : List Int) (ip : List (Nat × Arc W)) : List Int :=
  (comesFrom labMap ip).filterMap (fun m => aux.flatten[m]?)

/-! ## Chains -/

theorem max_one_succ (n : Nat) : ∃ m, max 1 n = m + 1 ∧ n ≤ m + 1 ∧ (n ≤ 1 → m = 0) :=
  ⟨max 1 n - 1, by omega, by omega, by omega⟩

theorem chainOf_labels [Zero W] (f : Fsa W) (aux : List (List Int)) (s k : Nat) (a : Arc W) :
    (labels (chainOf f aux s k a)).filter (· ≠ 0) = [a.label].filter (· ≠ 0) := by
  obtain ⟨m, hm, h2, h3⟩ := max_one_succ (labelsLen f aux s k)
  unfold chainOf labels
  rw [hm, List.map_map]
  by_cases ha : a.label = -1
  · rw [List.range_succ, List.map_append, List.filter_append]
    have e1 : ((List.range m).map (Arc.label ∘ entry f aux s k a)).filter (· ≠ 0) = [] := by
      rw [List.filter_eq_nil_iff]
      intro x hx
      obtain ⟨q, hq, rfl⟩ := List.mem_map.mp hx
      rw [List.mem_range] at hq
      have : ¬ (q + 1 ≥ labelsLen f aux s k) := by omega
      simp [entry, oarc, ha, this]
    have e2 : (entry f aux s k a m).label = -1 := by
      simp only [entry, oarc, ha, ne_eq, not_true_eq_false, if_false]
      rw [if_pos h2]
    rw [e1, List.nil_append, ha]
    simp [e2]
  · rw [List.range_eq_range', List.range'_succ, List.map_cons, List.filter_cons]
    have e1 : ((List.range' (0 + 1) m).map (Arc.label ∘ entry f aux s k a)).filter (· ≠ 0) = [] := by
      rw [List.filter_eq_nil_iff]
      intro x hx
      obtain ⟨q, hq, rfl⟩ := List.mem_map.mp hx
      rw [List.mem_range'_1] at hq
      have : ¬ (q = 0) := by omega
      simp [entry, oarc, ha, this]
    have e2 : (entry f aux s k a 0).label = a.label := by
      simp [entry, oarc, ha]
    rw [e1, Function.comp_apply, e2]
    simp [List.filter_cons]

theorem chainOf_score [AddMonoid W] (f : Fsa W) (aux : List (List Int)) (s k : Nat) (a : Arc W) :
    ((chainOf f aux s k a).map (fun x => x.score.1)).sum = a.score := by
  rw [chainOf_eq]
  have : ∀ l : List Nat, (∀ q ∈ l, q ≠ 0) →
      ((l.map (entry f aux s k a)).map (fun x => x.score.1)).sum = 0 := by
    intro l hl
    induction l with
    | nil => rfl
    | cons q l ih =>
      rw [List.map_cons, List.map_cons, List.sum_cons, ih (fun q hq => hl q (by simp [hq]))]
      simp [entry, oarc, hl q (by simp)]
  rw [List.map_cons, List.sum_cons, chainFrom, this]
  · simp [entry, oarc]
  · intro q hq
    rw [List.mem_range'_1] at hq; omega

theorem chainOf_from [Zero W] (f : Fsa W) (aux : List (List Int)) (s k : Nat) (a : Arc W) :
    (chainOf f aux s k a).filterMap
      (fun x => if x.score.2.1 < 0 then none else some x.score.2.1.toNat) =
      [splits f.rows s + k] := by
  rw [chainOf_eq, List.filterMap_cons]
  have h1 : (chainFrom f aux s k a 0).filterMap
      (fun x => if x.score.2.1 < 0 then none else some x.score.2.1.toNat) = [] := by
    rw [List.filterMap_eq_nil_iff]
    intro x hx
    obtain ⟨q, hq, rfl⟩ := List.mem_map.mp hx
    rw [List.mem_range'_1] at hq
    have : ¬ q = 0 := by omega
    simp [entry, oarc, this]
  rw [h1]
  have h2 : (entry f aux s k a 0).score.2.1 = ((splits f.rows s + k : Nat) : Int) := by
    simp [entry, oarc]
  rw [h2, if_neg (by omega)]
  simp only [Int.toNat_natCast]

theorem filterMap_range_get (l : List Int) : (List.range l.length).filterMap (fun q => l[q]?) = l := by
  induction l with
  | nil => rfl
  | cons x l ih =>
    rw [List.length_cons, List.range_succ_eq_map, List.filterMap_cons, List.filterMap_map]
    simp only [List.getElem?_cons_zero]
    congr 1

theorem chainOf_spelled [Zero W] (f : Fsa W) (aux : List (List Int)) (s k : Nat) (a : Arc W)
    (hi : splits f.rows s + k < aux.length) :
    ((chainOf f aux s k a).filterMap
      (fun x => if x.score.2.2 < 0 then none else some x.score.2.2.toNat)).filterMap
        (fun m => aux.flatten[m]?) = aux.getD (splits f.rows s + k) [] := by
  have hget : aux[splits f.rows s + k]? = some (aux.getD (splits f.rows s + k) []) := by
    simp [List.getElem?_eq_getElem hi]
  rw [List.filterMap_filterMap]
  unfold chainOf
  rw [List.filterMap_map]
  have hL : labelsLen f aux s k = (aux.getD (splits f.rows s + k) []).length := rfl
  by_cases h0 : labelsLen f aux s k = 0
  · rw [h0]
    have hnil : aux.getD (splits f.rows s + k) [] = [] := List.eq_nil_of_length_eq_zero (by omega)
    rw [hnil]
    simp [List.range_succ, entry, oarc, h0]
  · rw [show max 1 (labelsLen f aux s k) = (aux.getD (splits f.rows s + k) []).length by omega]
    conv => rhs; rw [← filterMap_range_get (aux.getD (splits f.rows s + k) [])]
    apply List.filterMap_congr
    intro q hq
    rw [List.mem_range] at hq
    have hm : (entry f aux s k a q).score.2.2 =
        ((splits aux (splits f.rows s + k) + q : Nat) : Int) := by
      unfold entry oarc
      simp only
      rw [if_pos (by omega)]
    simp only [Function.comp_apply, hm]
    rw [if_neg (by omega), Int.toNat_natCast, Option.bind_some]
    exact flatten_get aux _ _ hget q hq

/-! ## Positions and rows -/

theorem rpath_ppath {f : Fsa W} (hf : f.Valid) (ip : List ((Nat × Nat) × Arc W))
    (h : RPath f 0 ip f.final) :
    PPath f (ip.map (fun x => (splits f.rows x.1.1 + x.1.2, x.2))) := by
  refine ⟨hf.two, ?_, ?_⟩
  · rw [List.map_map]; exact h.1
  · intro y hy
    obtain ⟨x, hx, rfl⟩ := List.mem_map.mp hy
    obtain ⟨h1, h2⟩ := h.2 x hx
    have hs : x.1.1 < f.numStates := by
      have := hf.src_lt _ (row_mem f _ _ _ h2).1
      simp only [Fsa.final] at this; omega
    simp only
    rw [← hf.rows_flatten] at *
    have := flatten_get f.rows x.1.1 _ (rows_get f x.1.1 hs) x.1.2
      (List.getElem?_eq_some_iff.mp h2).1
    rw [this]; exact h2

theorem ppath_rpath {f : Fsa W} (hf : f.Valid) (ip : List (Nat × Arc W)) (h : PPath f ip) :
    ∃ ip' : List ((Nat × Nat) × Arc W), RPath f 0 ip' f.final ∧
      ip = ip'.map (fun x => (splits f.rows x.1.1 + x.1.2, x.2)) := by
  obtain ⟨h2, hc, hm⟩ := h
  have : ∀ ip : List (Nat × Arc W), (∀ x ∈ ip, f.arcs[x.1]? = some x.2) →
      ∃ ip' : List ((Nat × Nat) × Arc W),
        (∀ x ∈ ip', x.2.src = x.1.1 ∧ (row f x.1.1)[x.1.2]? = some x.2) ∧
        ip = ip'.map (fun x => (splits f.rows x.1.1 + x.1.2, x.2)) := by
    intro ip
    induction ip with
    | nil => intro _; exact ⟨[], by simp, rfl⟩
    | cons y ip ih =>
      intro h
      obtain ⟨ip', h1, rfl⟩ := ih (fun x hx => h x (by simp [hx]))
      have hy := h y (by simp)
      rw [← hf.rows_flatten] at hy
      obtain ⟨s, r, k, hr, hk, he⟩ := flatten_pos f.rows y.1 (List.getElem?_eq_some_iff.mp hy).1
      have hs : s < f.numStates := by
        have := (List.getElem?_eq_some_iff.mp hr).1; simpa using this
      rw [he, flatten_get f.rows s r hr k hk] at hy
      rw [rows_get f s hs] at hr
      obtain rfl := Option.some.inj hr
      refine ⟨((s, k), y.2) :: ip', ?_, ?_⟩
      · intro x hx
        rcases List.mem_cons.mp hx with rfl | hx
        · exact ⟨(row_mem f s k _ hy).2, hy⟩
        · exact h1 x hx
      · rw [List.map_cons, ← he]
  obtain ⟨ip', h1, rfl⟩ := this ip hm
  refine ⟨ip', ⟨?_, h1⟩, rfl⟩
  rw [List.map_map] at hc
  exact hc

/-! ## The result as FSA plus arc maps -/

theorem chain_map {V : Type} (φ : Arc V → Arc W) (h1 : ∀ a, (φ a).src = a.src)
    (h2 : ∀ a, (φ a).dst = a.dst) (s t : Nat) (p : List (Arc V)) :
    Chain s (p.map φ) t ↔ Chain s p t := by
  induction p generalizing s with
  | nil => rfl
  | cons x p ih => rw [List.map_cons, chain_cons, chain_cons, ih, h1, h2]

/-- A path of an FSA made from tagged arcs is a path of the tagged arcs. -/
theorem ppath_tagged {V : Type} (g : Fsa V) (φ : Arc V → Arc W) (hs : ∀ a, (φ a).src = a.src)
    (hd : ∀ a, (φ a).dst = a.dst) (jp : List (Nat × Arc W))
    (h : PPath ⟨g.numStates, g.arcs.map φ⟩ jp) :
    ∃ p, Accepting g p ∧ jp.map (fun x => g.arcs[x.1]?) = p.map some ∧
      jp.map Prod.snd = p.map φ := by
  obtain ⟨h2, hc, hm⟩ := h
  have : ∀ jp : List (Nat × Arc W), (∀ x ∈ jp, (g.arcs.map φ)[x.1]? = some x.2) →
      ∃ p : List (Arc V), jp.map (fun x => g.arcs[x.1]?) = p.map some ∧
        jp.map Prod.snd = p.map φ := by
    intro jp
    induction jp with
    | nil => intro _; exact ⟨[], rfl, rfl⟩
    | cons y jp ih =>
      intro h
      obtain ⟨p, h1, h2⟩ := ih (fun x hx => h x (by simp [hx]))
      have hy := h y (by simp)
      simp only [List.getElem?_map, Option.map_eq_some_iff] at hy
      obtain ⟨z, hz, hz2⟩ := hy
      exact ⟨z :: p, by simp [hz, h1], by simp [hz2, h2]⟩
  obtain ⟨p, h1, h3⟩ := this jp hm
  refine ⟨p, ⟨h2, ?_, ?_⟩, h1, h3⟩
  · rw [h3, chain_map φ hs hd] at hc; exact hc
  · intro a ha
    have : some a ∈ p.map some := List.mem_map.mpr ⟨a, ha, rfl⟩
    rw [← h1] at this
    obtain ⟨i, _, hi⟩ := List.mem_map.mp this
    exact List.mem_iff_getElem?.mpr ⟨_, hi⟩

theorem tagged_ppath {V : Type} (g : Fsa V) (φ : Arc V → Arc W) (hs : ∀ a, (φ a).src = a.src)
    (hd : ∀ a, (φ a).dst = a.dst) (p : List (Arc V)) (h : Accepting g p) :
    ∃ jp : List (Nat × Arc W), PPath ⟨g.numStates, g.arcs.map φ⟩ jp ∧
      jp.map (fun x => g.arcs[x.1]?) = p.map some ∧ jp.map Prod.snd = p.map φ := by
  obtain ⟨h2, hc, hm⟩ := h
  have : ∀ p : List (Arc V), (∀ x ∈ p, x ∈ g.arcs) →
      ∃ jp : List (Nat × Arc W), (∀ x ∈ jp, (g.arcs.map φ)[x.1]? = some x.2) ∧
        jp.map (fun x => g.arcs[x.1]?) = p.map some ∧ jp.map Prod.snd = p.map φ := by
    intro p
    induction p with
    | nil => intro _; exact ⟨[], by simp, rfl, rfl⟩
    | cons y p ih =>
      intro h
      obtain ⟨jp, h1, h2, h3⟩ := ih (fun x hx => h x (by simp [hx]))
      obtain ⟨j, hj⟩ := List.mem_iff_getElem?.mp (h y (by simp))
      refine ⟨(j, φ y) :: jp, ?_, by simp [hj, h2], by simp [h3]⟩
      intro x hx
      rcases List.mem_cons.mp hx with rfl | hx
      · simp [hj]
      · exact h1 x hx
  obtain ⟨jp, h0, h1, h3⟩ := this p hm
  refine ⟨jp, ⟨h2, ?_, h0⟩, h1, h3⟩
  rw [h3, chain_map φ hs hd]; exact hc

/-- Accepting paths of the tagged result are the chains of accepting paths of the input. -/
theorem expand_accepting [Zero W] {f : Fsa W} (hf : f.Valid) (aux : List (List Int))
    (p : List (Arc (W × Int × Int))) :
    Accepting (expandTagged f aux) p ↔
      ∃ ip, RPath f 0 ip f.final ∧ p = ip.flatMap (fun x => chainOf f aux x.1.1 x.1.2 x.2) := by
  have h2 := hf.two
  obtain ⟨h3, h4⟩ := expand_final hf aux
  have h0 : origNum f aux 0 = 0 := by simp [origNum]
  have := expand_path hf aux f.final (by simp only [Fsa.final]; omega) p.length 0 p (by omega)
    (Nat.le_refl _)
  unfold Accepting
  rw [h3, ← this, h0]
  constructor
  · exact fun h => h.2
  · exact fun h => ⟨by omega, h⟩

theorem comesFrom_tags {V : Type} (T : List (Arc V)) (g : Arc V → Int)
    (jp : List (Nat × Arc W)) (p : List (Arc V))
    (h : jp.map (fun x => T[x.1]?) = p.map some) :
    comesFrom (T.map g) jp = p.filterMap (fun x => if g x < 0 then none else some (g x).toNat) := by
  unfold comesFrom
  induction jp generalizing p with
  | nil =>
    cases p with
    | nil => rfl
    | cons => simp at h
  | cons y jp ih =>
    cases p with
    | nil => simp at h
    | cons x p =>
      simp only [List.map_cons, List.cons.injEq] at h
      rw [List.filterMap_cons, List.filterMap_cons, ih p h.2, List.getElem?_map, h.1]
      rfl

theorem strip_filter (l : List Int) : strip l = strip (l.filter (· ≠ 0)) := by
  unfold strip
  rw [List.filter_filter]
  apply List.filter_congr
  intro x _
  by_cases h : x = 0 <;> simp [h]

/-- What a path of the result and the path of the input it comes from have in common. -/
theorem expand_facts [AddMonoid W] {f : Fsa W} (hf : f.Valid) (aux : List (List Int))
    (hl : aux.length = f.arcs.length)
    (ip : List ((Nat × Nat) × Arc W)) (hip : RPath f 0 ip f.final) (jp : List (Nat × Arc W))
    (h1 : jp.map (fun x => (expandTagged f aux).arcs[x.1]?) =
      (ip.flatMap (fun x => chainOf f aux x.1.1 x.1.2 x.2)).map some)
    (h2 : jp.map Prod.snd = (ip.flatMap (fun x => chainOf f aux x.1.1 x.1.2 x.2)).map untag) :
    let ip' : List (Nat × Arc W) := ip.map (fun x => (splits f.rows x.1.1 + x.1.2, x.2))
    pstring jp = pstring ip' ∧ pscore jp = pscore ip' ∧
      comesFrom (expandArcs f aux).2.1 jp = ip'.map Prod.fst ∧
      spelled aux (expandArcs f aux).2.2 jp = attrs aux ip' ∧
      (labels (jp.map Prod.snd)).filter (· ≠ 0) = (labels (ip'.map Prod.snd)).filter (· ≠ 0) := by
  intro ip'
  have hlab : (labels (jp.map Prod.snd)).filter (· ≠ 0) =
      (labels (ip'.map Prod.snd)).filter (· ≠ 0) := by
    rw [h2]
    have e : labels ((ip.flatMap (fun x => chainOf f aux x.1.1 x.1.2 x.2)).map untag) =
        labels (ip.flatMap (fun x => chainOf f aux x.1.1 x.1.2 x.2)) :=
      labels_map untag _ (fun _ _ => rfl)
    rw [e]
    clear h1 h2 hip
    induction ip with
    | nil => rfl
    | cons x ip ih =>
      have hc := chainOf_labels f aux x.1.1 x.1.2 x.2
      have ih := ih (labels_map untag _ (fun _ _ => rfl))
      rw [List.flatMap_cons, labels_append, List.filter_append, ih, hc]
      simp only [ip', List.map_cons, labels_cons, ← List.filter_append, List.singleton_append]
  have hsc : pscore jp = pscore ip' := by
    unfold pscore
    rw [h2]
    unfold score
    rw [List.map_map]
    clear h1 h2 hip hlab
    induction ip with
    | nil => rfl
    | cons x ip ih =>
      rw [List.flatMap_cons, List.map_append, List.sum_append, ih]
      simp only [ip', List.map_cons, List.sum_cons]
      congr 1
      exact chainOf_score f aux x.1.1 x.1.2 x.2
  have hfrom : comesFrom (expandArcs f aux).2.1 jp = ip'.map Prod.fst := by
    have := comesFrom_tags (expandTagged f aux).arcs (fun x => x.score.2.1) jp _ h1
    rw [show (expandArcs f aux).2.1 = (expandTagged f aux).arcs.map (fun x => x.score.2.1) from rfl,
      this]
    clear h1 h2 hip hlab hsc this
    induction ip with
    | nil => rfl
    | cons x ip ih =>
      rw [List.flatMap_cons, List.filterMap_append, ih, chainOf_from]
      rfl
  have hsp : spelled aux (expandArcs f aux).2.2 jp = attrs aux ip' := by
    unfold spelled
    have := comesFrom_tags (expandTagged f aux).arcs (fun x => x.score.2.2) jp _ h1
    rw [show (expandArcs f aux).2.2 = (expandTagged f aux).arcs.map (fun x => x.score.2.2) from rfl,
      this]
    have hb : ∀ x ∈ ip, splits f.rows x.1.1 + x.1.2 < aux.length := by
      intro x hx
      have := (rpath_ppath hf ip hip).2.2 _ (List.mem_map.mpr ⟨x, hx, rfl⟩)
      rw [hl]
      exact (List.getElem?_eq_some_iff.mp this).1
    clear h1 h2 hip hlab hsc hfrom this
    induction ip with
    | nil => rfl
    | cons x ip ih =>
      rw [List.flatMap_cons, List.filterMap_append, List.filterMap_append,
        ih (fun y hy => hb y (by simp [hy])),
        chainOf_spelled f aux _ _ _ (hb x (by simp))]
      rfl
  refine ⟨?_, hsc, hfrom, hsp, hlab⟩
  unfold pstring
  rw [strip_filter, hlab, ← strip_filter]

/-! ## The theorems -/

/-- Every accepting path of the result comes from an accepting path of the input: the arc map
lists its arcs, and string, score and the concatenated attribute agree. -/
theorem expand_sound [AddMonoid W] (f : Fsa W) (hf : f.Valid) (aux : List (List Int))
    (hl : aux.length = f.arcs.length) (jp : List (Nat × Arc W))
    (h : PPath (expandArcs f aux).1 jp) :
    ∃ ip, PPath f ip ∧ comesFrom (expandArcs f aux).2.1 jp = ip.map Prod.fst ∧
      pstring jp = pstring ip ∧ pscore jp = pscore ip ∧
      spelled aux (expandArcs f aux).2.2 jp = attrs aux ip := by
  obtain ⟨p, hp, h1, h2⟩ := ppath_tagged (expandTagged f aux) untag (fun _ => rfl) (fun _ => rfl) jp h
  obtain ⟨ip, hip, rfl⟩ := (expand_accepting hf aux p).mp hp
  obtain ⟨e1, e2, e3, e4, _⟩ := expand_facts hf aux hl ip hip jp h1 h2
  exact ⟨_, rpath_ppath hf ip hip, e3, e1, e2, e4⟩

/-- Every accepting path of the input has such an accepting path in the result. -/
theorem expand_complete [AddMonoid W] (f : Fsa W) (hf : f.Valid) (aux : List (List Int))
    (hl : aux.length = f.arcs.length) (ip : List (Nat × Arc W)) (h : PPath f ip) :
    ∃ jp, PPath (expandArcs f aux).1 jp ∧ comesFrom (expandArcs f aux).2.1 jp = ip.map Prod.fst ∧
      pstring jp = pstring ip ∧ pscore jp = pscore ip ∧
      spelled aux (expandArcs f aux).2.2 jp = attrs aux ip := by
  obtain ⟨ip', hip, rfl⟩ := ppath_rpath hf ip h
  obtain ⟨jp, hj, h1, h2⟩ := tagged_ppath (expandTagged f aux) untag (fun _ => rfl)
    (fun _ => rfl) _
    ((expand_accepting hf aux _).mpr ⟨ip', hip, rfl⟩)
  obtain ⟨e1, e2, e3, e4, _⟩ := expand_facts hf aux hl ip' hip jp h1 h2
  exact ⟨jp, hj, e3, e1, e2, e4⟩

theorem toList_map_nodup {α β : Type} (o : Option α) (g : α → β) : (o.toList.map g).Nodup := by
  cases o <;> simp

theorem expandTagged_nodup [Zero W] (f : Fsa W) (aux : List (List Int)) :
    (expandTagged f aux).arcs.Nodup := by
  unfold expandTagged
  simp only
  rw [List.nodup_flatten]
  constructor
  · intro l hl
    obtain ⟨pos, hpos, rfl⟩ := List.mem_mapIdx.mp hl
    cases (ostates f aux)[pos] with
    | orig s =>
      unfold oarcsOf
      apply List.Nodup.of_map (fun x => x.score.2.1)
      rw [List.nodup_iff_getElem?_ne_getElem?]
      intro i j hij hj
      simp only [List.length_map, List.length_mapIdx] at hj
      rw [List.getElem?_map, List.getElem?_map, List.getElem?_mapIdx, List.getElem?_mapIdx,
        List.getElem?_eq_getElem hj, List.getElem?_eq_getElem (Nat.lt_trans hij hj)]
      simp [oarc]
      omega
    | mid s k j =>
      unfold oarcsOf
      exact toList_map_nodup _ _
  · rw [List.pairwise_iff_getElem]
    intro i j hi hj hij x hx hy
    simp only [List.getElem_mapIdx] at hx hy
    have h1 := oarcsOf_src f aux i _ x hx
    have h2 := oarcsOf_src f aux j _ x hy
    omega

theorem positions_unique {V : Type} {T : List (Arc V)} (hT : T.Nodup)
    (jp jp' : List (Nat × Arc W)) (p : List (Arc V))
    (h1 : jp.map (fun x => T[x.1]?) = p.map some) (h2 : jp'.map (fun x => T[x.1]?) = p.map some)
    (h3 : jp.map Prod.snd = jp'.map Prod.snd) : jp = jp' := by
  induction p generalizing jp jp' with
  | nil =>
    rw [List.map_nil, List.map_eq_nil_iff] at h1 h2
    rw [h1, h2]
  | cons z p ih =>
    cases jp with
    | nil => simp at h1
    | cons x jp =>
      cases jp' with
      | nil => simp at h2
      | cons y jp' =>
        simp only [List.map_cons, List.cons.injEq] at h1 h2 h3
        have e : x.1 = y.1 := by
          obtain ⟨hx, _⟩ := List.getElem?_eq_some_iff.mp h1.1
          exact (List.getElem?_inj hx hT).mp (h1.1.trans h2.1.symm)
        rw [ih jp jp' h1.2 h2.2 h3.2, Prod.ext e h3.1]

/-- No two paths of the result come from the same path of the input. -/
theorem expand_injective [AddMonoid W] (f : Fsa W) (hf : f.Valid) (aux : List (List Int))
    (hl : aux.length = f.arcs.length) (jp jp' : List (Nat × Arc W))
    (h : PPath (expandArcs f aux).1 jp) (h' : PPath (expandArcs f aux).1 jp')
    (he : comesFrom (expandArcs f aux).2.1 jp = comesFrom (expandArcs f aux).2.1 jp') :
    jp = jp' := by
  obtain ⟨p, hp, h1, h2⟩ := ppath_tagged (expandTagged f aux) untag (fun _ => rfl) (fun _ => rfl) jp h
  obtain ⟨ip, hip, rfl⟩ := (expand_accepting hf aux p).mp hp
  obtain ⟨_, _, e3, _, _⟩ := expand_facts hf aux hl ip hip jp h1 h2
  obtain ⟨p', hp', h1', h2'⟩ := ppath_tagged (expandTagged f aux) untag (fun _ => rfl)
    (fun _ => rfl) jp' h'
  obtain ⟨ip', hip', rfl⟩ := (expand_accepting hf aux p').mp hp'
  obtain ⟨_, _, e3', _, _⟩ := expand_facts hf aux hl ip' hip' jp' h1' h2'
  rw [e3, e3', List.map_map, List.map_map] at he
  have hip_eq : ip = ip' := by
    have hrow : ∀ x : (Nat × Nat) × Arc W, (row f x.1.1)[x.1.2]? = some x.2 →
        f.rows[x.1.1]? = some (row f x.1.1) ∧ x.1.2 < (row f x.1.1).length := by
      intro x hx
      refine ⟨?_, (List.getElem?_eq_some_iff.mp hx).1⟩
      apply rows_get
      have h3 := hf.src_lt _ (row_mem f _ _ _ hx).1
      rw [(row_mem f _ _ _ hx).2] at h3
      simp only [Fsa.final] at h3; omega
    have key : ∀ ip ip' : List ((Nat × Nat) × Arc W),
        (∀ x ∈ ip, (row f x.1.1)[x.1.2]? = some x.2) →
        (∀ x ∈ ip', (row f x.1.1)[x.1.2]? = some x.2) →
        ip.map (Prod.fst ∘ fun x => (splits f.rows x.1.1 + x.1.2, x.2)) =
          ip'.map (Prod.fst ∘ fun x => (splits f.rows x.1.1 + x.1.2, x.2)) → ip = ip' := by
      intro ip
      induction ip with
      | nil => intro ip' _ _ e; symm; simpa using e.symm
      | cons x ip ih =>
        intro ip' a1 a2 e
        cases ip' with
        | nil => simp at e
        | cons y ip' =>
          simp only [List.map_cons, List.cons.injEq, Function.comp_apply] at e
          have hx := a1 x (by simp)
          have hy := a2 y (by simp)
          obtain ⟨b1, b2⟩ := hrow x hx
          obtain ⟨c1, c2⟩ := hrow y hy
          obtain ⟨d1, d2⟩ := flatten_pos_unique f.rows b1 c1 b2 c2 e.1
          have hxy : x = y := by
            obtain ⟨⟨xs, xk⟩, xa⟩ := x
            obtain ⟨⟨ys, yk⟩, ya⟩ := y
            simp only at d1 d2 hx hy
            subst d1 d2
            rw [hx] at hy
            obtain rfl := Option.some.inj hy
            rfl
          rw [hxy, ih ip' (fun z hz => a1 z (by simp [hz])) (fun z hz => a2 z (by simp [hz])) e.2]
    exact key ip ip' (fun x hx => (hip.2 x hx).2) (fun x hx => (hip'.2 x hx).2) he
  subst hip_eq
  exact positions_unique (expandTagged_nodup f aux) jp jp' _ h1 h1' (h2.trans h2'.symm)

/-- Strings and scores are unchanged. -/
theorem expand_accepts [AddMonoid W] (f : Fsa W) (hf : f.Valid) (aux : List (List Int))
    (hl : aux.length = f.arcs.length) (s : List Int) (w : W) :
    Accepts (expandArcs f aux).1 s w ↔ Accepts f s w := by
  have key : ∀ g : Fsa W, Accepts g s w ↔ ∃ ip, PPath g ip ∧ pstring ip = s ∧ pscore ip = w := by
    intro g
    constructor
    · rintro ⟨p, hp, h1, h2⟩
      obtain ⟨jp, hj, _, h4⟩ := tagged_ppath g id (fun _ => rfl) (fun _ => rfl) p hp
      rw [List.map_id] at h4 hj
      exact ⟨jp, hj, by rw [pstring, h4]; exact h1, by rw [pscore, h4]; exact h2⟩
    · rintro ⟨ip, ⟨h1, h2, h3⟩, h4, h5⟩
      refine ⟨ip.map Prod.snd, ⟨h1, h2, ?_⟩, h4, h5⟩
      intro a ha
      obtain ⟨x, hx, rfl⟩ := List.mem_map.mp ha
      exact List.mem_iff_getElem?.mpr ⟨_, h3 x hx⟩
  rw [key, key]
  constructor
  · rintro ⟨jp, hj, rfl, rfl⟩
    obtain ⟨ip, hi, _, h1, h2, _⟩ := expand_sound f hf aux hl jp hj
    exact ⟨ip, hi, h1.symm, h2.symm⟩
  · rintro ⟨ip, hi, rfl, rfl⟩
    obtain ⟨jp, hj, _, h1, h2, _⟩ := expand_complete f hf aux hl ip hi
    exact ⟨jp, hj, h1, h2⟩

/-- The result is a valid FSA. -/
theorem expand_valid [Zero W] (f : Fsa W) (hf : f.Valid) (aux : List (List Int)) :
    (expandArcs f aux).1.Valid := by
  have h2 := hf.two
  obtain ⟨hfin, hn⟩ := expand_final hf aux
  have hfl : f.final < f.numStates := by simp only [Fsa.final]; omega
  have hlt : ∀ pos o, (ostates f aux)[pos]? = some o → pos < (ostates f aux).length :=
    fun pos o h => (List.getElem?_eq_some_iff.mp h).1
  -- every arc of the result, by the state it leaves
  have hmem : ∀ b ∈ (expandArcs f aux).1.arcs, ∃ s k a q, s < f.numStates ∧
      (row f s)[k]? = some a ∧ (q = 0 ∨ q < labelsLen f aux s k) ∧
      b = untag (entry f aux s k a q) := by
    intro b hb
    obtain ⟨x, hx, rfl⟩ := List.mem_map.mp hb
    obtain ⟨pos, o, ho, hx⟩ := (expand_mem f aux x).mp hx
    rcases ostates_cases f aux pos o ho with ⟨s, hs, rfl, rfl⟩ | ⟨s, k, q, hs, hk, hq, rfl, rfl⟩
    · obtain ⟨k, hk, rfl⟩ := List.mem_mapIdx.mp hx
      exact ⟨s, k, _, 0, hs, List.getElem?_eq_getElem hk, Or.inl rfl, rfl⟩
    · have ha := List.getElem?_eq_getElem hk
      simp only [oarcsOf, ha, Option.toList_some, List.map_cons, List.map_nil,
        List.mem_singleton] at hx
      subst hx
      refine ⟨s, k, _, q + 1, hs, ha, Or.inr (by omega), ?_⟩
      unfold entry
      rw [if_neg (by omega), Nat.add_sub_cancel]
  have hlast : (ostates f aux).length = origNum f aux f.final + 1 := by
    have h3 := hfin
    have h4 := hn
    simp only [Fsa.final, expandTagged] at h3 h4 ⊢
    omega
  refine ⟨?_, ?_, ?_, ?_, ?_⟩
  · show 2 ≤ (expandTagged f aux).numStates
    omega
  · show ((expandTagged f aux).arcs.map untag).Pairwise (fun a b => a.src ≤ b.src)
    rw [List.pairwise_map]
    unfold expandTagged
    simp only
    rw [List.pairwise_flatten]
    constructor
    · intro l hl
      obtain ⟨pos, hpos, rfl⟩ := List.mem_mapIdx.mp hl
      rw [List.pairwise_iff_forall_sublist]
      intro a b hab
      have h5 := oarcsOf_src f aux pos _ a (hab.subset (by simp))
      have h6 := oarcsOf_src f aux pos _ b (hab.subset (by simp))
      simp only [untag]; omega
    · rw [List.pairwise_iff_getElem]
      intro i j hi hj hij x hx y hy
      simp only [List.getElem_mapIdx] at hx hy
      have h5 := oarcsOf_src f aux i _ x hx
      have h6 := oarcsOf_src f aux j _ y hy
      simp only [untag]; omega
  · intro b hb
    obtain ⟨s, k, a, q, hs, ha, hq, rfl⟩ := hmem b hb
    show (entry f aux s k a q).src < (expandTagged f aux).final
    rw [hfin]
    have hk := (List.getElem?_eq_some_iff.mp ha).1
    by_cases h0 : q = 0
    · subst h0
      show origNum f aux s < _
      have h5 := hlt _ _ (ostates_orig f aux s hs)
      have hne : origNum f aux s ≠ origNum f aux f.final := by
        intro h
        have := origNum_inj f aux s f.final hs hfl h
        have h6 := hf.src_lt a (row_mem f s k a ha).1
        rw [(row_mem f s k a ha).2] at h6
        omega
      omega
    · have hq' : q - 1 < labelsLen f aux s k - 1 := by omega
      have h5 := hlt _ _ (ostates_mid f aux s k (q - 1) hs hk hq')
      have hne := mid_ne_orig f aux s k (q - 1) f.final hs hk hq' hfl
      unfold entry oarc
      simp only
      rw [if_neg h0]
      omega
  · intro b hb
    obtain ⟨s, k, a, q, hs, ha, hq, rfl⟩ := hmem b hb
    have hk := (List.getElem?_eq_some_iff.mp ha).1
    show (entry f aux s k a q).dst < (ostates f aux).length
    unfold entry oarc
    simp only
    by_cases h0 : q + 1 ≥ labelsLen f aux s k
    · rw [if_pos h0]
      exact hlt _ _ (ostates_orig f aux a.dst (hf.dst_lt a (row_mem f s k a ha).1))
    · rw [if_neg h0]
      exact hlt _ _ (ostates_mid f aux s k q hs hk (by omega))
  · intro b hb
    obtain ⟨s, k, a, q, hs, ha, hq, rfl⟩ := hmem b hb
    have hk := (List.getElem?_eq_some_iff.mp ha).1
    show (entry f aux s k a q).label = -1 ↔ (entry f aux s k a q).dst = (expandTagged f aux).final
    rw [hfin]
    have hfi := hf.final_iff a (row_mem f s k a ha).1
    unfold entry oarc
    simp only
    by_cases h0 : q + 1 ≥ labelsLen f aux s k
    · simp only [if_pos h0]
      have hd := hf.dst_lt a (row_mem f s k a ha).1
      by_cases hl : a.label = -1
      · rw [if_neg (by simpa using hl), hfi.mp hl]
        simp
      · rw [if_pos hl]
        have hne : origNum f aux a.dst ≠ origNum f aux f.final := fun h =>
          hl (hfi.mpr (origNum_inj f aux _ _ hd hfl h))
        refine iff_of_false ?_ hne
        split <;> omega
    · simp only [if_neg h0]
      have hne := mid_ne_orig f aux s k q f.final hs hk (by omega) hfl
      refine iff_of_false ?_ hne
      by_cases hl : a.label = -1
      · rw [if_neg (by simpa using hl)]; omega
      · rw [if_pos hl]
        split <;> omega

/-! ## A concrete case: labels [10, 11, 12] on the first arc, none on the second, [7, -1] on the
last -/

def expandExample : Fsa Int := ⟨3, [⟨0, 1, 5, 1⟩, ⟨0, 1, 6, 2⟩, ⟨1, 2, -1, 4⟩]⟩
def expandExampleAux : List (List Int) := [[10, 11, 12], [], [7, -1]]

theorem expandExample_valid : expandExample.Valid := by
  refine ⟨by decide, ?_, ?_, ?_, ?_⟩
  · unfold Fsa.Sorted; decide
  all_goals intro a ha; fin_cases ha <;> decide

example : expandArcs expandExample expandExampleAux =
    (⟨6, [⟨0, 1, 5, 1⟩, ⟨0, 3, 6, 2⟩, ⟨1, 2, 0, 0⟩, ⟨2, 3, 0, 0⟩, ⟨3, 4, 0, 4⟩, ⟨4, 5, -1, 0⟩]⟩,
      [0, 1, -1, -1, 2, -1], [0, -1, 1, 2, 3, 4]) := by decide +kernel

example : PPath expandExample [(0, ⟨0, 1, 5, 1⟩), (2, ⟨1, 2, -1, 4⟩)] := by
  refine ⟨by decide, by simp [expandExample, Fsa.final], ?_⟩
  intro x hx; fin_cases hx <;> decide

end Verif.Fsa
