import Mathlib.Algebra.Order.Group.Int
import Verif.Fsa.RmEps.DevClosure
import Verif.Fsa.RmEps.Props

/-!
# C35: `remove_epsilon` with `RemoveEpsilonDevice`
-/

namespace Verif.Fsa.Rmd
open Verif.Fsa.Det (Names labels_append path_snoc score_app score_snoc)
open Verif.Fsa.Rme (EpsOnly noEps_append noEps_eps noEps_single)
variable {W : Type}

/-! ## Renumbering -/

theorem renum_lt {keep : Nat → Bool} {s t : Nat} (hs : keep s = true) (h : s < t) :
    renum keep s < renum keep t := by
  unfold renum
  obtain ⟨k, rfl⟩ : ∃ k, t = s + 1 + k := ⟨t - (s + 1), by omega⟩
  induction k with
  | zero =>
    rw [Nat.add_zero, List.range_succ, List.countP_append]
    simp [hs]
  | succ k ih =>
    have := ih (by omega)
    rw [show s + 1 + (k + 1) = (s + 1 + k) + 1 by omega, List.range_succ, List.countP_append]
    omega

theorem renum_inj {keep : Nat → Bool} {s t : Nat} (hs : keep s = true) (ht : keep t = true)
    (h : renum keep s = renum keep t) : s = t := by
  rcases Nat.lt_trichotomy s t with h1 | h1 | h1
  · have := renum_lt hs h1
    omega
  · exact h1
  · have := renum_lt ht h1
    omega

theorem keptList_length (keep : Nat → Bool) (n : Nat) : (keptList keep n).length = renum keep n := by
  rw [keptList, renum, List.countP_eq_length_filter]

theorem keptList_get {keep : Nat → Bool} {n t : Nat} (ht : keep t = true) (h : t < n) :
    (keptList keep n)[renum keep t]? = some t := by
  obtain ⟨k, rfl⟩ : ∃ k, n = (t + 1) + k := ⟨n - (t + 1), by omega⟩
  rw [keptList, List.range_add, List.range_succ, List.filter_append, List.filter_append,
    List.append_assoc, renum, List.countP_eq_length_filter, List.getElem?_append_right (le_refl _)]
  simp [ht]

theorem subsetStates_eq (sel : Arc W → Bool) (f : Fsa W) :
    subsetStates sel f = renum (stateKeep sel f) f.numStates := keptList_length ..

theorem keep_src {sel : Arc W → Bool} {f : Fsa W} {a : Arc W} (ha : a ∈ f.arcs) (hs : sel a = true) :
    stateKeep sel f a.src = true := by
  unfold stateKeep
  rw [Bool.or_eq_true, List.any_eq_true]
  exact Or.inl ⟨a, ha, by simp [hs]⟩

theorem keep_dst {sel : Arc W → Bool} {f : Fsa W} {a : Arc W} (ha : a ∈ f.arcs) (hs : sel a = true) :
    stateKeep sel f a.dst = true := by
  unfold stateKeep
  rw [Bool.or_eq_true, List.any_eq_true]
  exact Or.inl ⟨a, ha, by simp [hs]⟩

theorem keep_start {sel : Arc W → Bool} {f : Fsa W} (h : f.arcs ≠ []) : stateKeep sel f 0 = true := by
  simp [stateKeep, h]

theorem keep_final {sel : Arc W → Bool} {f : Fsa W} (h : f.arcs ≠ []) :
    stateKeep sel f f.final = true := by
  simp [stateKeep, h]

theorem mem_subset (sel : Arc W → Bool) (f : Fsa W) (x : Item W) :
    x ∈ subset sel f ↔ ∃ i a, f.arcs[i]? = some a ∧ sel a = true ∧
      x = (⟨renum (stateKeep sel f) a.src, renum (stateKeep sel f) a.dst, a.label, a.score⟩, [i]) := by
  unfold subset
  rw [List.mem_map]
  constructor
  · rintro ⟨⟨a, i⟩, h, rfl⟩
    rw [List.mem_filter, List.mem_zipIdx_iff_getElem?] at h
    exact ⟨i, a, h.1, h.2, rfl⟩
  · rintro ⟨i, a, h1, h2, rfl⟩
    exact ⟨(a, i), List.mem_filter.2 ⟨List.mem_zipIdx_iff_getElem?.2 h1, h2⟩, rfl⟩

/-- The states of the epsilon subset. -/
abbrev eK (f : Fsa W) : Nat → Bool := stateKeep isEps f

/-- The states of the result. -/
abbrev nK (f : Fsa W) : Nat → Bool := stateKeep isNonEps f

variable [AddCommGroup W] [LinearOrder W] [IsOrderedAddMonoid W]

/-! ## The closure in terms of the source -/

/-- An epsilon path of the source, with states numbered as in the epsilon subset. -/
def EpsPath (f : Fsa W) (s t : Nat) (w : W) (m : List Nat) : Prop :=
  ∃ s' t' p, Names f.arcs m p ∧ Path f.arcs s' p t' ∧ EpsOnly p ∧ p ≠ [] ∧ eK f s' = true ∧
    eK f t' = true ∧ s' < f.numStates ∧ t' < f.numStates ∧ s = renum (eK f) s' ∧ t = renum (eK f) t' ∧
    score p = w

theorem joins_epsPath (f : Fsa W) : Joins (EpsPath f) := by
  rintro s t r w v m m' ⟨s', t', p, h1, h2, h3, h4, h5, h6, h7, h8, h9, h10, h11⟩
    ⟨t2, r', q, g1, g2, g3, g4, g5, g6, g7, g8, g9, g10, g11⟩
  have : t' = t2 := renum_inj h6 g5 (by rw [← h10, ← g9])
  subst this
  refine ⟨s', r', p ++ q, h1.append g1, (path_append ..).2 ⟨t', h2, g2⟩, ?_, by simp [h4], h5, g6, h7,
    g8, h9, g10, by rw [score_app, h11, g11]⟩
  intro a ha
  rcases List.mem_append.1 ha with h | h
  · exact h3 a h
  · exact g3 a h

omit [LinearOrder W] [IsOrderedAddMonoid W] in
theorem src_lt_num {f : Fsa W} (hv : f.Valid) {a : Arc W} (ha : a ∈ f.arcs) : a.src < f.numStates := by
  have h1 := hv.src_lt a ha
  have h2 := hv.two
  rw [Fsa.final] at h1
  omega

theorem sem_subset {f : Fsa W} (hv : f.Valid) : Sem (EpsPath f) (subset isEps f) := by
  intro x hx
  obtain ⟨i, a, h1, h2, rfl⟩ := (mem_subset ..).1 hx
  have ha := List.mem_of_getElem? h1
  have hl : a.label = 0 := by simpa [isEps] using h2
  refine ⟨hl, a.src, a.dst, [a], Names.single h1, ?_, ?_, by simp, keep_src ha h2, keep_dst ha h2,
    src_lt_num hv ha, hv.dst_lt a ha, rfl, rfl, by simp [score]⟩
  · exact (path_cons ..).2 ⟨ha, rfl, (path_nil ..).2 rfl⟩
  · intro b hb
    cases List.mem_singleton.1 hb
    exact hl

/-- The paths of the epsilon subset are epsilon paths of the source. -/
theorem epsPath_of_path {f : Fsa W} (hv : f.Valid) (q : List (Arc W)) : ∀ s t, q ≠ [] →
    Path ((subset isEps f).map Prod.fst) s q t → ∃ m, EpsPath f s t (score q) m := by
  induction q using List.reverseRecOn with
  | nil => intro s t h; exact absurd rfl h
  | append_singleton q b ih =>
    intro s t _ hp
    rw [path_snoc] at hp
    obtain ⟨x, hx, hxb⟩ := List.mem_map.1 hp.2.1
    have h1 := (sem_subset hv x hx).2
    rw [hxb, hp.2.2] at h1
    by_cases hq : q = []
    · subst hq
      have hs : s = b.src := (path_nil ..).1 hp.1
      refine ⟨x.2, ?_⟩
      rw [hs]
      simpa [score] using h1
    · obtain ⟨m, h2⟩ := ih s b.src hq hp.1
      refine ⟨m ++ x.2, ?_⟩
      rw [score_snoc]
      exact joins_epsPath f _ _ _ _ _ _ _ h2 h1

/-- Epsilon paths of the source are paths of the epsilon subset. -/
theorem path_of_epsPath (f : Fsa W) (p : List (Arc W)) : ∀ s t, Path f.arcs s p t → EpsOnly p →
    ∃ q, Path ((subset isEps f).map Prod.fst) (renum (eK f) s) q (renum (eK f) t) ∧
      score q = score p := by
  induction p with
  | nil =>
    intro s t hp _
    rw [path_nil] at hp
    subst hp
    exact ⟨[], (path_nil ..).2 rfl, rfl⟩
  | cons a p ih =>
    intro s t hp he
    rw [path_cons] at hp
    obtain ⟨ha, rfl, hp⟩ := hp
    obtain ⟨q, h1, h2⟩ := ih a.dst t hp (fun b hb => he b (by simp [hb]))
    obtain ⟨i, hi⟩ := List.mem_iff_getElem?.1 ha
    refine ⟨⟨renum (eK f) a.src, renum (eK f) a.dst, a.label, a.score⟩ :: q, ?_, ?_⟩
    · rw [path_cons]
      refine ⟨List.mem_map.2 ⟨_, (mem_subset ..).2 ⟨i, a, hi, ?_, rfl⟩, rfl⟩, rfl, h1⟩
      have := he a (by simp)
      simp [isEps, this]
    · have e1 : score (a :: p) = a.score + score p := rfl
      rw [e1, ← h2]
      rfl

omit [AddCommGroup W] [LinearOrder W] [IsOrderedAddMonoid W] in
theorem eK_of_path {f : Fsa W} {p : List (Arc W)} {s t : Nat} (hp : Path f.arcs s p t)
    (he : EpsOnly p) (hne : p ≠ []) : eK f s = true ∧ eK f t = true ∧
      (∃ a ∈ f.arcs, a.label = 0 ∧ a.src = s) ∧ ∃ a ∈ f.arcs, a.label = 0 ∧ a.dst = t := by
  have h1 : ∃ a ∈ f.arcs, a.label = 0 ∧ a.src = s := by
    cases p with
    | nil => exact absurd rfl hne
    | cons a p =>
      rw [path_cons] at hp
      exact ⟨a, hp.1, he a (by simp), hp.2.1⟩
  have h2 : ∃ a ∈ f.arcs, a.label = 0 ∧ a.dst = t := by
    rcases List.eq_nil_or_concat p with rfl | ⟨q, a, rfl⟩
    · exact absurd rfl hne
    · rw [List.concat_eq_append] at hp he
      rw [path_snoc] at hp
      exact ⟨a, hp.2.1, he a (by simp), hp.2.2⟩
  obtain ⟨a, ha, h3, h4⟩ := h1
  obtain ⟨b, hb, h5, h6⟩ := h2
  refine ⟨?_, ?_, ⟨a, ha, h3, h4⟩, ⟨b, hb, h5, h6⟩⟩
  · rw [← h4]
    exact keep_src ha (by simp [isEps, h3])
  · rw [← h6]
    exact keep_dst hb (by simp [isEps, h5])

/-! ## The closure with the states of the result -/

omit [IsOrderedAddMonoid W] [AddCommGroup W] in
theorem toNonEps_eq {f : Fsa W} {t : Nat} (ht : eK f t = true) (h : t < f.numStates) :
    toNonEps f (renum (eK f) t) = if nK f t then some (renum (nK f) t) else none := by
  unfold toNonEps
  rw [keptList_get ht h]

omit [IsOrderedAddMonoid W] [AddCommGroup W] in
theorem mem_mapStates (m : Nat → Option Nat) (n : Nat) (l : List (Item W)) (z : Item W) :
    z ∈ mapStates m n l ↔ ∃ x ∈ l, ∃ s t, m x.1.src = some s ∧ m x.1.dst = some t ∧ s < n ∧
      z = (⟨s, t, x.1.label, x.1.score⟩, x.2) := by
  unfold mapStates
  rw [List.mem_flatMap]
  constructor
  · rintro ⟨s, hs, hz⟩
    rw [mem_row, List.mem_filterMap] at hz
    obtain ⟨⟨x, hx, he⟩, h2⟩ := hz
    split at he
    · rename_i a b ha hb
      cases he
      simp only at h2
      subst h2
      exact ⟨x, hx, a, b, ha, hb, List.mem_range.1 hs, rfl⟩
    · cases he
  · rintro ⟨x, hx, s, t, h1, h2, h3, rfl⟩
    refine ⟨s, List.mem_range.2 h3, (mem_row ..).2 ⟨List.mem_filterMap.2 ⟨x, hx, ?_⟩, rfl⟩⟩
    rw [h1, h2]

/-- A path of the source between states of the result that makes an item. -/
def Stands (f : Fsa W) (z : Item W) (s t : Nat) (p : List (Arc W)) : Prop :=
  Names f.arcs z.2 p ∧ Path f.arcs s p t ∧ p ≠ [] ∧ nK f s = true ∧ nK f t = true ∧ s < f.numStates ∧
    t < f.numStates ∧ z.1.src = renum (nK f) s ∧ z.1.dst = renum (nK f) t ∧ score p = z.1.score

/-- An item of `epsilon_closure_mapped`. -/
def EpsItem (f : Fsa W) (z : Item W) : Prop := ∃ s t p, Stands f z s t p ∧ EpsOnly p

/-- An item of the result. -/
def OutItem (f : Fsa W) (z : Item W) : Prop :=
  ∃ s t p, Stands f z s t p ∧ noEps (labels p) = [z.1.label] ∧ z.1.label ≠ 0 ∧
    (z.1.label = -1 ↔ t = f.final)

omit [LinearOrder W] [IsOrderedAddMonoid W] in
theorem Stands.join {f : Fsa W} {x y z : Item W} {s t t2 r : Nat} {p q : List (Arc W)}
    (h : Stands f x s t p) (h2 : Stands f y t2 r q) (he : y.1.src = x.1.dst) (hs : z.1.src = x.1.src)
    (hd : z.1.dst = y.1.dst) (hw : z.1.score = x.1.score + y.1.score) (hm : z.2 = x.2 ++ y.2) :
    t = t2 ∧ Stands f z s r (p ++ q) := by
  obtain ⟨h1, h2', h3, h4, h5, h6, h7, h8, h9, h10⟩ := h
  obtain ⟨g1, g2, g3, g4, g5, g6, g7, g8, g9, g10⟩ := h2
  have : t = t2 := renum_inj h5 g4 (by rw [← h9, ← g8, he])
  subst this
  refine ⟨rfl, ?_, (path_append ..).2 ⟨t, h2', g2⟩, by simp [h3], h4, g5, h6, g7, by rw [hs, h8],
    by rw [hd, g9], ?_⟩
  · rw [hm]
    exact h1.append g1
  · rw [hw, ← h10, ← g10]
    simp [score]

omit [IsOrderedAddMonoid W] in
theorem mapped_sound {f : Fsa W} {c : List (Item W)} (hc : Sem (EpsPath f) c) {n : Nat} (z : Item W)
    (hz : z ∈ mapStates (toNonEps f) n c) : EpsItem f z := by
  obtain ⟨x, hx, s, t, h1, h2, _, rfl⟩ := (mem_mapStates ..).1 hz
  obtain ⟨_, s', t', p, g1, g2, g3, g4, g5, g6, g7, g8, g9, g10, g11⟩ := hc x hx
  rw [g9, toNonEps_eq g5 g7] at h1
  rw [g10, toNonEps_eq g6 g8] at h2
  split at h1
  · rename_i k1
    split at h2
    · rename_i k2
      cases h1
      cases h2
      exact ⟨s', t', p, ⟨g1, g2, g4, k1, k2, g7, g8, rfl, rfl, g11⟩, g3⟩
    · cases h2
  · cases h1

theorem mapped_complete {f : Fsa W} (hv : f.Valid) {c : List (Item W)}
    (hc : ∀ s t p, s ≠ t → Path ((subset isEps f).map Prod.fst) s p t →
        ∃ x ∈ c, x.1.src = s ∧ x.1.dst = t ∧ score p ≤ x.1.score)
    {s t : Nat} {p : List (Arc W)} (hp : Path f.arcs s p t) (he : EpsOnly p) (hst : s ≠ t)
    (hs : nK f s = true) (ht : nK f t = true) :
    ∃ z ∈ mapStates (toNonEps f) (subsetStates isNonEps f) c, z.1.src = renum (nK f) s ∧
      z.1.dst = renum (nK f) t ∧ score p ≤ z.1.score := by
  have hne : p ≠ [] := by
    rintro rfl
    exact hst ((path_nil ..).1 hp)
  obtain ⟨k1, k2, ⟨a, ha, _, has⟩, ⟨b, hb, _, hbt⟩⟩ := eK_of_path hp he hne
  have hsn : s < f.numStates := by rw [← has]; exact src_lt_num hv ha
  have htn : t < f.numStates := by rw [← hbt]; exact hv.dst_lt b hb
  obtain ⟨q, h1, h2⟩ := path_of_epsPath f p s t hp he
  obtain ⟨x, hx, e1, e2, e3⟩ := hc _ _ q (fun h => hst (renum_inj k1 k2 h)) h1
  refine ⟨(⟨renum (nK f) s, renum (nK f) t, x.1.label, x.1.score⟩, x.2),
    (mem_mapStates ..).2 ⟨x, hx, _, _, ?_, ?_, ?_, rfl⟩, rfl, rfl, by rw [← h2]; exact e3⟩
  · rw [e1, toNonEps_eq k1 hsn, if_pos hs]
  · rw [e2, toNonEps_eq k2 htn, if_pos ht]
  · rw [subsetStates_eq]
    exact renum_lt hs hsn

/-! ## Combinations -/

omit [IsOrderedAddMonoid W] in
theorem mem_following (eps non : List (Item W)) (z : Item W) :
    z ∈ combineFollowing eps non ↔ ∃ e ∈ eps, withFollowing non e = true ∧ ∃ a ∈ non,
      a.1.src = e.1.dst ∧ z = (⟨e.1.src, a.1.dst, a.1.label, e.1.score + a.1.score⟩, e.2 ++ a.2) := by
  unfold combineFollowing
  rw [List.mem_flatMap]
  constructor
  · rintro ⟨e, he, hz⟩
    split at hz
    · rename_i h
      obtain ⟨a, ha, rfl⟩ := List.mem_map.1 hz
      rw [mem_row] at ha
      exact ⟨e, he, h, a, ha.1, ha.2, rfl⟩
    · simp at hz
  · rintro ⟨e, he, h, a, ha, hs, rfl⟩
    refine ⟨e, he, ?_⟩
    rw [if_pos h]
    exact List.mem_map.2 ⟨a, (mem_row ..).2 ⟨ha, hs⟩, rfl⟩

omit [IsOrderedAddMonoid W] [LinearOrder W] in
theorem mem_preceding (prec non : List (Item W)) (z : Item W) :
    z ∈ combinePreceding prec non ↔ ∃ a ∈ non, ∃ e ∈ prec, e.1.src = a.1.dst ∧
      z = (⟨a.1.src, e.1.dst, a.1.label, a.1.score + e.1.score⟩, a.2 ++ e.2) := by
  unfold combinePreceding
  rw [List.mem_flatMap]
  constructor
  · rintro ⟨a, ha, hz⟩
    obtain ⟨e, he, rfl⟩ := List.mem_map.1 hz
    rw [mem_row] at he
    exact ⟨a, ha, e, he.1, he.2, rfl⟩
  · rintro ⟨a, ha, e, he, hs, rfl⟩
    exact ⟨a, ha, List.mem_map.2 ⟨e, (mem_row ..).2 ⟨he, hs⟩, rfl⟩⟩

/-- The epsilon arcs that are combined with preceding arcs. -/
abbrev precOf (eps non : List (Item W)) : List (Item W) := eps.filter (fun e => !withFollowing non e)

omit [IsOrderedAddMonoid W] in
theorem mem_combine (n : Nat) (eps non : List (Item W)) (z : Item W) :
    z ∈ combine n eps non ↔ z.1.src < n ∧ (z ∈ combineFollowing eps non ∨
      z ∈ combinePreceding (precOf eps non) non ∨
      z ∈ combinePreceding (precOf eps non) (combineFollowing eps non) ∨ z ∈ non) := by
  have h1 : ∀ rows : List (List (Item W)),
      z ∈ (rows.map fun r => r.mergeSort (fun a b => !itemLt b a)).flatten ↔ z ∈ rows.flatten := by
    intro rows
    simp [List.mem_flatten]
  unfold combine
  simp only
  have h2 : z ∈ ((List.range n).map fun s => row (combineFollowing eps non) s ++
        row (combinePreceding (precOf eps non) non) s ++
        row (combinePreceding (precOf eps non) (combineFollowing eps non)) s ++
        row non s).flatten ↔ z.1.src < n ∧ (z ∈ combineFollowing eps non ∨
      z ∈ combinePreceding (precOf eps non) non ∨
      z ∈ combinePreceding (precOf eps non) (combineFollowing eps non) ∨ z ∈ non) := by
    rw [List.mem_flatten]
    constructor
    · rintro ⟨r, hr, hz⟩
      obtain ⟨s, hs, rfl⟩ := List.mem_map.1 hr
      simp only [List.mem_append, mem_row] at hz
      have := List.mem_range.1 hs
      rcases hz with ((h | h) | h) | h
      · exact ⟨by rw [h.2]; exact this, Or.inl h.1⟩
      · exact ⟨by rw [h.2]; exact this, Or.inr (Or.inl h.1)⟩
      · exact ⟨by rw [h.2]; exact this, Or.inr (Or.inr (Or.inl h.1))⟩
      · exact ⟨by rw [h.2]; exact this, Or.inr (Or.inr (Or.inr h.1))⟩
    · rintro ⟨hn, h⟩
      refine ⟨_, List.mem_map.2 ⟨z.1.src, List.mem_range.2 hn, rfl⟩, ?_⟩
      simp only [List.mem_append, mem_row]
      rcases h with h | h | h | h
      · exact Or.inl (Or.inl (Or.inl ⟨h, trivial⟩))
      · exact Or.inl (Or.inl (Or.inr ⟨h, trivial⟩))
      · exact Or.inl (Or.inr ⟨h, trivial⟩)
      · exact Or.inr ⟨h, trivial⟩
  split
  · exact h2
  · rw [h1]
    exact h2

omit [IsOrderedAddMonoid W] in
theorem combine_sorted (n : Nat) (eps non : List (Item W)) :
    ((combine n eps non).map Prod.fst).Pairwise (fun a b => a.src ≤ b.src) := by
  have key : ∀ (g : Nat → List (Item W)), (∀ s, ∀ z ∈ g s, z.1.src = s) →
      (((List.range n).map g).flatten.map Prod.fst).Pairwise (fun a b => a.src ≤ b.src) := by
    intro g hg
    rw [List.pairwise_map, List.pairwise_flatten]
    constructor
    · intro r hr
      obtain ⟨s, _, rfl⟩ := List.mem_map.1 hr
      refine List.Pairwise.imp_of_mem (R := fun _ _ => True) ?_
        (List.pairwise_of_forall fun _ _ => trivial)
      intro x y hx hy _
      rw [hg s x hx, hg s y hy]
    · rw [List.pairwise_map]
      refine List.pairwise_lt_range.imp ?_
      intro s t hst x hx y hy
      rw [hg s x hx, hg t y hy]
      exact le_of_lt hst
  have hrow : ∀ s, ∀ z ∈ row (combineFollowing eps non) s ++
        row (combinePreceding (precOf eps non) non) s ++
        row (combinePreceding (precOf eps non) (combineFollowing eps non)) s ++ row non s,
        z.1.src = s := by
    intro s z hz
    simp only [List.mem_append, mem_row] at hz
    rcases hz with ((h | h) | h) | h <;> exact h.2
  unfold combine
  simp only
  split
  · exact key _ hrow
  · rw [List.map_map]
    refine key _ ?_
    intro s z hz
    exact hrow s z (List.mem_mergeSort.1 hz)

theorem non_sound {f : Fsa W} (hv : f.Valid) {z : Item W} (hz : z ∈ subset isNonEps f) :
    OutItem f z := by
  obtain ⟨i, a, h1, h2, rfl⟩ := (mem_subset ..).1 hz
  have ha := List.mem_of_getElem? h1
  have hl : a.label ≠ 0 := by simpa [isNonEps] using h2
  refine ⟨a.src, a.dst, [a], ⟨Names.single h1, ?_, by simp, keep_src ha h2, keep_dst ha h2,
    src_lt_num hv ha, hv.dst_lt a ha, rfl, rfl, by simp [score]⟩, noEps_single hl, hl,
    hv.final_iff a ha⟩
  exact (path_cons ..).2 ⟨ha, rfl, (path_nil ..).2 rfl⟩

omit [LinearOrder W] [IsOrderedAddMonoid W] in
/-- No epsilon path begins or ends in the final state. -/
theorem eps_not_final {f : Fsa W} (hv : f.Valid) {z : Item W} {s t : Nat} {p : List (Arc W)}
    (h : Stands f z s t p) (he : EpsOnly p) : s ≠ f.final ∧ t ≠ f.final := by
  obtain ⟨_, _, ⟨a, ha, _, has⟩, ⟨b, hb, hl, hbt⟩⟩ := eK_of_path h.2.1 he h.2.2.1
  constructor
  · rintro rfl
    have := hv.src_lt a ha
    omega
  · rintro rfl
    have := (hv.final_iff b hb).2 hbt
    omega

theorem following_sound {f : Fsa W} {eps : List (Item W)} (heps : ∀ e ∈ eps, EpsItem f e)
    {non : List (Item W)} (hnon : ∀ a ∈ non, OutItem f a) (z : Item W)
    (hz : z ∈ combineFollowing eps non) : OutItem f z := by
  obtain ⟨e, he, _, a, ha, hs, rfl⟩ := (mem_following ..).1 hz
  obtain ⟨s, t, p, h1, h2⟩ := heps e he
  obtain ⟨t2, r, q, g1, g2, g3, g4⟩ := hnon a ha
  obtain ⟨rfl, h3⟩ := h1.join g1 hs (z := (⟨e.1.src, a.1.dst, a.1.label, e.1.score + a.1.score⟩,
    e.2 ++ a.2)) rfl rfl rfl rfl
  refine ⟨s, r, p ++ q, h3, ?_, g3, g4⟩
  rw [labels_append, noEps_append, noEps_eps h2, g2]
  rfl

theorem preceding_sound {f : Fsa W} (hv : f.Valid) {eps : List (Item W)}
    (heps : ∀ e ∈ eps, EpsItem f e) {non : List (Item W)} (hnon : ∀ a ∈ non, OutItem f a) (z : Item W)
    (hz : z ∈ combinePreceding eps non) : OutItem f z := by
  obtain ⟨a, ha, e, he, hs, rfl⟩ := (mem_preceding ..).1 hz
  obtain ⟨s, t, p, h1, h2⟩ := heps e he
  obtain ⟨t2, r, q, g1, g2, g3, g4⟩ := hnon a ha
  obtain ⟨rfl, h3⟩ := g1.join h1 hs (z := (⟨a.1.src, e.1.dst, a.1.label, a.1.score + e.1.score⟩,
    a.2 ++ e.2)) rfl rfl rfl rfl
  obtain ⟨n1, n2⟩ := eps_not_final hv h1 h2
  refine ⟨t2, t, q ++ p, h3, ?_, g3, ?_⟩
  · rw [labels_append, noEps_append, noEps_eps h2, g2]
    rfl
  · constructor
    · intro h
      exact absurd (g4.1 h) n1
    · intro h
      exact absurd h n2

/-- The arcs of the result are paths of the source. -/
theorem combine_sound {f : Fsa W} (hv : f.Valid) {eps : List (Item W)} (heps : ∀ e ∈ eps, EpsItem f e)
    {n : Nat} (z : Item W) (hz : z ∈ combine n eps (subset isNonEps f)) : OutItem f z := by
  have hnon : ∀ a ∈ subset isNonEps f, OutItem f a := fun a ha => non_sound hv ha
  have hprec : ∀ e ∈ precOf eps (subset isNonEps f), EpsItem f e :=
    fun e he => heps e (List.mem_filter.1 he).1
  obtain ⟨_, h | h | h | h⟩ := (mem_combine ..).1 hz
  · exact following_sound heps hnon z h
  · exact preceding_sound hv hprec hnon z h
  · exact preceding_sound hv hprec (following_sound heps hnon) z h
  · exact hnon z h

/-! ## The result -/

omit [LinearOrder W] [IsOrderedAddMonoid W] in
theorem out_states {f : Fsa W} (hv : f.Valid) (hne : f.arcs ≠ []) :
    subsetStates isNonEps f = renum (nK f) f.final + 1 := by
  have h1 := hv.two
  have h2 : f.numStates = f.final + 1 := by rw [Fsa.final]; omega
  rw [subsetStates_eq, h2, renum, List.range_succ, List.countP_append, renum]
  simp [keep_final hne]

/-- An epsilon cycle with a positive score. -/
def PositiveCycle (f : Fsa W) : Prop := ∃ s p, Path f.arcs s p s ∧ EpsOnly p ∧ 0 < score p

theorem combine_complete {f : Fsa W} (hv : f.Valid) (hne : f.arcs ≠ [])
    (hcyc : ¬ PositiveCycle f) {eps : List (Item W)} (heps : ∀ e ∈ eps, EpsItem f e)
    (hcomp : ∀ s t p, Path f.arcs s p t → EpsOnly p → s ≠ t → nK f s = true → nK f t = true →
      ∃ z ∈ eps, z.1.src = renum (nK f) s ∧ z.1.dst = renum (nK f) t ∧ score p ≤ z.1.score)
    {items : List (Item W)}
    (hitems : items = combine (subsetStates isNonEps f) eps (subset isNonEps f)) :
    ∀ (p e : List (Arc W)) (s u : Nat), nK f s = true → s < f.numStates → Path f.arcs s e u →
      EpsOnly e → Path f.arcs u p f.final →
      ∃ q v w, Path (items.map Prod.fst) v q (renum (nK f) f.final) ∧ labels q = noEps (labels p) ∧
        score e + score p ≤ w + score q ∧
        ((v = renum (nK f) s ∧ w = 0) ∨ ∃ x ∈ precOf eps (subset isNonEps f),
          x.1.src = renum (nK f) s ∧ x.1.dst = v ∧ x.1.score = w) := by
  intro p
  induction p with
  | nil =>
    intro e s u hk _ he hee hp
    rw [path_nil] at hp
    subst hp
    rcases List.eq_nil_or_concat e with rfl | ⟨e', a, rfl⟩
    · rw [path_nil] at he
      subst he
      exact ⟨[], _, 0, (path_nil ..).2 rfl, rfl, by simp [score], Or.inl ⟨rfl, rfl⟩⟩
    · exfalso
      rw [List.concat_eq_append] at he hee
      rw [path_snoc] at he
      have h1 := (hv.final_iff a he.2.1).2 he.2.2
      have h2 := hee a (by simp)
      omega
  | cons a p ih =>
    intro e s u hk hs he hee hp
    rw [path_cons] at hp
    obtain ⟨h1, rfl, h3⟩ := hp
    have hl1 : labels (a :: p) = labels [a] ++ labels p := rfl
    have hs1 : score (a :: p) = a.score + score p := rfl
    by_cases hl : a.label = 0
    · obtain ⟨q, v, w, e1, e2, e3, e4⟩ := ih (e ++ [a]) s a.dst hk hs
        ((path_snoc ..).2 ⟨he, h1, rfl⟩) (by
          intro b hb
          rcases List.mem_append.1 hb with hb | hb
          · exact hee b hb
          · cases List.mem_singleton.1 hb
            exact hl) h3
      refine ⟨q, v, w, e1, ?_, ?_, e4⟩
      · rw [hl1, noEps_append, e2]
        simp [noEps, labels, hl]
      · rw [score_snoc, add_assoc] at e3
        rwa [hs1]
    · have hsel : isNonEps a = true := by simp [isNonEps, hl]
      obtain ⟨q, v, w, e1, e2, e3, e4⟩ := ih [] a.dst a.dst (keep_dst h1 hsel) (hv.dst_lt a h1)
        ((path_nil ..).2 rfl) (fun _ h => by simp at h) h3
      have e3 : score p ≤ w + score q := by simpa [score] using e3
      obtain ⟨i, hi⟩ := List.mem_iff_getElem?.1 h1
      have hka := keep_src h1 hsel
      -- the arc itself
      obtain ⟨x, hx⟩ : ∃ x : Item W, x = (⟨renum (nK f) a.src, renum (nK f) a.dst, a.label, a.score⟩,
        [i]) := ⟨_, rfl⟩
      have hxmem : x ∈ subset isNonEps f := (mem_subset ..).2 ⟨i, a, hi, hsel, hx⟩
      have hlt : ∀ r, nK f r = true → r < f.numStates → renum (nK f) r < subsetStates isNonEps f := by
        intro r hr hr'
        rw [subsetStates_eq]
        exact renum_lt hr hr'
      -- the arc followed by epsilons that are combined with it
      have hext : ∀ (y : Item W), (y = x ∨ y ∈ combineFollowing eps (subset isNonEps f)) →
          y.1.dst = renum (nK f) a.dst → y.1.src < subsetStates isNonEps f →
          ∃ z ∈ items, z.1.src = y.1.src ∧ z.1.dst = v ∧ z.1.label = y.1.label ∧
            z.1.score = y.1.score + w := by
        intro y hy hyd hys
        rcases e4 with ⟨rfl, rfl⟩ | ⟨o, ho, o1, o2, o3⟩
        · refine ⟨y, ?_, rfl, hyd, rfl, by rw [add_zero]⟩
          rw [hitems, mem_combine]
          rcases hy with rfl | hy
          · exact ⟨hys, Or.inr (Or.inr (Or.inr hxmem))⟩
          · exact ⟨hys, Or.inl hy⟩
        · refine ⟨(⟨y.1.src, o.1.dst, y.1.label, y.1.score + o.1.score⟩, y.2 ++ o.2), ?_, rfl, o2, rfl,
            by rw [← o3]⟩
          rw [hitems, mem_combine]
          rcases hy with rfl | hy
          · exact ⟨hys, Or.inr (Or.inl ((mem_preceding ..).2 ⟨y, hxmem, o, ho, by rw [o1, hyd], rfl⟩))⟩
          · exact ⟨hys, Or.inr (Or.inr (Or.inl ((mem_preceding ..).2
              ⟨y, hy, o, ho, by rw [o1, hyd], rfl⟩)))⟩
      have hmk : ∀ (z : Item W), z ∈ items → z.1.dst = v → z.1.label = a.label →
          Path (items.map Prod.fst) z.1.src (z.1 :: q) (renum (nK f) f.final) ∧
          labels (z.1 :: q) = noEps (labels (a :: p)) ∧
          score (z.1 :: q) = z.1.score + score q := by
        intro z hz hzd hzl
        refine ⟨(path_cons ..).2 ⟨List.mem_map_of_mem hz, rfl, by rw [hzd]; exact e1⟩, ?_, rfl⟩
        rw [hl1, noEps_append, noEps_single hl, ← e2, ← hzl]
        rfl
      by_cases hsu : s = a.src
      · -- no epsilons, or a cycle
        have he0 : score e ≤ 0 := by
          by_contra hc
          refine hcyc ⟨s, e, ?_, hee, not_le.1 hc⟩
          rw [← hsu] at he
          exact he
        obtain ⟨z, hz, z1, z2, z3, z4⟩ := hext x (Or.inl rfl) (by rw [hx]) (by
          rw [hx]
          exact hlt _ hka (src_lt_num hv h1))
        have hxl : x.1.label = a.label := by rw [hx]
        have hxs : x.1.score = a.score := by rw [hx]
        have hxr : x.1.src = renum (nK f) a.src := by rw [hx]
        obtain ⟨m1, m2, m3⟩ := hmk z hz z2 (by rw [z3, hxl])
        refine ⟨_, z.1.src, 0, m1, m2, ?_, Or.inl ⟨by rw [z1, hxr, hsu], rfl⟩⟩
        rw [m3, z4, hxs, hs1, zero_add]
        calc score e + (a.score + score p) ≤ 0 + (a.score + (w + score q)) :=
              add_le_add he0 (add_le_add (le_refl _) e3)
          _ = a.score + w + score q := by rw [zero_add, add_assoc]
      · obtain ⟨o, ho, o1, o2, o3⟩ := hcomp s a.src e he hee hsu hk hka
        have hxs : x.1.score = a.score := by rw [hx]
        have hxl : x.1.label = a.label := by rw [hx]
        have hxr : x.1.src = renum (nK f) a.src := by rw [hx]
        have hxd : x.1.dst = renum (nK f) a.dst := by rw [hx]
        by_cases hf : withFollowing (subset isNonEps f) o = true
        · obtain ⟨z, hz, z1, z2, z3, z4⟩ := hext
            (⟨o.1.src, x.1.dst, x.1.label, o.1.score + x.1.score⟩, o.2 ++ x.2)
            (Or.inr ((mem_following ..).2 ⟨o, ho, hf, x, hxmem, by rw [hxr, o2], rfl⟩)) hxd (by
              show o.1.src < _
              rw [o1]
              exact hlt s hk hs)
          dsimp only at z1 z3 z4
          obtain ⟨m1, m2, m3⟩ := hmk z hz z2 (by rw [z3, hxl])
          refine ⟨_, z.1.src, 0, m1, m2, ?_, Or.inl ⟨by rw [z1, o1], rfl⟩⟩
          rw [m3, z4, hxs, hs1, zero_add]
          calc score e + (a.score + score p) ≤ o.1.score + (a.score + (w + score q)) :=
                add_le_add o3 (add_le_add (le_refl _) e3)
            _ = o.1.score + a.score + w + score q := by simp only [add_assoc]
        · obtain ⟨z, hz, z1, z2, z3, z4⟩ := hext x (Or.inl rfl) hxd (by
            rw [hxr]
            exact hlt _ hka (src_lt_num hv h1))
          obtain ⟨m1, m2, m3⟩ := hmk z hz z2 (by rw [z3, hxl])
          refine ⟨_, z.1.src, o.1.score, m1, m2, ?_,
            Or.inr ⟨o, List.mem_filter.2 ⟨ho, by simpa using hf⟩, o1, by rw [o2, z1, hxr], rfl⟩⟩
          rw [m3, z4, hxs, hs1]
          calc score e + (a.score + score p) ≤ o.1.score + (a.score + (w + score q)) :=
                add_le_add o3 (add_le_add (le_refl _) e3)
            _ = o.1.score + (a.score + w + score q) := by simp only [add_assoc]

/-- **C35**, for any valid FSA on any device: if the FSA has an epsilon cycle with a positive score,
`RemoveEpsilonDevice` aborts. -/
theorem removeEpsilonDevice_aborts (f : Fsa W) (hv : f.Valid) :
    removeEpsilonDevice f = some .aborted ↔ PositiveCycle f := by
  have hst : ∀ x ∈ subset isEps f, x.1.src < subsetStates isEps f ∧ x.1.dst < subsetStates isEps f ∧
      x.1.label = 0 := by
    intro x hx
    obtain ⟨i, a, h1, h2, rfl⟩ := (mem_subset ..).1 hx
    have ha := List.mem_of_getElem? h1
    rw [subsetStates_eq]
    exact ⟨renum_lt (keep_src ha h2) (src_lt_num hv ha), renum_lt (keep_dst ha h2) (hv.dst_lt a ha),
      by simpa [isEps] using h2⟩
  unfold removeEpsilonDevice
  rcases closure_spec (fun x hx => (hst x hx).1) (fun x hx => (hst x hx).2.1)
    (fun x hx => (hst x hx).2.2) (joins_epsPath f) (sem_subset hv) with
    ⟨c, h1, _, _, h4, _⟩ | ⟨h1, s, q, h2, h3⟩
  · rw [h1]
    dsimp only
    constructor
    · intro h
      cases h
    · rintro ⟨s, p, hp, he, hpos⟩
      obtain ⟨q, h6, h7⟩ := path_of_epsPath f p s s hp he
      have := h4 _ q h6
      rw [h7] at this
      exact absurd this (not_le.2 hpos)
  · rw [h1]
    dsimp only
    refine ⟨fun _ => ?_, fun _ => rfl⟩
    have hq : q ≠ [] := by
      rintro rfl
      simp [score] at h3
    obtain ⟨m, s', t', p, _, g2, g3, _, g5, g6, _, _, g9, g10, g11⟩ := epsPath_of_path hv q s s hq h2
    have : s' = t' := renum_inj g5 g6 (by rw [← g9, ← g10])
    subst this
    exact ⟨s', p, g2, g3, by rw [g11]; exact h3⟩

/-- **C35**, for any valid FSA on any device: if the FSA has no epsilon cycle with a positive score,
`RemoveEpsilonDevice` terminates with an epsilon-free FSA that accepts the same strings with the same
best scores, and its arc map names the arcs that each arc stands for. -/
theorem removeEpsilonDevice_correct (f : Fsa W) (hv : f.Valid) (hcyc : ¬ PositiveCycle f) :
    ∃ g d, removeEpsilonDevice f = some (.done (g, d)) ∧ IsEpsRemoval id f g d := by
  have hst : ∀ x ∈ subset isEps f, x.1.src < subsetStates isEps f ∧ x.1.dst < subsetStates isEps f ∧
      x.1.label = 0 := by
    intro x hx
    obtain ⟨i, a, h1, h2, rfl⟩ := (mem_subset ..).1 hx
    have ha := List.mem_of_getElem? h1
    rw [subsetStates_eq]
    exact ⟨renum_lt (keep_src ha h2) (src_lt_num hv ha), renum_lt (keep_dst ha h2) (hv.dst_lt a ha),
      by simpa [isEps] using h2⟩
  have habort := removeEpsilonDevice_aborts f hv
  rcases closure_spec (fun x hx => (hst x hx).1) (fun x hx => (hst x hx).2.1)
    (fun x hx => (hst x hx).2.2) (joins_epsPath f) (sem_subset hv) with
    ⟨c, h1, h2, _, _, h5⟩ | ⟨h1, _⟩
  swap
  · exfalso
    apply hcyc
    rw [← habort]
    unfold removeEpsilonDevice
    rw [h1]
  obtain ⟨eps, heps⟩ : ∃ eps, eps = mapStates (toNonEps f) (subsetStates isNonEps f) c := ⟨_, rfl⟩
  obtain ⟨items, hitems⟩ : ∃ items, items = combine (subsetStates isNonEps f) eps
    (subset isNonEps f) := ⟨_, rfl⟩
  have hsound : ∀ e ∈ eps, EpsItem f e := by
    intro e he
    rw [heps] at he
    exact mapped_sound h2 e he
  have hcomp : ∀ s t p, Path f.arcs s p t → EpsOnly p → s ≠ t → nK f s = true → nK f t = true →
      ∃ z ∈ eps, z.1.src = renum (nK f) s ∧ z.1.dst = renum (nK f) t ∧ score p ≤ z.1.score := by
    intro s t p hp he hst hs ht
    rw [heps]
    exact mapped_complete hv h5 hp he hst hs ht
  have hout : ∀ z ∈ items, OutItem f z := by
    intro z hz
    rw [hitems] at hz
    exact combine_sound hv hsound z hz
  have hsrt := combine_sorted (subsetStates isNonEps f) eps (subset isNonEps f)
  rw [← hitems] at hsrt
  refine ⟨⟨subsetStates isNonEps f, items.map Prod.fst⟩, items.map Prod.snd, ?_, ?_, ?_, ?_, ?_, ?_⟩
  · unfold removeEpsilonDevice
    rw [h1]
    dsimp only
    rw [hitems, heps]
  · -- valid
    intro hne
    have hn := out_states hv hne
    have hfin : Fsa.final (⟨subsetStates isNonEps f, items.map Prod.fst⟩ : Fsa W) =
        renum (nK f) f.final := by
      show subsetStates isNonEps f - 1 = _
      omega
    have h0f : renum (nK f) 0 < renum (nK f) f.final := renum_lt (keep_start hne) (by
      have := hv.two
      rw [Fsa.final]
      omega)
    refine ⟨?_, hsrt, ?_, ?_, ?_⟩
    · show 2 ≤ subsetStates isNonEps f
      omega
    · intro b hb
      obtain ⟨z, hz, rfl⟩ := List.mem_map.1 hb
      obtain ⟨s, t, p, ⟨_, g2, g3, g4, _, _, _, g8, _, _⟩, _⟩ := hout z hz
      rw [hfin, g8]
      apply renum_lt g4
      cases p with
      | nil => exact absurd rfl g3
      | cons a p =>
        rw [path_cons] at g2
        rw [← g2.2.1]
        exact hv.src_lt a g2.1
    · intro b hb
      obtain ⟨z, hz, rfl⟩ := List.mem_map.1 hb
      obtain ⟨s, t, p, ⟨_, _, _, _, g5, _, g7, _, g9, _⟩, _⟩ := hout z hz
      show z.1.dst < subsetStates isNonEps f
      rw [g9, subsetStates_eq]
      exact renum_lt g5 g7
    · intro b hb
      obtain ⟨z, hz, rfl⟩ := List.mem_map.1 hb
      obtain ⟨s, t, p, ⟨_, _, _, _, g5, _, g7, _, g9, _⟩, _, _, g11⟩ := hout z hz
      rw [hfin, g9, g11]
      constructor
      · intro h
        rw [h]
      · exact renum_inj g5 (keep_final hne)
  · intro b hb
    obtain ⟨z, hz, rfl⟩ := List.mem_map.1 hb
    obtain ⟨_, _, _, _, _, h, _⟩ := hout z hz
    exact h
  · simp
  · -- soundness
    intro ks q hn hacc
    have hne : f.arcs ≠ [] := by
      intro h0
      have : subsetStates isNonEps f = 0 := by
        rw [subsetStates_eq, renum, List.countP_eq_zero]
        intro s _
        simp [stateKeep, h0]
      have h2 : 2 ≤ subsetStates isNonEps f := hacc.1
      omega
    have hfin : Fsa.final (⟨subsetStates isNonEps f, items.map Prod.fst⟩ : Fsa W) =
        renum (nK f) f.final := by
      show subsetStates isNonEps f - 1 = _
      have := out_states hv hne
      omega
    have key : ∀ (q : List (Arc W)) (ks : List Nat) (i : Nat),
        ks.map (fun k => (items.map Prod.fst)[k]?) = q.map some → nK f i = true →
        Chain (renum (nK f) i) q (renum (nK f) f.final) →
        ∃ p, ((ks.map fun k => ((items.map Prod.snd)[k]?).getD []).flatten).map
            (fun j => f.arcs[j]?) = p.map some ∧ Path f.arcs i p f.final ∧
          noEps (labels p) = labels q ∧ score q = score p := by
      intro q
      induction q with
      | nil =>
        intro ks i hn hk hc
        have hks : ks = [] := by simpa using hn
        subst hks
        have : i = f.final := renum_inj hk (keep_final hne) hc
        exact ⟨[], rfl, (path_nil ..).2 this, rfl, rfl⟩
      | cons b q ih =>
        intro ks i hn hk hc
        cases ks with
        | nil => simp at hn
        | cons k ks =>
          simp only [List.map_cons, List.cons.injEq] at hn
          obtain ⟨hb, hn⟩ := hn
          rw [List.getElem?_map] at hb
          cases hz : items[k]? with
          | none => rw [hz] at hb; simp at hb
          | some z =>
            rw [hz] at hb
            have hb : z.1 = b := Option.some.inj hb
            obtain ⟨i', t, p, ⟨g1, g2, g3, g4, g5, g6, g7, g8, g9, g10⟩, g11, _, _⟩ :=
              hout z (List.mem_of_getElem? hz)
            obtain ⟨hc1, hc2⟩ := hc
            rw [← hb, g8] at hc1
            have : i' = i := renum_inj g4 hk hc1
            subst this
            rw [← hb, g9] at hc2
            obtain ⟨p2, e1, e2, e3, e4⟩ := ih ks t hn g5 hc2
            refine ⟨p ++ p2, ?_, (path_append ..).2 ⟨_, g2, e2⟩, ?_, ?_⟩
            · rw [List.map_cons, List.flatten_cons, List.map_append, e1, List.getElem?_map, hz]
              have g1 : z.2.map (fun j => f.arcs[j]?) = p.map some := g1
              simp only [Option.map_some, Option.getD_some]
              rw [g1]
              simp
            · rw [labels_append, noEps_append, g11, e3, hb]
              rfl
            · have hs : score (b :: q) = b.score + score q := rfl
              rw [hs, e4, score_app, g10, hb]
    obtain ⟨hc1, hc2⟩ := hacc
    rw [hfin] at hc2
    obtain ⟨p, k1, k2, k3, k4⟩ := key q ks 0 hn (keep_start hne) hc2.1
    exact ⟨p, k1, ⟨hv.two, k2⟩, k3, k4⟩
  · -- completeness
    intro p hp
    have hne : f.arcs ≠ [] := by
      intro h0
      obtain ⟨h2, h3, h4⟩ := hp
      rw [h0] at h4
      cases p with
      | nil =>
        have : (0 : Nat) = f.final := h3
        rw [Fsa.final] at this
        omega
      | cons a p => exact absurd (h4 a (by simp)) (by simp)
    have hn := out_states hv hne
    have hfin : Fsa.final (⟨subsetStates isNonEps f, items.map Prod.fst⟩ : Fsa W) =
        renum (nK f) f.final := by
      show subsetStates isNonEps f - 1 = _
      omega
    have h0f : renum (nK f) 0 < renum (nK f) f.final := renum_lt (keep_start hne) (by
      have := hv.two
      rw [Fsa.final]
      omega)
    obtain ⟨q, v, w, e1, e2, e3, e4⟩ := combine_complete hv hne hcyc hsound hcomp hitems p [] 0 0
      (keep_start hne) (by have := hv.two; omega) ((path_nil ..).2 rfl) (fun _ h => by simp at h) hp.2
    rcases e4 with ⟨rfl, rfl⟩ | ⟨x, hx, x1, _⟩
    · refine ⟨q, score q, ⟨?_, ?_⟩, e2, rfl, by simpa [score] using e3⟩
      · show 2 ≤ subsetStates isNonEps f
        omega
      · rw [hfin]
        exact e1
    · exfalso
      have := (List.mem_filter.1 hx).2
      have h0 : renum (nK f) 0 = 0 := rfl
      rw [h0] at x1
      simp [withFollowing, x1] at this

/-- **C35**: with the best scores of each string. -/
theorem removeEpsilonDevice_best (f : Fsa W) (hv : f.Valid) (g : Fsa W) (d : List (List Nat))
    (h : removeEpsilonDevice f = some (.done (g, d))) (x : List Int) (w : W) :
    ((∃ p, Accepting f p ∧ noEps (labels p) = x ∧ score p = w) ∧
        ∀ p, Accepting f p → noEps (labels p) = x → score p ≤ w) ↔
      ((∃ q, Accepting g q ∧ labels q = x ∧ score q = w) ∧
        ∀ q, Accepting g q → labels q = x → score q ≤ w) := by
  have hcyc : ¬ PositiveCycle f := by
    rw [← removeEpsilonDevice_aborts f hv, h]
    intro h
    cases h
  obtain ⟨g', d', h', hr⟩ := removeEpsilonDevice_correct f hv hcyc
  rw [h] at h'
  cases h'
  rw [hr.best (fun _ _ => id) x w]
  refine and_congr Iff.rfl ?_
  constructor
  · intro h1 q h2 h3
    obtain ⟨v, h4, h5⟩ := h1 q h2 h3
    rw [h4]
    exact h5
  · intro h1 q h2 h3
    exact ⟨score q, rfl, h1 q h2 h3⟩

/-! ### Concrete cases -/

/-- A cycle of epsilons between 1 and 2 with a negative score, and a labelled cycle. -/
def epsCycle : Fsa Int :=
  ⟨4, [⟨0, 1, 7, 1⟩, ⟨1, 2, 0, 2⟩, ⟨2, 1, 0, -3⟩, ⟨2, 1, 8, 5⟩, ⟨2, 3, -1, 1⟩]⟩

theorem epsCycle_valid : epsCycle.Valid :=
  ⟨by decide, by unfold Fsa.Sorted; decide, by decide, by decide, by decide⟩

/-- Potentials show that there is no positive cycle. -/
theorem no_positive_cycle (f : Fsa W) (pot : Nat → W)
    (h : ∀ a ∈ f.arcs, a.label = 0 → pot a.src + a.score ≤ pot a.dst) : ¬ PositiveCycle f := by
  rintro ⟨s, p, hp, he, hpos⟩
  have key : ∀ (p : List (Arc W)) (s t : Nat), Path f.arcs s p t → EpsOnly p →
      pot s + score p ≤ pot t := by
    intro p
    induction p with
    | nil =>
      intro s t hp _
      rw [path_nil] at hp
      subst hp
      simp [score]
    | cons a p ih =>
      intro s t hp he
      rw [path_cons] at hp
      obtain ⟨h1, rfl, h3⟩ := hp
      have e1 : score (a :: p) = a.score + score p := rfl
      rw [e1, ← add_assoc]
      exact le_trans (add_le_add_left (h a h1 (he a (by simp))) _)
        (ih a.dst t h3 (fun b hb => he b (by simp [hb])))
  have := key p s s hp he
  rw [add_le_iff_nonpos_right] at this
  exact absurd this (not_le.2 hpos)

example : ∃ g d, removeEpsilonDevice epsCycle = some (.done (g, d)) ∧ IsEpsRemoval id epsCycle g d :=
  removeEpsilonDevice_correct _ epsCycle_valid
    (no_positive_cycle _ (fun s => if s = 2 then 2 else 0) (by decide))

/-- With a positive cycle. -/
def posCycle : Fsa Int :=
  ⟨4, [⟨0, 1, 7, 1⟩, ⟨1, 2, 0, 2⟩, ⟨2, 1, 0, -1⟩, ⟨2, 3, -1, 1⟩]⟩

example : removeEpsilonDevice posCycle = some .aborted := by
  rw [removeEpsilonDevice_aborts _
    ⟨by decide, by unfold Fsa.Sorted; decide, by decide, by decide, by decide⟩]
  refine ⟨1, [⟨1, 2, 0, 2⟩, ⟨2, 1, 0, -1⟩], ?_, ?_, by decide⟩
  · simp only [path_cons, path_nil]
    decide
  · unfold EpsOnly
    decide

end Verif.Fsa.Rmd
