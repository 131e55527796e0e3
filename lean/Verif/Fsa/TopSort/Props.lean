import Verif.Fsa.TopSort.Renumber

/-!
# C18: topological sorting
-/

namespace Verif.Fsa
open Verif.Ragged Verif.Util
variable {W X : Type}

/-! ## Specification -/

/-- What an FSA with states must satisfy for `TopSort` to succeed. -/
structure Sortable (f : Fsa W) : Prop where
  two : 2 ≤ f.numStates
  /-- Only self-loops enter the start state. -/
  start : ∀ a ∈ f.arcs, a.dst = 0 → a.src = 0
  /-- Only self-loops leave the final state. -/
  final : ∀ a ∈ f.arcs, a.src = f.final → a.dst = f.final
  /-- A path that returns to where it began consists of self-loops. -/
  acyclic : ∀ s p, Path f.arcs s p s → ∀ a ∈ p, a.src = a.dst

/-- `g` is `f` with its states in topological order: state `s` of `g` is state `ord[s]` of `f`, and arc `i`
of `g` is arc `m[i]` of `f`. -/
structure TopSorted (f g : Fsa W) (ord m : List Nat) : Prop where
  states : g.numStates = f.numStates
  ord_perm : ord.Perm (List.range f.numStates)
  start : 0 < f.numStates → ord[0]? = some 0
  final : 0 < f.numStates → ord[f.final]? = some f.final
  /-- The arc map is a bijection. -/
  map_perm : m.Perm (List.range f.arcs.length)
  arcs : ∀ i j : Nat, m[i]? = some j → ∃ a b : Arc W, g.arcs[i]? = some a ∧ f.arcs[j]? = some b ∧
    ord[a.src]? = some b.src ∧ ord[a.dst]? = some b.dst ∧ a.label = b.label ∧ a.score = b.score
  length : m.length = g.arcs.length
  /-- The arcs go forward, apart from self-loops. -/
  forward : ∀ a ∈ g.arcs, a.src ≤ a.dst

namespace Top

/-! ## Global and local states -/

theorem into_zero (T : List (List (List X))) (dst : Nat → Nat) (S : List Nat) (v : Nat) :
    into T dst S v = 0 ↔ ∀ j < T.flatten.flatten.length, dst j = v → srcOf T j ≠ v → srcOf T j ∈ S := by
  unfold into
  rw [List.countP_eq_zero]
  constructor
  · intro h j hj h1 h2
    by_contra hc
    exact h j (List.mem_range.mpr hj) (by simpa using ⟨h1, h2, hc⟩)
  · intro h j hj hc
    rw [decide_eq_true_iff] at hc
    exact hc.2.2 (h j (List.mem_range.mp hj) hc.1 hc.2.1)

theorem fin_iff (T : List (List (List X))) (r s : Nat) (f : List (List X)) (hf : T[r]? = some f)
    (hs : s < f.length) : fin T (off T r + s) = 0 ↔ s + 1 ≠ f.length := by
  rw [fin, keyOf_off T r s f hf hs, off_succ T r f hf]
  split
  · next h => constructor
              · intro h1; omega
              · intro h1; omega
  · next h => constructor
              · intro _; omega
              · intro _; rfl

/-- The arcs of the FSAs as arcs of the vector. -/
structure ArcsOk (T : List (List (List (Arc W)))) (dst : Nat → Nat) : Prop where
  out : ∀ (r : Nat) (f : List (List (Arc W))) (a : Arc W), T[r]? = some f → a ∈ f.flatten →
    a.src < f.length ∧ a.dst < f.length ∧ ∃ j < T.flatten.flatten.length,
      srcOf T j = off T r + a.src ∧ dst j = off T r + a.dst
  back : ∀ j < T.flatten.flatten.length, ∃ (r : Nat) (f : List (List (Arc W))) (a : Arc W), T[r]? = some f ∧
    a ∈ f.flatten ∧ srcOf T j = off T r + a.src ∧ dst j = off T r + a.dst

theorem arcsOk_of_dest (T : List (List (List (Arc W)))) (hT : VecOk T) :
    ∃ dest dst, destStates (flat T) = some dest ∧ DestOk T dest dst ∧ ArcsOk T dst := by
  obtain ⟨dest, h1, h2, h3⟩ := destStates_spec T hT
  have hat : ∀ (r : Nat) (f : List (List (Arc W))) (s : Nat) (row : List (Arc W)) (k : Nat) (a : Arc W),
      T[r]? = some f → f[s]? = some row → row[k]? = some a →
      apos T (off T r + s) + k < T.flatten.flatten.length ∧ srcOf T (apos T (off T r + s) + k) = off T r + a.src ∧
      dest.getD (apos T (off T r + s) + k) 0 = off T r + a.dst ∧ a.src = s ∧ s < f.length ∧ a.dst < f.length := by
    intro r f s row k a hf hs ha
    have hsl := (List.getElem?_eq_some_iff.mp hs).1
    have hk := (List.getElem?_eq_some_iff.mp ha).1
    have hg := state_at T r s f hf hsl
    rw [hs] at hg
    have h4 := flat_arc T _ k row hg hk
    rw [ha] at h4
    have hok := hT.at hf hs a (List.mem_of_getElem? ha)
    refine ⟨(List.getElem?_eq_some_iff.mp h4).1, ?_, ?_, hok.1, hsl, hok.2⟩
    · rw [srcOf_apos T _ k row hg hk, hok.1]
    · rw [List.getD_eq_getElem?_getD, h3 r f s row k a hf hs ha]; rfl
  have hpos : ∀ j < T.flatten.flatten.length, ∃ (r : Nat) (f : List (List (Arc W))) (s : Nat)
      (row : List (Arc W)) (k : Nat) (a : Arc W), T[r]? = some f ∧ f[s]? = some row ∧ row[k]? = some a ∧
      j = apos T (off T r + s) + k := by
    intro j hj
    obtain ⟨r, f, s, row, k, hf, hs, hk, rfl⟩ := arc_pos T j hj
    exact ⟨r, f, s, row, k, row[k], hf, hs, List.getElem?_eq_getElem hk, rfl⟩
  refine ⟨dest, fun j => dest.getD j 0, h1, ⟨h2, ?_, ?_, ?_⟩, ⟨?_, ?_⟩⟩
  · intro j hj
    rw [List.getD_eq_getElem?_getD, List.getElem?_eq_getElem (by omega)]; rfl
  · intro j hj
    obtain ⟨r, f, s, row, k, a, hf, hs, ha, rfl⟩ := hpos j hj
    obtain ⟨_, _, h6, _, _, h7⟩ := hat r f s row k a hf hs ha
    simp only [h6]
    exact off_lt T r _ f hf h7
  · intro j hj
    obtain ⟨r, f, s, row, k, a, hf, hs, ha, rfl⟩ := hpos j hj
    obtain ⟨_, h5, h6, h7, h8, h9⟩ := hat r f s row k a hf hs ha
    simp only [h6, h5]
    rw [keyOf_off T r _ f hf h9, keyOf_off T r _ f hf (by omega)]
  · intro r f a hf ha
    obtain ⟨row, hrow, hmem⟩ := List.mem_flatten.mp ha
    obtain ⟨s, hs⟩ := List.getElem?_of_mem hrow
    obtain ⟨k, hk⟩ := List.getElem?_of_mem hmem
    obtain ⟨h4, h5, h6, h7, h8, h9⟩ := hat r f s row k a hf hs hk
    exact ⟨by omega, h9, _, h4, h5, h6⟩
  · intro j hj
    obtain ⟨r, f, s, row, k, a, hf, hs, ha, rfl⟩ := hpos j hj
    obtain ⟨_, h5, h6, _⟩ := hat r f s row k a hf hs ha
    exact ⟨r, f, a, hf, List.mem_flatten.mpr ⟨row, List.mem_of_getElem? hs, List.mem_of_getElem? ha⟩, h5, h6⟩

/-! ## The order of one FSA -/

/-- The order of the states of FSA `r`. -/
def localOrder (T : List (List (List X))) (A : List Nat) (r : Nat) : List Nat :=
  (orderRow T A r).map (· - off T r)

theorem mem_pos_lt (L1 L2 : List Nat) (hnd : (L1 ++ L2).Nodup) (w u x y : Nat) (hw : w ∈ L1) (hu : u ∈ L2)
    (hx : (L1 ++ L2)[x]? = some w) (hy : (L1 ++ L2)[y]? = some u) : x < y := by
  obtain ⟨h1, h2, h3⟩ := List.nodup_append.mp hnd
  by_contra hc
  by_cases hxl : x < L1.length
  · have hyl : y < L1.length := by omega
    rw [List.getElem?_append_left hyl] at hy
    exact h3 u (List.mem_of_getElem? hy) u hu rfl
  · rw [List.getElem?_append_right (by omega)] at hx
    exact h3 w hw w (List.mem_of_getElem? hx) rfl

section
variable {T : List (List (List (Arc W)))} {dst : Nat → Nat} {Bs : List (List Nat)} (hA : ArcsOk T dst)
  (hL : Layers T dst [] Bs) (hhead : Bs.head? = some (firstStates T dst))
  {r : Nat} {f : List (List (Arc W))} (hf : T[r]? = some f)
include hL hf

include hA in
/-- In the order, the arcs go forward. -/
theorem orderRow_forward (a : Arc W) (ha : a ∈ f.flatten) (hne : a.src ≠ a.dst) (x y : Nat)
    (hx : (orderRow T Bs.flatten r)[x]? = some (off T r + a.src))
    (hy : (orderRow T Bs.flatten r)[y]? = some (off T r + a.dst)) : x < y := by
  have hr := (List.getElem?_eq_some_iff.mp hf).1
  obtain ⟨h1, h2, j, hj, hsrc, hdst⟩ := hA.out r f a hf ha
  have hkey1 := keyOf_off T r a.src f hf h1
  have hkey2 := keyOf_off T r a.dst f hf h2
  have hnd := orderRow_nodup T dst Bs hL r hr
  rcases mem_batch_of_row T dst Bs hL r _ (List.mem_of_getElem? hy) hr with hu | ⟨hu, hlt⟩
  · obtain ⟨B, hB, hu'⟩ := List.mem_flatten.mp hu
    obtain ⟨Xs, Ys, rfl⟩ := List.append_of_mem hB
    have h0 := hL.earlier Xs B Ys rfl _ hu'
    have h3 := (into_zero T dst _ _).mp (by omega : into T dst ([] ++ Xs.flatten) (off T r + a.dst) = 0)
      j hj hdst (by rw [hsrc]; omega)
    rw [hsrc, List.nil_append] at h3
    have hsplit : orderRow T (Xs ++ B :: Ys).flatten r =
        Xs.flatten.filter (fun v => keyOf T v == r) ++ (B.filter (fun v => keyOf T v == r) ++
          (Ys.flatten.filter (fun v => keyOf T v == r) ++
          if off T r < off T (r + 1) then [off T (r + 1) - 1] else [])) := by
      unfold orderRow
      rw [List.flatten_append, List.flatten_cons, List.filter_append, List.filter_append]
      simp only [List.append_assoc]
    rw [hsplit] at hnd hx hy
    exact mem_pos_lt _ _ hnd _ _ x y (List.mem_filter.mpr ⟨h3, by simpa using hkey1⟩)
      (List.mem_append_left _ (List.mem_filter.mpr ⟨hu', by simpa using hkey2⟩)) hx hy
  · have hw : off T r + a.src ∈ Bs.flatten := by
      rcases mem_batch_of_row T dst Bs hL r _ (List.mem_of_getElem? hx) hr with hw | ⟨hw, _⟩
      · exact hw
      · omega
    have hsplit : orderRow T Bs.flatten r = Bs.flatten.filter (fun v => keyOf T v == r) ++
        [off T (r + 1) - 1] := by rw [orderRow, if_pos hlt]
    rw [hsplit] at hnd hx hy
    exact mem_pos_lt _ _ hnd _ _ x y (List.mem_filter.mpr ⟨hw, by simpa using hkey1⟩)
      (by rw [hu]; exact List.mem_singleton.mpr rfl) hx hy

theorem localOrder_get (x s : Nat) : (localOrder T Bs.flatten r)[x]? = some s ↔
    (orderRow T Bs.flatten r)[x]? = some (off T r + s) := by
  rw [localOrder, List.getElem?_map]
  constructor
  · intro h
    obtain ⟨v, hv, h⟩ := Option.map_eq_some_iff.mp h
    obtain ⟨s', _, rfl⟩ := orderRow_mem T dst Bs hL r f hf v (List.mem_of_getElem? hv)
    rw [hv]; congr 1; omega
  · intro h; rw [h, Option.map_some]; congr 1; omega

omit hL hf in
theorem localOrder_perm (hp : (orderRow T Bs.flatten r).Perm ((List.range f.length).map (off T r + ·))) :
    (localOrder T Bs.flatten r).Perm (List.range f.length) := by
  have := hp.map (· - off T r)
  rw [List.map_map] at this
  have he : ((fun x => x - off T r) ∘ fun x => off T r + x) = id := by
    funext x; simp
  rw [he, List.map_id] at this
  exact this

omit hL in
theorem orderRow_last (hp : (orderRow T Bs.flatten r).Perm ((List.range f.length).map (off T r + ·)))
    (hpos : 0 < f.length) : (orderRow T Bs.flatten r)[f.length - 1]? = some (off T r + (f.length - 1)) := by
  have hl := hp.length_eq
  rw [List.length_map, List.length_range] at hl
  have hsucc := off_succ T r f hf
  have hsplit : orderRow T Bs.flatten r = Bs.flatten.filter (fun v => keyOf T v == r) ++
      [off T (r + 1) - 1] := by rw [orderRow, if_pos (by omega)]
  rw [hsplit] at hl ⊢
  rw [List.length_append, List.length_singleton] at hl
  rw [List.getElem?_append_right (by omega), show f.length - 1 -
    (Bs.flatten.filter (fun v => keyOf T v == r)).length = 0 from by omega, hsucc]
  show some _ = _
  congr 1; omega

include hhead in
theorem orderRow_first (hst : off T r ∈ firstStates T dst) (hpos : 0 < f.length) :
    (orderRow T Bs.flatten r)[0]? = some (off T r) := by
  obtain ⟨B, Bs', rfl⟩ : ∃ B Bs', Bs = B :: Bs' := by
    cases Bs with
    | nil => simp at hhead
    | cons B Bs' => exact ⟨B, Bs', rfl⟩
  obtain rfl : B = firstStates T dst := by simpa using hhead
  have h1 := row_head T (firstStates T dst) (asc_filter T _) r f hf hst hpos
  rw [orderRow, List.flatten_cons, List.filter_append, List.append_assoc, ← List.head?_eq_getElem?,
    List.head?_append, h1]
  rfl

include hA hhead in
/-- The order that is found sorts the FSA. -/
theorem permFsa_topSorted
    (hp : (orderRow T Bs.flatten r).Perm ((List.range f.length).map (off T r + ·)))
    (hst : f ≠ [] → off T r ∈ firstStates T dst) :
    TopSorted (rowsFsa f) (rowsFsa (permFsa (localOrder T Bs.flatten r) f)) (localOrder T Bs.flatten r)
      (permMap (localOrder T Bs.flatten r) f) := by
  set ord := localOrder T Bs.flatten r with hord
  have hperm : ord.Perm (List.range f.length) := localOrder_perm hp
  have hnd : ord.Nodup := hperm.nodup_iff.mpr List.nodup_range
  have hgetidx : ∀ s, s < f.length → ord[ord.idxOf s]? = some s := by
    intro s hs
    have hmem : s ∈ ord := hperm.mem_iff.mpr (List.mem_range.mpr hs)
    rw [List.getElem?_eq_getElem (List.idxOf_lt_length_iff.mpr hmem), List.getElem_idxOf]
  -- arcs of the result
  have hlens : (permFsa ord f).map List.length =
      (ord.map (fun s => List.range' (lpos f s) (f.getD s []).length)).map List.length := by
    unfold permFsa
    rw [List.map_map, List.map_map]
    apply List.map_congr_left
    intro s _
    simp
  have hml : (permMap ord f).length = (permFsa ord f).flatten.length := by
    rw [permMap, List.flatMap_def, List.length_flatten, List.length_flatten, hlens]
  have hinb : ∀ j, j ∈ permMap ord f ↔ j < f.flatten.length := by
    intro j
    rw [permMap, List.mem_flatMap]
    constructor
    · rintro ⟨s, hs, hj⟩
      have hsl := List.mem_range.mp (hperm.mem_iff.mp hs)
      have hrow := List.getElem?_eq_getElem hsl
      rw [List.getD_eq_getElem?_getD, hrow, Option.getD_some, List.mem_range'_1] at hj
      have := row_at f s (j - lpos f s) _ hrow (by omega)
      rw [List.getElem?_eq_getElem (show j - lpos f s < f[s].length by omega)] at this
      have h1 := (List.getElem?_eq_some_iff.mp this).1
      have : ((f.map List.length).take s).sum = lpos f s := rfl
      omega
    · intro hj
      rw [List.length_flatten] at hj
      obtain ⟨s, n, k, h4, h5, h6⟩ := ids_pos _ j hj
      have hs : s < f.length := by
        have := (List.getElem?_eq_some_iff.mp h4).1; rwa [List.length_map] at this
      rw [List.getElem?_map, List.getElem?_eq_getElem hs] at h4
      have h4 := Option.some.inj h4
      refine ⟨s, hperm.mem_iff.mpr (List.mem_range.mpr hs), ?_⟩
      rw [List.getD_eq_getElem?_getD, List.getElem?_eq_getElem hs, Option.getD_some, List.mem_range'_1]
      have : ((f.map List.length).take s).sum = lpos f s := rfl
      omega
  have hmnd : (permMap ord f).Nodup := by
    -- as many elements as there are arcs, and all arcs are among them
    have hle : f.flatten.length = (permMap ord f).length := by
      rw [hml, List.length_flatten, List.length_flatten]
      have : ((permFsa ord f).map List.length).Perm (f.map List.length) := by
        unfold permFsa
        rw [List.map_map]
        have h1 := hperm.map (List.length ∘ fun s => (f.getD s []).map (moveArc ord))
        refine h1.trans (List.Perm.of_eq ?_)
        apply List.ext_getElem
        · simp
        · intro i h1 h2
          simp at h2
          simp [h2]
      exact this.symm.sum_eq
    have h2 : (List.range f.flatten.length).Subperm (permMap ord f) :=
      List.subperm_of_subset List.nodup_range (fun j hj => (hinb j).mpr (List.mem_range.mp hj))
    have h3 := h2.perm_of_length_le (by rw [List.length_range]; omega)
    exact h3.nodup_iff.mp List.nodup_range
  have harc : ∀ i j : Nat, (permMap ord f)[i]? = some j → ∃ b : Arc W, f.flatten[j]? = some b ∧
      (permFsa ord f).flatten[i]? = some (moveArc ord b) := by
    intro i j hij
    have hi := (List.getElem?_eq_some_iff.mp hij).1
    rw [hml, List.length_flatten] at hi
    obtain ⟨q, n, k, h4, h5, h6⟩ := ids_pos _ i hi
    have hq : q < ord.length := by
      have := (List.getElem?_eq_some_iff.mp h4).1
      rwa [List.length_map, permFsa_length] at this
    have hqs := List.getElem?_eq_getElem hq
    set s := ord[q] with hs
    have hsl : s < f.length := List.mem_range.mp (hperm.mem_iff.mp (List.mem_of_getElem? hqs))
    have hrow : f[s]? = some (f.getD s []) := by
      rw [List.getD_eq_getElem?_getD, List.getElem?_eq_getElem hsl]; rfl
    have hprow : (permFsa ord f)[q]? = some ((f.getD s []).map (moveArc ord)) := by
      rw [permFsa, List.getElem?_map, hqs]; rfl
    rw [List.getElem?_map, hprow, Option.map_some, List.length_map] at h4
    have h4 := Option.some.inj h4
    have hk : k < (f.getD s []).length := by omega
    have e1 := row_at (permFsa ord f) q k _ hprow (by rw [List.length_map]; exact hk)
    have e2 := row_at (ord.map (fun s => List.range' (lpos f s) (f.getD s []).length)) q k
      (List.range' (lpos f s) (f.getD s []).length) (by rw [List.getElem?_map, hqs]; rfl)
      (by rw [List.length_range']; exact hk)
    rw [← hlens, ← h6, ← List.flatMap_def, show ord.flatMap (fun s => List.range' (lpos f s)
      (f.getD s []).length) = permMap ord f from rfl, hij, List.getElem?_range' hk, Nat.one_mul] at e2
    rw [← h6] at e1
    obtain rfl := Option.some.inj e2
    have e3 := row_at f s k _ hrow hk
    rw [List.getElem?_eq_getElem hk] at e3
    refine ⟨_, e3, ?_⟩
    rw [e1, List.getElem?_map, List.getElem?_eq_getElem hk]
    rfl
  constructor
  · show (permFsa ord f).length = f.length
    rw [permFsa_length, hperm.length_eq, List.length_range]
  · exact hperm
  · intro h0
    have h0 : 0 < f.length := h0
    exact (localOrder_get hL hf 0 0).mpr (orderRow_first hL hhead hf (hst (List.length_pos_iff.mp h0)) h0)
  · intro h0
    exact (localOrder_get hL hf _ _).mpr (orderRow_last hf hp h0)
  · exact (List.perm_ext_iff_of_nodup hmnd List.nodup_range).mpr
      (fun j => by rw [hinb, List.mem_range]; exact Iff.rfl)
  · intro i j hij
    obtain ⟨b, h1, h2⟩ := harc i j hij
    obtain ⟨h3, h4, _⟩ := hA.out r f b hf (List.mem_of_getElem? h1)
    exact ⟨_, b, h2, h1, hgetidx _ h3, hgetidx _ h4, rfl, rfl⟩
  · exact hml
  · intro a ha
    obtain ⟨i, hi⟩ := List.getElem?_of_mem ha
    have hlt := (List.getElem?_eq_some_iff.mp hi).1
    have hlt : i < (permMap ord f).length := by rw [hml]; exact hlt
    obtain ⟨b, h1, h2⟩ := harc i _ (List.getElem?_eq_getElem hlt)
    rw [show (permFsa ord f).flatten[i]? = some a from hi] at h2
    obtain rfl := Option.some.inj h2
    obtain ⟨h3, h4, _⟩ := hA.out r f b hf (List.mem_of_getElem? h1)
    by_cases he : b.src = b.dst
    · show ord.idxOf b.src ≤ ord.idxOf b.dst
      rw [he]
    · exact Nat.le_of_lt (orderRow_forward hA hL hf b (List.mem_of_getElem? h1) he _ _
        ((localOrder_get hL hf _ _).mp (hgetidx _ h3)) ((localOrder_get hL hf _ _).mp (hgetidx _ h4)))


/-! ## When the order exists -/

include hA in
/-- A complete row can only be found for a sortable FSA. -/
theorem sortable_of_row (hpos : f ≠ []) (hst : off T r ∈ firstStates T dst)
    (hp : (orderRow T Bs.flatten r).Perm ((List.range f.length).map (off T r + ·))) :
    Sortable (rowsFsa f) := by
  have hpos' : 0 < f.length := List.length_pos_iff.mpr hpos
  have h0 : into T dst [] (off T r) + fin T (off T r) = 0 := by
    have := (List.mem_filter.mp hst).2
    simpa using this
  set ord := localOrder T Bs.flatten r with hord
  have hperm : ord.Perm (List.range f.length) := localOrder_perm hp
  have hnd : ord.Nodup := hperm.nodup_iff.mpr List.nodup_range
  have hgetidx : ∀ s, s < f.length → ord[ord.idxOf s]? = some s := by
    intro s hs
    have hmem : s ∈ ord := hperm.mem_iff.mpr (List.mem_range.mpr hs)
    rw [List.getElem?_eq_getElem (List.idxOf_lt_length_iff.mpr hmem), List.getElem_idxOf]
  have hfw : ∀ a ∈ f.flatten, a.src ≠ a.dst → ord.idxOf a.src < ord.idxOf a.dst := by
    intro a ha hne
    obtain ⟨h3, h4, _⟩ := hA.out r f a hf ha
    exact orderRow_forward hA hL hf a ha hne _ _ ((localOrder_get hL hf _ _).mp (hgetidx _ h3))
      ((localOrder_get hL hf _ _).mp (hgetidx _ h4))
  constructor
  · have := (fin_iff T r 0 f hf hpos').mp (by rw [Nat.add_zero]; omega)
    show 2 ≤ f.length
    omega
  · intro a ha hd
    by_contra hne
    obtain ⟨_, _, j, hj, h1, h2⟩ := hA.out r f a hf ha
    rw [hd, Nat.add_zero] at h2
    have := (into_zero T dst [] (off T r)).mp (by omega) j hj h2 (by rw [h1]; omega)
    simp at this
  · intro a ha hs
    by_contra hne
    have hs : a.src = f.length - 1 := hs
    have hlt := hfw a ha (by
      intro h; exact hne (by rw [← h]; exact hs))
    have hlast : ord.idxOf a.src = f.length - 1 := by
      rw [hs]
      exact idxOf_get ord hnd _ _ ((localOrder_get hL hf _ _).mpr (orderRow_last hf hp hpos'))
    have hd := (hA.out r f a hf ha).2.1
    have := List.idxOf_lt_length_iff.mpr (hperm.mem_iff.mpr (List.mem_range.mpr hd))
    rw [hperm.length_eq, List.length_range] at this
    omega
  · have key : ∀ (p : List (Arc W)) (s t : Nat), Path f.flatten s p t →
        ord.idxOf s ≤ ord.idxOf t ∧ (ord.idxOf s = ord.idxOf t → ∀ a ∈ p, a.src = a.dst) := by
      intro p
      induction p with
      | nil =>
        intro s t h
        obtain rfl := (path_nil _ _ _).mp h
        exact ⟨Nat.le_refl _, by simp⟩
      | cons a p ih =>
        intro s t h
        obtain ⟨ha, rfl, h'⟩ := (path_cons _ _ _ _ _).mp h
        obtain ⟨h1, h2⟩ := ih _ _ h'
        by_cases he : a.src = a.dst
        · rw [he]
          refine ⟨h1, ?_⟩
          intro h3 b hb
          rcases List.mem_cons.mp hb with rfl | hb
          · exact he
          · exact h2 h3 b hb
        · have := hfw a ha he
          exact ⟨by omega, fun h3 => by omega⟩
    intro s p hpth
    exact (key p s s hpth).2 rfl

omit hL hf in
/-- In a finite set of states without cycles, every set of states has one with no predecessor in the set. -/
theorem exists_first (f : Fsa W) (hac : ∀ s p, Path f.arcs s p s → ∀ a ∈ p, a.src = a.dst) (n : Nat)
    (U : Nat → Prop) (hU : ∀ s, U s → s < n) (s0 : Nat) (h0 : U s0) :
    ∃ s, U s ∧ ∀ a ∈ f.arcs, a.dst = s → a.src ≠ s → ¬ U a.src := by
  by_contra hc
  have hpre : ∀ s, U s → ∃ a ∈ f.arcs, a.dst = s ∧ a.src ≠ s ∧ U a.src := by
    intro s hs
    by_contra h
    exact hc ⟨s, hs, fun a ha h1 h2 h3 => h ⟨a, ha, h1, h2, h3⟩⟩
  -- a chain of predecessors of any length
  have hchain : ∀ k, ∃ L : List Nat, L.length = k + 1 ∧ (∀ s ∈ L, U s) ∧
      ∀ i j : Nat, i < j → ∀ s t : Nat, L[i]? = some s → L[j]? = some t →
        ∃ p a, Path f.arcs s p t ∧ a ∈ p ∧ a.src ≠ a.dst := by
    intro k
    induction k with
    | zero =>
      refine ⟨[s0], rfl, by simpa using h0, ?_⟩
      intro i j hij s t h1 h2
      have := (List.getElem?_eq_some_iff.mp h2).1
      simp at this; omega
    | succ k ih =>
      obtain ⟨L, h1, h2, h3⟩ := ih
      cases L with
      | nil => simp at h1
      | cons u L =>
        obtain ⟨a, ha, had, has, hau⟩ := hpre u (h2 u List.mem_cons_self)
        refine ⟨a.src :: u :: L, by simpa using h1, ?_, ?_⟩
        · intro s hs
          rcases List.mem_cons.mp hs with rfl | hs
          · exact hau
          · exact h2 s hs
        · intro i j hij s t hs ht
          obtain ⟨j, rfl⟩ : ∃ j', j = j' + 1 := ⟨j - 1, by omega⟩
          rw [List.getElem?_cons_succ] at ht
          cases i with
          | succ i =>
            rw [List.getElem?_cons_succ] at hs
            exact h3 i j (by omega) s t hs ht
          | zero =>
            obtain rfl : a.src = s := by simpa using hs
            have hstep : Path f.arcs a.src [a] u := by
              rw [path_cons, path_nil]; exact ⟨ha, rfl, had⟩
            cases j with
            | zero =>
              obtain rfl : u = t := by simpa using ht
              exact ⟨[a], a, hstep, by simp, by rw [had]; exact has⟩
            | succ j =>
              obtain ⟨p, b, hp, _, _⟩ := h3 0 (j + 1) (by omega) u t rfl ht
              exact ⟨a :: p, a, (path_cons _ _ _ _ _).mpr ⟨ha, rfl, by rw [had]; exact hp⟩,
                List.mem_cons_self, by rw [had]; exact has⟩
  obtain ⟨L, h1, h2, h3⟩ := hchain n
  have hnd : L.Nodup := by
    rw [List.nodup_iff_getElem?_ne_getElem?]
    intro i j hij hj he
    have hi := List.getElem?_eq_getElem (show i < L.length by omega)
    obtain ⟨p, a, hp, ha, hne⟩ := h3 i j hij _ _ hi (by rw [← he]; exact hi)
    exact hne (hac _ p hp a ha)
  have hsub : L.Subperm (List.range n) :=
    List.subperm_of_subset hnd (fun s hs => List.mem_range.mpr (hU s (h2 s hs)))
  have := hsub.length_le
  rw [List.length_range] at this
  omega

include hA in
/-- The row of a sortable FSA is complete. -/
theorem row_of_sortable (hs : Sortable (rowsFsa f)) :
    (orderRow T Bs.flatten r).Perm ((List.range f.length).map (off T r + ·)) := by
  have hr := (List.getElem?_eq_some_iff.mp hf).1
  have htwo : 2 ≤ f.length := hs.two
  have hsucc := off_succ T r f hf
  have hall : ∀ s, s < f.length → s + 1 ≠ f.length → off T r + s ∈ Bs.flatten := by
    intro s hsl hnf
    by_contra hc
    obtain ⟨u, ⟨hu1, hu2, hu3⟩, hu4⟩ := exists_first (rowsFsa f) hs.acyclic f.length
      (fun s => s < f.length ∧ s + 1 ≠ f.length ∧ off T r + s ∉ Bs.flatten) (fun s h => h.1) s
      ⟨hsl, hnf, hc⟩
    have hdone := hL.done (off T r + u) (off_lt T r u f hf hu1)
    rw [List.nil_append] at hdone
    apply hu3
    rw [← hdone, (fin_iff T r u f hf hu1).mpr hu2, Nat.add_zero, into_zero]
    intro j hj h1 h2
    obtain ⟨r', f', a, hf', ha, h3, h4⟩ := hA.back j hj
    obtain ⟨h5, h6, _⟩ := hA.out r' f' a hf' ha
    obtain ⟨rfl, rfl⟩ := off_inj T r' r a.dst u f' f hf' hf h6 hu1 (by rw [← h4, h1])
    rw [hf] at hf'
    obtain rfl := Option.some.inj hf'
    by_contra hc
    rw [h3] at hc h2
    apply hu4 a ha rfl (by omega)
    refine ⟨h5, ?_, hc⟩
    intro hfin
    have := hs.final a ha (show a.src = f.length - 1 by omega)
    have : a.dst = f.length - 1 := this
    omega
  apply (List.perm_ext_iff_of_nodup (orderRow_nodup T dst Bs hL r hr) ?_).mpr
  · intro v
    constructor
    · intro hv
      obtain ⟨s, hs, rfl⟩ := orderRow_mem T dst Bs hL r f hf v hv
      exact List.mem_map.mpr ⟨s, List.mem_range.mpr hs, rfl⟩
    · intro hv
      obtain ⟨s, hsm, rfl⟩ := List.mem_map.mp hv
      have hsl := List.mem_range.mp hsm
      unfold orderRow
      by_cases hfin : s + 1 = f.length
      · apply List.mem_append_right
        rw [if_pos (by omega), List.mem_singleton]
        omega
      · apply List.mem_append_left
        exact List.mem_filter.mpr ⟨hall s hsl hfin, by simpa using keyOf_off T r s f hf hsl⟩
  · exact List.nodup_range.map (fun a b h => by simpa using h)

include hA in
omit hL in
theorem start_of_sortable (hs : Sortable (rowsFsa f)) : off T r ∈ firstStates T dst := by
  have htwo : 2 ≤ f.length := hs.two
  have hlt := off_lt T r 0 f hf (by omega)
  rw [Nat.add_zero] at hlt
  refine List.mem_filter.mpr ⟨List.mem_range.mpr hlt, ?_⟩
  rw [decide_eq_true_iff]
  have h1 := (fin_iff T r 0 f hf (by omega)).mpr (by omega)
  rw [Nat.add_zero] at h1
  rw [h1, Nat.add_zero, into_zero]
  intro j hj h2 h3
  exfalso
  obtain ⟨r', f', a, hf', ha, h4, h5⟩ := hA.back j hj
  obtain ⟨h6, h7, _⟩ := hA.out r' f' a hf' ha
  obtain ⟨rfl, h8⟩ := off_inj T r' r a.dst 0 f' f hf' hf h7 (by omega) (by rw [← h5, h2, Nat.add_zero])
  rw [hf] at hf'
  obtain rfl := Option.some.inj hf'
  have := hs.start a ha h8
  omega

end

/-! ## The whole function -/

/-- An order of the threads for every launch of the kernel. -/
def Schedule (sched : Nat → Nat → List Nat) : Prop := ∀ k n, (sched k n).Perm (List.range n)

theorem rows_wholeOrder (T : List (List (List (Arc W)))) (A : List Nat)
    (h : ∀ r < T.length, ∀ v ∈ orderRow T A r, off T r ≤ v) :
    wholeOrder (T.zipIdx.map (fun p => (localOrder T A p.2, p.1))) =
      ((List.range T.length).map (orderRow T A)).flatten := by
  have hsnd : (T.zipIdx.map (fun p => (localOrder T A p.2, p.1))).map Prod.snd = T := by
    rw [List.map_map]
    exact List.zipIdx_map_fst 0 T
  unfold wholeOrder
  rw [hsnd]
  congr 1
  apply List.ext_getElem?
  intro r
  simp only [List.getElem?_map, List.getElem?_zipIdx, Nat.zero_add]
  by_cases hr : r < T.length
  · rw [List.getElem?_eq_getElem hr, List.getElem?_range hr]
    simp only [Option.map_some, localOrder, List.map_map]
    congr 1
    conv_rhs => rw [← List.map_id (orderRow T A r)]
    apply List.map_congr_left
    intro v hv
    have := h r hr v hv
    simp only [Function.comp_apply, id]; omega
  · rw [List.getElem?_eq_none (by omega), List.getElem?_eq_none (by rw [List.length_range]; omega)]
    rfl

/-- Everything about `TopSort` that does not depend on the schedule. -/
theorem topSortVec_cases (T : List (List (List (Arc W)))) (hT : VecOk T) :
    (∃ (out : List (List (List (Arc W)))) (ords ms : List (List Nat)),
      (∀ sched, Schedule sched → topSortVec sched (flat T) = some (flat out, joinMaps T ms)) ∧
      out.length = T.length ∧ ms.length = T.length ∧ ords.length = T.length ∧
      ∀ (r : Nat) (f : List (List (Arc W))), T[r]? = some f →
        (f = [] ∨ Sortable (rowsFsa f)) ∧
        ∃ g ord m, out[r]? = some g ∧ ords[r]? = some ord ∧ ms[r]? = some m ∧
          TopSorted (rowsFsa f) (rowsFsa g) ord m) ∨
    ((∀ sched, Schedule sched → topSortVec sched (flat T) = none) ∧
      ∃ f ∈ T, f ≠ [] ∧ ¬ Sortable (rowsFsa f)) := by
  obtain ⟨dest, dst, e1, hd, hA⟩ := arcsOk_of_dest T hT
  obtain ⟨Bs, hloop, hL, hhead⟩ := batches_eq T dest dst hd
  have hB0 : Asc T (firstStates T dst) := asc_filter T _
  have e2 := initDegrees_eq T dest dst hd
  have e3 := initialBatch_eq T dst
  have e4 := catBatches_eq T Bs hL.asc
  have hrun : ∀ sched, Schedule sched → topSortVec sched (flat T) =
      (startPresent (flat T) (batchOf (keyOf T) T.length (firstStates T dst))).bind (fun ok =>
        if ok = true then
          if ((List.range T.length).map (orderRow T Bs.flatten)).flatten.length = T.flatten.length then
            renumberVec (flat T) ((List.range T.length).map (orderRow T Bs.flatten)).flatten else none
        else none) := by
    intro sched hs
    unfold topSortVec
    simp only [e1, e2, e3, Option.bind_eq_bind, Option.bind_some, flat_id1_length, hloop sched hs, e4]
  by_cases hall : ∀ f ∈ T, f = [] ∨ Sortable (rowsFsa f)
  · left
    have hrows : ∀ (r : Nat) (f : List (List (Arc W))), T[r]? = some f →
        (orderRow T Bs.flatten r).Perm ((List.range f.length).map (off T r + ·)) := by
      intro r f hf
      rcases hall f (List.mem_of_getElem? hf) with rfl | h
      · have := orderRow_subperm T dst Bs hL r [] hf
        have h0 : (orderRow T Bs.flatten r).length ≤ 0 := by simpa using this.length_le
        rw [List.length_eq_zero_iff.mp (Nat.le_zero.mp h0)]
        simp
      · exact row_of_sortable hA hL hf h
    have hstart : ∀ (r : Nat) (f : List (List (Arc W))), T[r]? = some f → f ≠ [] →
        off T r ∈ firstStates T dst := by
      intro r f hf hne
      rcases hall f (List.mem_of_getElem? hf) with rfl | h
      · exact absurd rfl hne
      · exact start_of_sortable hA hf h
    set P := T.zipIdx.map (fun p => (localOrder T Bs.flatten p.2, p.1)) with hP
    have hPget : ∀ (r : Nat) (f : List (List (Arc W))), T[r]? = some f →
        P[r]? = some (localOrder T Bs.flatten r, f) := by
      intro r f hf
      rw [hP, List.getElem?_map, List.getElem?_zipIdx, hf]; simp
    have hsnd : P.map Prod.snd = T := by
      rw [hP, List.map_map]
      exact List.zipIdx_map_fst 0 T
    have hPl : P.length = T.length := by rw [hP]; simp
    have hPperm : ∀ p ∈ P, p.1.Perm (List.range p.2.length) := by
      intro p hp
      obtain ⟨r, hr⟩ := List.getElem?_of_mem hp
      have hrl := (List.getElem?_eq_some_iff.mp hr).1
      have hf := List.getElem?_eq_getElem (show r < T.length by omega)
      rw [hPget r _ hf] at hr
      obtain rfl := Option.some.inj hr
      exact localOrder_perm (hrows r _ hf)
    have hord : wholeOrder P = ((List.range T.length).map (orderRow T Bs.flatten)).flatten := by
      apply rows_wholeOrder
      intro r hr v hv
      obtain ⟨s, _, rfl⟩ := orderRow_mem T dst Bs hL r _ (List.getElem?_eq_getElem hr) v hv
      omega
    have hren := renumberVec_eq P hPperm (by rw [hsnd]; exact hT)
    rw [hsnd, hord] at hren
    refine ⟨permVec P, P.map Prod.fst, P.map (fun p => permMap p.1 p.2), ?_, by
      rw [permVec, List.length_map, hPl], by rw [List.length_map, hPl], by rw [List.length_map, hPl], ?_⟩
    · intro sched hs
      rw [hrun sched hs, (startPresent_iff T _ hB0).mpr hstart, Option.bind_some, if_pos rfl,
        if_pos ((order_length_iff T dst Bs hL).mpr hrows), hren]
    · intro r f hf
      refine ⟨hall f (List.mem_of_getElem? hf), _, _, _, by rw [permVec, List.getElem?_map, hPget r f hf]; rfl,
        by rw [List.getElem?_map, hPget r f hf]; rfl, by rw [List.getElem?_map, hPget r f hf]; rfl, ?_⟩
      exact permFsa_topSorted hA hL hhead hf (hrows r f hf) (hstart r f hf)
  · right
    constructor
    · intro sched hs
      rw [hrun sched hs]
      by_contra hne
      apply hall
      obtain ⟨out, hout⟩ := Option.ne_none_iff_exists'.mp hne
      obtain ⟨ok, hok, hout⟩ := Option.bind_eq_some_iff.mp hout
      split at hout
      · next h1 =>
        subst h1
        split at hout
        · next h2 =>
          intro f hfm
          obtain ⟨r, hf⟩ := List.getElem?_of_mem hfm
          by_cases hz : f = []
          · exact Or.inl hz
          · right
            exact sortable_of_row hA hL hf hz ((startPresent_iff T _ hB0).mp hok r f hf hz)
              ((order_length_iff T dst Bs hL).mp h2 r f hf)
        · simp at hout
      · simp at hout
    · by_contra hc
      apply hall
      intro f hf
      by_cases hz : f = []
      · exact Or.inl hz
      · right
        by_contra h
        exact hc ⟨f, hf, hz, h⟩

end Top

open Verif.Fsa.Top

/-- **C18.** `TopSort` succeeds exactly if every FSA is empty or sortable, whatever the order in which the
threads of its kernels run. -/
theorem topSortVec_succeeds (sched : Nat → Nat → List Nat) (hs : Schedule sched)
    (T : List (List (List (Arc W)))) (hT : VecOk T) :
    topSortVec sched (flat T) ≠ none ↔ ∀ f ∈ T, f = [] ∨ Sortable (rowsFsa f) := by
  rcases topSortVec_cases T hT with ⟨out, ords, ms, h1, _, _, _, h2⟩ | ⟨h1, f, hf, hz, hns⟩
  · rw [h1 sched hs]
    simp only [ne_eq, reduceCtorEq, not_false_eq_true, true_iff]
    intro f hf
    obtain ⟨r, hr⟩ := List.getElem?_of_mem hf
    exact (h2 r f hr).1
  · rw [h1 sched hs]
    simp only [ne_eq, not_true_eq_false, false_iff]
    intro h
    rcases h f hf with h | h
    · exact hz h
    · exact hns h

/-- **C18.** What `TopSort` returns: FSA by FSA, the same arcs with the states in topological order. -/
theorem topSortVec_spec (sched : Nat → Nat → List Nat) (hs : Schedule sched)
    (T : List (List (List (Arc W)))) (hT : VecOk T) (h : ∀ f ∈ T, f = [] ∨ Sortable (rowsFsa f)) :
    ∃ (out : List (List (List (Arc W)))) (ords ms : List (List Nat)),
      topSortVec sched (flat T) = some (flat out, joinMaps T ms) ∧
      out.length = T.length ∧ ms.length = T.length ∧
      ∀ (r : Nat) (f : List (List (Arc W))), T[r]? = some f →
        ∃ g ord m, out[r]? = some g ∧ ords[r]? = some ord ∧ ms[r]? = some m ∧
          TopSorted (rowsFsa f) (rowsFsa g) ord m := by
  rcases topSortVec_cases T hT with ⟨out, ords, ms, h1, h3, h4, _, h2⟩ | ⟨_, f, hf, hz, hns⟩
  · exact ⟨out, ords, ms, h1 sched hs, h3, h4, fun r f hf => (h2 r f hf).2⟩
  · rcases h f hf with h | h
    · exact absurd h hz
    · exact absurd h hns

/-- **C18.** The result does not depend on the order of the threads. -/
theorem topSortVec_deterministic (s1 s2 : Nat → Nat → List Nat) (h1 : Schedule s1) (h2 : Schedule s2)
    (T : List (List (List (Arc W)))) (hT : VecOk T) : topSortVec s1 (flat T) = topSortVec s2 (flat T) := by
  rcases topSortVec_cases T hT with ⟨out, ords, ms, h, _⟩ | ⟨h, _⟩
  · rw [h s1 h1, h s2 h2]
  · rw [h s1 h1, h s2 h2]


/-! ## Paths -/

namespace Top

theorem ipath_nil (A : List (Arc W)) (s t : Nat) : IPath A s [] t ↔ s = t := by
  constructor
  · rintro ⟨p, hc, hp⟩
    cases p with
    | nil => exact hc
    | cons a p => simp at hp
  · intro h
    exact ⟨[], h, rfl⟩

theorem ipath_cons (A : List (Arc W)) (s t i : Nat) (is : List Nat) :
    IPath A s (i :: is) t ↔ ∃ a : Arc W, A[i]? = some a ∧ a.src = s ∧ IPath A a.dst is t := by
  constructor
  · rintro ⟨p, hc, hp⟩
    cases p with
    | nil => simp at hp
    | cons a p =>
      simp only [List.map_cons, List.cons.injEq] at hp
      exact ⟨a, hp.1, hc.1, p, hc.2, hp.2⟩
  · rintro ⟨a, ha, hs, p, hc, hp⟩
    exact ⟨a :: p, ⟨hs, hc⟩, by simp only [List.map_cons, ha, hp]⟩

theorem ipath_moved {f g : Fsa W} {ord m : List Nat} (h : TopSorted f g ord m) :
    ∀ (is js : List Nat), is.map (fun i => m[i]?) = js.map some → ∀ s s' t t' : Nat, ord[s]? = some s' →
      ord[t]? = some t' → (IPath f.arcs s' js t' ↔ IPath g.arcs s is t) := by
  have hnd : ord.Nodup := h.ord_perm.nodup_iff.mpr List.nodup_range
  have hinj : ∀ s t u : Nat, ord[s]? = some u → ord[t]? = some u → s = t := by
    intro s t u h1 h2
    rw [← idxOf_get ord hnd s u h1, ← idxOf_get ord hnd t u h2]
  intro is
  induction is with
  | nil =>
    intro js hm s s' t t' hs ht
    cases js with
    | cons j js => simp at hm
    | nil =>
      rw [ipath_nil, ipath_nil]
      constructor
      · rintro rfl; exact hinj _ _ _ hs ht
      · rintro rfl; rw [hs] at ht; exact Option.some.inj ht
  | cons i is ih =>
    intro js hm s s' t t' hs ht
    cases js with
    | nil => simp at hm
    | cons j js =>
      simp only [List.map_cons, List.cons.injEq] at hm
      obtain ⟨a, b, ha, hb, h1, h2, _, _⟩ := h.arcs i j hm.1
      rw [ipath_cons, ipath_cons]
      constructor
      · rintro ⟨b', hb', hsrc, hp⟩
        rw [hb] at hb'
        obtain rfl := Option.some.inj hb'
        refine ⟨a, ha, ?_, (ih js hm.2 _ _ _ _ h2 ht).mp hp⟩
        rw [hsrc] at h1
        exact hinj _ _ _ h1 hs
      · rintro ⟨a', ha', hsrc, hp⟩
        rw [ha] at ha'
        obtain rfl := Option.some.inj ha'
        refine ⟨b, hb, ?_, (ih js hm.2 _ _ _ _ h2 ht).mpr hp⟩
        rw [hsrc, hs] at h1
        exact (Option.some.inj h1).symm

end Top

/-- **C18.** The accepting paths of the sorted FSA are those of the given one. -/
theorem TopSorted.paths {f g : Fsa W} {ord m : List Nat} (h : TopSorted f g ord m) (js : List Nat) :
    IAccepting f js ↔ ∃ is : List Nat, is.map (fun i => m[i]?) = js.map some ∧ IAccepting g is := by
  have hfin : g.final = f.final := by unfold Fsa.final; rw [h.states]
  constructor
  · rintro ⟨h0, hp⟩
    have hex : ∀ js : List Nat, (∀ j ∈ js, j < f.arcs.length) →
        ∃ is : List Nat, is.map (fun i => m[i]?) = js.map some := by
      intro js
      induction js with
      | nil => intro _; exact ⟨[], rfl⟩
      | cons j js ih =>
        intro hj
        obtain ⟨is, his⟩ := ih (fun j h => hj j (List.mem_cons_of_mem _ h))
        have : j ∈ m := h.map_perm.mem_iff.mpr (List.mem_range.mpr (hj j List.mem_cons_self))
        obtain ⟨i, hi⟩ := List.getElem?_of_mem this
        exact ⟨i :: is, by simp only [List.map_cons, hi, his]⟩
    obtain ⟨is, his⟩ := hex js (by
      obtain ⟨p, _, hp⟩ := hp
      intro j hj
      have : f.arcs[j]? ∈ p.map some := by rw [← hp]; exact List.mem_map.mpr ⟨j, hj, rfl⟩
      obtain ⟨a, _, ha⟩ := List.mem_map.mp this
      exact (List.getElem?_eq_some_iff.mp ha.symm).1)
    refine ⟨is, his, by rw [h.states]; exact h0, ?_⟩
    rw [hfin]
    exact (ipath_moved h is js his 0 0 _ _ (h.start h0) (h.final h0)).mp hp
  · rintro ⟨is, his, h0, hp⟩
    rw [h.states] at h0
    rw [hfin] at hp
    exact ⟨h0, (ipath_moved h is js his 0 0 _ _ (h.start h0) (h.final h0)).mpr hp⟩

/-! ## Connected FSAs -/

/-- **C18.** A connected FSA with two states or more is sortable exactly if its only cycles are self-loops. -/
theorem sortable_connected (f : Fsa W) (h2 : 2 ≤ f.numStates) (hb : ∀ a ∈ f.arcs, a.src < f.numStates ∧ a.dst < f.numStates)
    (hacc : Accessible f) (hco : Coaccessible f) :
    Sortable f ↔ ∀ s p, Path f.arcs s p s → ∀ a ∈ p, a.src = a.dst := by
  constructor
  · exact fun h => h.acyclic
  · intro hac
    refine ⟨h2, ?_, ?_, hac⟩
    · intro a ha hd
      obtain ⟨p, hp⟩ := hacc a.src (hb a ha).1
      have : Path f.arcs 0 (p ++ [a]) 0 := by
        rw [path_append]
        exact ⟨a.src, hp, by rw [path_cons, path_nil]; exact ⟨ha, rfl, hd⟩⟩
      rw [hac 0 _ this a (by simp), hd]
    · intro a ha hs
      obtain ⟨p, hp⟩ := hco a.dst (hb a ha).2
      have : Path f.arcs f.final (a :: p) f.final := by
        rw [path_cons]; exact ⟨ha, hs, hp⟩
      rw [← hac _ _ this a (by simp), hs]

/-! ## A single FSA -/

/-- `TopSort` of an FSA with two axes, top_sort.cu 358-372. -/
def topSortOne (sched : Nat → Nat → List Nat) (f : List (List (Arc W))) : Option (List (List (Arc W)) × List Nat) := do
  let r ← topSortVec sched (flat [f])
  let g ← element r.1 0
  some (g, r.2)

/-- **C18.** `TopSort` of a single FSA. -/
theorem topSortOne_spec (sched : Nat → Nat → List Nat) (hs : Schedule sched) (f : List (List (Arc W)))
    (hf : RowsOk f) :
    (∃ g ord m, topSortOne sched f = some (g, m) ∧ (f = [] ∨ Sortable (rowsFsa f)) ∧
      TopSorted (rowsFsa f) (rowsFsa g) ord m) ∨
    (topSortOne sched f = none ∧ f ≠ [] ∧ ¬ Sortable (rowsFsa f)) := by
  have hT : VecOk [f] := by intro g hg; simp only [List.mem_singleton] at hg; subst hg; exact hf
  rcases topSortVec_cases [f] hT with ⟨out, ords, ms, h1, _, h3, _, h2⟩ | ⟨h1, g, hg, hz, hns⟩
  · left
    obtain ⟨h4, g, ord, m, h5, _, h6, h7⟩ := h2 0 f rfl
    refine ⟨g, ord, m, ?_, h4, h7⟩
    unfold topSortOne
    simp only [h1 sched hs, Option.bind_eq_bind, Option.bind_some]
    rw [element_flat _ 0 g h5]
    obtain rfl : ms = [m] := by
      cases ms with
      | nil => simp at h6
      | cons x ms =>
        cases ms with
        | nil => simpa using h6
        | cons y ms => simp at h3
    simp [joinMaps, psum, psumFrom]
  · right
    simp only [List.mem_singleton] at hg
    subst hg
    refine ⟨?_, hz, hns⟩
    unfold topSortOne
    simp only [h1 sched hs, Option.bind_eq_bind, Option.bind_none]

/-- **C18, disagreement.** A state that cannot be reached is kept, although the comments (top_sort.cu 286-288)
say that the output may then have fewer states. -/
theorem topSort_keeps_unreachable :
    topSortOne (fun _ n => List.range n) ([[⟨0, 2, -1, 0⟩], [⟨1, 2, -1, 1⟩], []] : List (List (Arc Nat))) =
      some ([[⟨0, 2, -1, 0⟩], [⟨1, 2, -1, 1⟩], []], [0, 1]) := by
  decide +kernel

/-- The model run with the order of the CPU loop. -/
example : topSortVec (fun _ n => List.range n)
    (⟨[0, 4], [0, 0, 0, 0], [0, 2, 4, 5, 5], [0, 0, 1, 1, 2],
      [⟨0, 2, 1, 0⟩, ⟨0, 1, 2, 0⟩, ⟨1, 1, 3, 0⟩, ⟨1, 3, -1, 1⟩, ⟨2, 1, 5, 2⟩]⟩ : FsaVec Nat) =
    some (⟨[0, 4], [0, 0, 0, 0], [0, 2, 3, 5, 5], [0, 0, 1, 2, 2],
      [⟨0, 1, 1, 0⟩, ⟨0, 2, 2, 0⟩, ⟨1, 2, 5, 2⟩, ⟨2, 2, 3, 0⟩, ⟨2, 3, -1, 1⟩]⟩, [0, 1, 4, 2, 3]) := by
  decide +kernel

/-- The hypotheses of the theorems hold for an FSA whose states are not in order. -/
example : RowsOk ([[⟨0, 2, 1, 0⟩, ⟨0, 1, 2, 0⟩], [⟨1, 1, 3, 0⟩, ⟨1, 3, -1, 1⟩], [⟨2, 1, 5, 2⟩], []] :
    List (List (Arc Nat))) ∧ Schedule (fun _ n => (List.range n).reverse) ∧
    topSortOne (fun _ n => (List.range n).reverse)
      ([[⟨0, 2, 1, 0⟩, ⟨0, 1, 2, 0⟩], [⟨1, 1, 3, 0⟩, ⟨1, 3, -1, 1⟩], [⟨2, 1, 5, 2⟩], []] :
        List (List (Arc Nat))) =
      some ([[⟨0, 1, 1, 0⟩, ⟨0, 2, 2, 0⟩], [⟨1, 2, 5, 2⟩], [⟨2, 2, 3, 0⟩, ⟨2, 3, -1, 1⟩], []], [0, 1, 4, 2, 3]) := by
  refine ⟨?_, fun k n => List.reverse_perm _, by decide +kernel⟩
  intro s row hs a ha
  match s, hs with
  | 0, hs => simp at hs; subst hs; simp at ha; rcases ha with rfl | rfl <;> decide
  | 1, hs => simp at hs; subst hs; simp at ha; rcases ha with rfl | rfl <;> decide
  | 2, hs => simp at hs; subst hs; simp at ha; subst ha; decide
  | 3, hs => simp at hs; subst hs; simp at ha
  | n + 4, hs => simp at hs

/-- A cycle between two states makes the function fail. -/
example : topSortOne (fun _ n => List.range n)
    ([[⟨0, 1, 1, 0⟩], [⟨1, 2, 1, 0⟩, ⟨1, 3, -1, 0⟩], [⟨2, 1, 1, 0⟩], []] : List (List (Arc Nat))) = none := by
  decide +kernel

end Verif.Fsa
