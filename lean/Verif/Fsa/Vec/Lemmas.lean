import Verif.Fsa.Vec.Model
import Verif.Fsa.Flags.Lemmas

/-!
Indexes into the flat arrays of a vector of FSAs.
-/

namespace Verif.Fsa
open Verif.Ragged Verif.Util
variable {W X : Type}

/-- The number of states before FSA `r` (`idx0x`). -/
def off (T : List (List (List X))) (r : Nat) : Nat := ((T.map List.length).take r).sum

/-- The number of arcs before state `g` (`idx01x`). -/
def apos (T : List (List (List X))) (g : Nat) : Nat := ((T.flatten.map List.length).take g).sum

theorem off_succ (T : List (List (List X))) (r : Nat) (f : List (List X)) (hf : T[r]? = some f) :
    off T (r + 1) = off T r + f.length := by
  unfold off
  exact take_succ_sum _ _ _ (by rw [List.getElem?_map, hf]; rfl)

theorem apos_succ (T : List (List (List X))) (g : Nat) (row : List X) (hg : T.flatten[g]? = some row) :
    apos T (g + 1) = apos T g + row.length := by
  unfold apos
  exact take_succ_sum _ _ _ (by rw [List.getElem?_map, hg]; rfl)

theorem flat_sp1 (T : List (List (List (Arc W)))) (r : Nat) (h : r ≤ T.length) :
    (flat T).sp1[r]? = some (off T r) := psum_get _ _ (by rw [List.length_map]; exact h)

theorem flat_sp1_succ (T : List (List (List (Arc W)))) (r : Nat) (f : List (List (Arc W)))
    (hf : T[r]? = some f) : (flat T).sp1[r + 1]? = some (off T r + f.length) := by
  rw [flat_sp1 T _ (List.getElem?_eq_some_iff.mp hf).1, off_succ T r f hf]

theorem flat_id1 (T : List (List (List (Arc W)))) (r s : Nat) (f : List (List (Arc W)))
    (hf : T[r]? = some f) (hs : s < f.length) : (flat T).id1[off T r + s]? = some r := by
  refine ids_at (T.map List.length) r f.length s ?_ hs
  rw [List.getElem?_map, hf]; rfl

theorem flat_sp2 (T : List (List (List (Arc W)))) (g : Nat) (h : g ≤ T.flatten.length) :
    (flat T).sp2[g]? = some (apos T g) := psum_get _ _ (by rw [List.length_map]; exact h)

theorem flat_sp2_succ (T : List (List (List (Arc W)))) (g : Nat) (row : List (Arc W))
    (hg : T.flatten[g]? = some row) : (flat T).sp2[g + 1]? = some (apos T g + row.length) := by
  rw [flat_sp2 T _ (List.getElem?_eq_some_iff.mp hg).1, apos_succ T g row hg]

theorem flat_id2 (T : List (List (List (Arc W)))) (g k : Nat) (row : List (Arc W))
    (hg : T.flatten[g]? = some row) (hk : k < row.length) : (flat T).id2[apos T g + k]? = some g := by
  refine ids_at (T.flatten.map List.length) g row.length k ?_ hk
  rw [List.getElem?_map, hg]; rfl

theorem flat_arc (T : List (List (List X))) (g k : Nat) (row : List X)
    (hg : T.flatten[g]? = some row) (hk : k < row.length) :
    T.flatten.flatten[apos T g + k]? = row[k]? := row_at T.flatten g k row hg hk

theorem state_at (T : List (List (List X))) (r s : Nat) (f : List (List X))
    (hf : T[r]? = some f) (hs : s < f.length) : T.flatten[off T r + s]? = f[s]? := row_at T r s f hf hs

theorem state_pos (T : List (List (List X))) (g : Nat) (h : g < T.flatten.length) :
    ∃ (r : Nat) (f : List (List X)) (s : Nat), T[r]? = some f ∧ s < f.length ∧ g = off T r + s := by
  rw [List.length_flatten] at h
  obtain ⟨r, n, s, h4, h5, h6⟩ := ids_pos _ g h
  have hr : r < T.length := by have := (List.getElem?_eq_some_iff.mp h4).1; simpa using this
  have hf := List.getElem?_eq_getElem hr
  rw [List.getElem?_map, hf] at h4
  have := Option.some.inj h4
  exact ⟨r, T[r], s, hf, by omega, h6⟩

theorem arc_pos2 (T : List (List (List X))) (i : Nat) (h : i < T.flatten.flatten.length) :
    ∃ (g : Nat) (row : List X) (k : Nat), T.flatten[g]? = some row ∧ k < row.length ∧ i = apos T g + k := by
  rw [List.length_flatten] at h
  obtain ⟨g, n, k, h4, h5, h6⟩ := ids_pos _ i h
  have hr : g < T.flatten.length := by
    have := (List.getElem?_eq_some_iff.mp h4).1; rwa [List.length_map] at this
  have hf := List.getElem?_eq_getElem hr
  rw [List.getElem?_map, hf] at h4
  have := Option.some.inj h4
  exact ⟨g, T.flatten[g], k, hf, by omega, h6⟩

theorem rowElems_flat (T : List (List (List (Arc W)))) (g : Nat) (row : List (Arc W))
    (hg : T.flatten[g]? = some row) :
    rowElems (flat T).sp2 g = some (List.range' (apos T g) row.length) := by
  have hlt := (List.getElem?_eq_some_iff.mp hg).1
  unfold rowElems
  simp only [flat_sp2 T g (by omega), flat_sp2_succ T g row hg, Option.bind_eq_bind, Option.bind_some,
    Nat.add_sub_cancel_left]

theorem off_inj (T : List (List (List X))) (r r' s s' : Nat) (f f' : List (List X))
    (hf : T[r]? = some f) (hf' : T[r']? = some f') (hs : s < f.length) (hs' : s' < f'.length)
    (he : off T r + s = off T r' + s') : r = r' ∧ s = s' := by
  refine state_unique (T.map List.length) r r' s s' f.length f'.length ?_ ?_ hs hs' he
  · rw [List.getElem?_map, hf]; rfl
  · rw [List.getElem?_map, hf']; rfl

theorem off_lt (T : List (List (List X))) (r s : Nat) (f : List (List X))
    (hf : T[r]? = some f) (hs : s < f.length) : off T r + s < T.flatten.length := by
  have := state_at T r s f hf hs
  rw [List.getElem?_eq_getElem hs] at this
  exact (List.getElem?_eq_some_iff.mp this).1

theorem flat_id1_length (T : List (List (List (Arc W)))) : (flat T).id1.length = T.flatten.length := by
  simp [flat]

theorem flat_sp1_length (T : List (List (List (Arc W)))) : (flat T).sp1.length = T.length + 1 := by
  simp [flat]

/-- All FSAs are well formed. -/
def VecOk (T : List (List (List (Arc W)))) : Prop := ∀ f ∈ T, RowsOk f

theorem VecOk.at {T : List (List (List (Arc W)))} (h : VecOk T) {r s : Nat} {f : List (List (Arc W))}
    {row : List (Arc W)} (hf : T[r]? = some f) (hs : f[s]? = some row) (a : Arc W) (ha : a ∈ row) :
    a.src = s ∧ a.dst < f.length := h f (List.mem_of_getElem? hf) s row hs a ha

theorem destStates_spec (T : List (List (List (Arc W)))) (hT : VecOk T) :
    ∃ dest, destStates (flat T) = some dest ∧ dest.length = T.flatten.flatten.length ∧
      ∀ (r : Nat) (f : List (List (Arc W))) (s : Nat) (row : List (Arc W)) (k : Nat) (a : Arc W),
        T[r]? = some f → f[s]? = some row → row[k]? = some a →
        dest[apos T (off T r + s) + k]? = some (off T r + a.dst) := by
  have hstep : ∀ (r : Nat) (f : List (List (Arc W))) (s : Nat) (row : List (Arc W)) (k : Nat) (a : Arc W),
      T[r]? = some f → f[s]? = some row → row[k]? = some a →
      (do
        let a ← (flat T).arcs[apos T (off T r + s) + k]?
        let r ← (flat T).id2[apos T (off T r + s) + k]?
        some (a.dst + (r - a.src))) = some (off T r + a.dst) := by
    intro r f s row k a hf hs ha
    have hsl := (List.getElem?_eq_some_iff.mp hs).1
    have hk := (List.getElem?_eq_some_iff.mp ha).1
    have hg := state_at T r s f hf hsl
    rw [hs] at hg
    have h1 : (flat T).arcs[apos T (off T r + s) + k]? = some a := by
      rw [← ha]; exact flat_arc T _ k row hg hk
    simp only [h1, flat_id2 T _ k row hg hk, Option.bind_eq_bind, Option.bind_some]
    have := (hT.at hf hs a (List.mem_of_getElem? ha)).1
    congr 1; omega
  have hex : ∀ i ∈ List.range (flat T).arcs.length, ∃ y, (do
      let a ← (flat T).arcs[i]?
      let r ← (flat T).id2[i]?
      some (a.dst + (r - a.src))) = some y := by
    intro i hi
    rw [List.mem_range] at hi
    obtain ⟨r, f, s, row, k, hf, hs, hk, rfl⟩ := arc_pos T i hi
    exact ⟨_, hstep r f s row k row[k] hf hs (List.getElem?_eq_getElem hk)⟩
  obtain ⟨dest, hd⟩ := mapM_exists hex
  obtain ⟨hl, hg⟩ := mapM_get hd
  refine ⟨dest, hd, by simpa [flat] using hl, ?_⟩
  intro r f s row k a hf hs ha
  have hsl := (List.getElem?_eq_some_iff.mp hs).1
  have hk := (List.getElem?_eq_some_iff.mp ha).1
  have hgg := state_at T r s f hf hsl
  rw [hs] at hgg
  have h1 := flat_arc T _ k row hgg hk
  rw [ha] at h1
  have hlt := (List.getElem?_eq_some_iff.mp h1).1
  rw [hg (apos T (off T r + s) + k) _ (List.getElem?_range hlt)]
  exact hstep r f s row k a hf hs ha

/-! ## Incoming arcs -/

/-- The positions of a value. -/
def positions (vs : List Nat) (i : Nat) (c : Nat) : List Nat :=
  ((vs.zipIdx i).filter (fun p => p.1 == c)).map Prod.snd

theorem positions_cons (v : Nat) (vs : List Nat) (i c : Nat) :
    positions (v :: vs) i c = (if v = c then [i] else []) ++ positions vs (i + 1) c := by
  unfold positions
  rw [List.zipIdx_cons, List.filter_cons]
  by_cases h : v = c <;> simp [h]

theorem fillBuckets_eq (vs : List Nat) (i : Nat) (b : List (List Nat)) (h : ∀ v ∈ vs, v < b.length) :
    fillBuckets vs i b = some (b.mapIdx (fun c l => l ++ positions vs i c)) := by
  induction vs generalizing i b with
  | nil =>
    rw [fillBuckets]
    congr 1
    apply List.ext_getElem?
    intro j
    rw [List.getElem?_mapIdx]
    cases b[j]? <;> simp [positions]
  | cons v vs ih =>
    have hv := h v (List.mem_cons_self ..)
    rw [fillBuckets, List.getElem?_eq_getElem hv]
    simp only [Option.bind_eq_bind, Option.bind_some]
    rw [ih _ _ (by intro u hu; rw [List.length_set]; exact h u (List.mem_cons_of_mem _ hu))]
    congr 1
    apply List.ext_getElem?
    intro j
    rw [List.getElem?_mapIdx, List.getElem?_mapIdx, List.getElem?_set]
    by_cases hj : v = j
    · subst hj
      rw [if_pos rfl, if_pos hv, List.getElem?_eq_getElem hv]
      simp [positions_cons]
    · rw [if_neg hj]
      cases b[j]? <;> simp [positions_cons, hj]

theorem positions_mem (vs : List Nat) (c j : Nat) : j ∈ positions vs 0 c ↔ vs[j]? = some c := by
  unfold positions
  simp only [List.mem_map, List.mem_filter, Prod.exists, beq_iff_eq]
  constructor
  · rintro ⟨v, k, ⟨h1, rfl⟩, rfl⟩
    have := List.mk_mem_zipIdx_iff_getElem?.mp h1
    exact this
  · intro h
    exact ⟨c, j, ⟨List.mk_mem_zipIdx_iff_getElem?.mpr h, rfl⟩, rfl⟩

/-- The buckets: for each state the arcs that enter it. -/
def buckets (dest : List Nat) (n : Nat) : List (List Nat) := (List.range n).map (positions dest 0)

theorem gather_buckets (dest : List Nat) (B : List (List Nat)) (c0 : Nat)
    (h : ∀ (c : Nat) (l : List Nat), B[c]? = some l → ∀ i ∈ l, dest[i]? = some (c0 + c)) :
    gather dest B.flatten = some (idsFrom c0 (B.map List.length)) := by
  induction B generalizing c0 with
  | nil => rfl
  | cons l B ih =>
    have h1 := ih (c0 + 1) (fun c l' hc i hi => by
      rw [h (c + 1) l' (by simpa using hc) i hi]; congr 1; omega)
    have h2 : gather dest l = some (List.replicate l.length c0) := by
      unfold gather
      apply mapM_some_of _ _ _ (by simp)
      intro i b hb
      have := h 0 l rfl b (List.mem_of_getElem? hb)
      rw [this, List.getElem?_replicate, if_pos (List.getElem?_eq_some_iff.mp hb).1]
      rfl
    unfold gather at *
    rw [List.flatten_cons, List.mapM_append, h1, h2]
    rfl

theorem incomingArcs_eq (dest : List Nat) (n : Nat) (h : ∀ v ∈ dest, v < n) :
    incomingArcs dest n =
      some (psum ((buckets dest n).map List.length), (buckets dest n).flatten) := by
  have hb : fillBuckets dest 0 (List.replicate n []) = some (buckets dest n) := by
    rw [fillBuckets_eq _ _ _ (by simpa using h)]
    congr 1
    apply List.ext_getElem?
    intro j
    rw [List.getElem?_mapIdx, buckets, List.getElem?_map]
    by_cases hj : j < n
    · rw [List.getElem?_replicate, if_pos hj, List.getElem?_range hj]; simp
    · rw [List.getElem?_eq_none (by simpa using hj), List.getElem?_eq_none (by simpa using hj)]; rfl
  have hg := gather_buckets dest (buckets dest n) 0 (by
    intro c l hc i hi
    obtain ⟨hlt, hc⟩ := List.getElem?_eq_some_iff.mp hc
    subst hc
    simp only [buckets, List.getElem_map, List.getElem_range] at hi
    rw [Nat.zero_add]
    exact (positions_mem dest c i).mp hi)
  have hlen : ((buckets dest n).map List.length).length = n := by simp [buckets]
  have hr := rowIdsToRowSplits_idsFrom ((buckets dest n).map List.length)
  rw [hlen] at hr
  unfold incomingArcs transposeReordering
  simp only [hb, hg, hr, Option.bind_eq_bind, Option.bind_some]

theorem buckets_get (dest : List Nat) (n c : Nat) (h : c < n) :
    (buckets dest n)[c]? = some (positions dest 0 c) := by
  simp [buckets, h]

end Verif.Fsa
