import Verif.Ragged.UnstackLemmas
import Verif.Ragged.UnstackSpec
import Verif.Ragged.CatCore
import Verif.Ragged.RemoveEmptyProps

/-! The parts of `Unstack`, for `UnstackProps.lean`. -/

namespace Verif.Ragged
open Verif.Util
variable {α X Y : Type}

/-! ## Columns -/

/-- The position of element `k` of a list of length `len` in the filled list. -/
def place (padRight : Bool) (N len k : Nat) : Nat := if padRight then k else N - len + k

theorem column_iff (padRight : Bool) (N j : Nat) (L : List X) (x : X) :
    column padRight N j L = some x ↔
      ∃ k, L[k]? = some x ∧ j = place padRight N L.length k := by
  unfold column padded place
  cases padRight with
  | true =>
    simp only [if_pos]
    by_cases hj : j < L.length
    · rw [List.getElem?_append_left (by simpa using hj), List.getElem?_map,
        List.getElem?_eq_getElem hj]
      simp only [Option.map_some, Option.getD_some, Option.some.injEq]
      constructor
      · intro h; exact ⟨j, by rw [List.getElem?_eq_getElem hj, h], rfl⟩
      · rintro ⟨k, h1, rfl⟩
        rw [List.getElem?_eq_getElem hj] at h1; exact Option.some.inj h1
    · rw [List.getElem?_append_right (by simpa using hj), List.getElem?_replicate]
      constructor
      · intro h
        split at h <;> simp at h
      · rintro ⟨k, h1, rfl⟩
        exact absurd (List.getElem?_eq_some_iff.mp h1).1 hj
  | false =>
    simp only [Bool.false_eq_true, if_false]
    by_cases hj : j < N - L.length
    · rw [List.getElem?_append_left (by simpa using hj), List.getElem?_replicate, if_pos hj]
      constructor
      · intro h; simp at h
      · rintro ⟨k, h1, rfl⟩; omega
    · rw [List.getElem?_append_right (by simp; omega), List.length_replicate, List.getElem?_map]
      constructor
      · intro h
        cases hv : L[j - (N - L.length)]? with
        | none => rw [hv] at h; simp at h
        | some v =>
          rw [hv] at h
          simp only [Option.map_some, Option.getD_some, Option.some.injEq] at h
          subst h
          exact ⟨_, hv, by omega⟩
      · rintro ⟨k, h1, rfl⟩
        rw [Nat.add_sub_cancel_left, h1]; rfl

theorem column_map (f : X → Y) (padRight : Bool) (N j : Nat) (L : List X) :
    column padRight N j (L.map f) = (column padRight N j L).map f := by
  ext y
  rw [column_iff, Option.map_eq_some_iff]
  constructor
  · rintro ⟨k, h1, h2⟩
    rw [List.getElem?_map, Option.map_eq_some_iff] at h1
    obtain ⟨x, hx, rfl⟩ := h1
    exact ⟨x, (column_iff ..).mpr ⟨k, hx, by simpa using h2⟩, rfl⟩
  · rintro ⟨x, hx, rfl⟩
    obtain ⟨k, h1, h2⟩ := (column_iff ..).mp hx
    exact ⟨k, by rw [List.getElem?_map, h1]; rfl, by simpa using h2⟩

theorem place_inj {padRight : Bool} {N len k k' : Nat}
    (h : place padRight N len k = place padRight N len k') : k = k' := by
  unfold place at h; split at h <;> omega

theorem place_lt {padRight : Bool} {N len k : Nat} (h : len ≤ N) (hk : k < len) :
    place padRight N len k < N := by
  unfold place; split <;> omega

/-! ## The index array -/

/-- The positions of the elements of each row in the concatenation of the rows. -/
def positions (V : List (List X)) (r : Nat) (L : List X) : List Nat :=
  (List.range L.length).map (fun k => splits V r + k)

/-- Row `j` of the index array. -/
def indexRow (padRight : Bool) (N j : Nat) (V : List (List X)) : List Int :=
  V.mapIdx (fun r L => match column padRight N j (positions V r L) with
    | some i => (i : Int)
    | none => -1)

theorem indexRow_get (padRight : Bool) (N j : Nat) (V : List (List X)) (r : Nat) (L : List X)
    (h : V[r]? = some L) : (indexRow padRight N j V)[r]? =
      some (match column padRight N j (positions V r L) with
        | some i => (i : Int)
        | none => -1) := by
  rw [indexRow, List.getElem?_mapIdx, h]; rfl

theorem column_positions (padRight : Bool) (N j : Nat) (V : List (List X)) (r : Nat) (L : List X)
    (i : Nat) : column padRight N j (positions V r L) = some i ↔
      ∃ k, k < L.length ∧ j = place padRight N L.length k ∧ i = splits V r + k := by
  rw [column_iff]
  simp only [positions, List.length_map, List.length_range]
  constructor
  · rintro ⟨k, h1, h2⟩
    have hk : k < L.length := by
      have := (List.getElem?_eq_some_iff.mp h1).1; simpa using this
    rw [List.getElem?_map, List.getElem?_range hk] at h1
    exact ⟨k, hk, h2, by simpa using h1.symm⟩
  · rintro ⟨k, hk, h2, rfl⟩
    exact ⟨k, by rw [List.getElem?_map, List.getElem?_range hk]; rfl, h2⟩

theorem pick_indexRow (padRight : Bool) (N j : Nat) (V : List (List (List X))) :
    pick V.flatten (indexRow padRight N j V) = V.map (fun L => (column padRight N j L).getD []) := by
  apply List.ext_getElem?
  intro r
  rw [pick, List.getElem?_map, List.getElem?_map]
  cases hV : V[r]? with
  | none =>
    have : (indexRow padRight N j V)[r]? = none := by
      rw [indexRow, List.getElem?_mapIdx, hV]; rfl
    rw [this]; rfl
  | some L =>
    rw [indexRow_get padRight N j V r L hV]
    simp only [Option.map_some, Option.some.injEq]
    cases hc : column padRight N j (positions V r L) with
    | none =>
      have : column padRight N j L = none := by
        cases hL : column padRight N j L with
        | none => rfl
        | some x =>
          obtain ⟨k, h1, h2⟩ := (column_iff ..).mp hL
          have := (column_positions padRight N j V r L (splits V r + k)).mpr
            ⟨k, (List.getElem?_eq_some_iff.mp h1).1, h2, rfl⟩
          rw [hc] at this; exact absurd this (by simp)
      rw [this]; rfl
    | some i =>
      obtain ⟨k, h1, h2, rfl⟩ := (column_positions ..).mp hc
      have hx : L[k]? = some L[k] := List.getElem?_eq_getElem h1
      rw [(column_iff padRight N j L L[k]).mpr ⟨k, hx, h2⟩]
      simp only
      rw [if_neg (by omega), Int.toNat_natCast, flatten_get V r L hV k h1, hx]

theorem indexRow_in (padRight : Bool) (N j : Nat) (V : List (List X)) :
    ∀ i ∈ indexRow padRight N j V, -1 ≤ i ∧ i < V.flatten.length := by
  intro i hi
  obtain ⟨r, hr⟩ := List.mem_iff_getElem?.mp hi
  have hrl : r < V.length := by
    have := (List.getElem?_eq_some_iff.mp hr).1
    simpa [indexRow] using this
  have hV : V[r]? = some V[r] := List.getElem?_eq_getElem hrl
  rw [indexRow_get padRight N j V r _ hV] at hr
  have hle := splits_row_le V r _ hV
  obtain rfl := Option.some.inj hr
  cases hc : column padRight N j (positions V r V[r]) with
  | none => simp only; omega
  | some i =>
    obtain ⟨k, h1, h2, rfl⟩ := (column_positions ..).mp hc
    simp only
    omega

theorem unstackIndexes_eq (padRight : Bool) (N : Nat) (V : List (List X))
    (hN : ∀ L ∈ V, L.length ≤ N) :
    unstackIndexes (lay V) N V.length padRight =
      some ((List.range N).map (fun j => indexRow padRight N j V)).flatten := by
  unfold unstackIndexes
  have hids : (lay V).2.length = V.flatten.length := by simp [lay, List.length_flatten]
  simp only [Option.bind_eq_bind]
  have step : ∀ r L k, V[r]? = some L → k < L.length →
      ((lay V).2[splits V r + k]?.bind fun r' => (lay V).1[r']?.bind fun b =>
        (lay V).1[r' + 1]?.bind fun e =>
        if (if padRight then splits V r + k - b else N - (e - b) + (splits V r + k - b)) * V.length + r' <
            N * V.length then
          some ((if padRight then splits V r + k - b else N - (e - b) + (splits V r + k - b)) *
            V.length + r', splits V r + k) else none) =
      some (place padRight N L.length k * V.length + r, splits V r + k) := by
    intro r L k hV hk
    have hrl := (List.getElem?_eq_some_iff.mp hV).1
    simp only [lay_ids V r L hV k hk, lay_splits V r (by omega), lay_splits V (r + 1) (by omega),
      splits_succ V r L hV, Option.bind_some, Nat.add_sub_cancel_left]
    have h1 := place_lt (padRight := padRight) (hN L (List.mem_of_getElem? hV)) hk
    have h2 : place padRight N L.length k * V.length + r < N * V.length := by
      calc place padRight N L.length k * V.length + r
          < place padRight N L.length k * V.length + V.length := by omega
        _ = (place padRight N L.length k + 1) * V.length := by rw [Nat.add_mul, Nat.one_mul]
        _ ≤ N * V.length := Nat.mul_le_mul_right _ h1
    exact if_pos h2
  obtain ⟨ws, hws⟩ := mapM_exists (l := List.range (lay V).2.length) (f := fun i =>
      (lay V).2[i]?.bind fun r' => (lay V).1[r']?.bind fun b =>
        (lay V).1[r' + 1]?.bind fun e =>
        if (if padRight then i - b else N - (e - b) + (i - b)) * V.length + r' < N * V.length then
          some ((if padRight then i - b else N - (e - b) + (i - b)) * V.length + r', i) else none) (by
    intro i hi
    rw [hids, List.mem_range] at hi
    obtain ⟨r, L, k, h1, h2, rfl⟩ := flatten_pos V i hi
    exact ⟨_, step r L k h1 h2⟩)
  obtain ⟨hl, hget⟩ := mapM_get hws
  rw [hws, Option.bind_some]
  have hmem : ∀ w, w ∈ ws ↔ ∃ r L k, V[r]? = some L ∧ k < L.length ∧
      w = (place padRight N L.length k * V.length + r, splits V r + k) := by
    intro w
    constructor
    · intro hw
      obtain ⟨i, hi⟩ := List.mem_iff_getElem?.mp hw
      have hil : i < V.flatten.length := by
        have := (List.getElem?_eq_some_iff.mp hi).1
        rw [hl, List.length_range, hids] at this; exact this
      have h1 := hget i i (List.getElem?_range (by rw [hids]; exact hil))
      obtain ⟨r, L, k, h2, h3, rfl⟩ := flatten_pos V i hil
      exact ⟨r, L, k, h2, h3, Option.some.inj (hi.symm.trans (h1.trans (step r L k h2 h3)))⟩
    · rintro ⟨r, L, k, h2, h3, rfl⟩
      have hlt : splits V r + k < (lay V).2.length := by
        have := splits_row_le V r L h2; omega
      exact List.mem_of_getElem? ((hget _ _ (List.getElem?_range hlt)).trans (step r L k h2 h3))
  congr 1
  have hreg : Regular ((List.range N).map (fun j => indexRow padRight N j V)) V.length := by
    intro row hrow
    obtain ⟨j, _, rfl⟩ := List.mem_map.mp hrow
    simp [indexRow]
  have hfl := hreg.flatten_length
  rw [List.length_map, List.length_range] at hfl
  apply List.ext_getElem?
  intro p
  rw [List.getElem?_map]
  by_cases hp : p < N * V.length
  · rw [List.getElem?_range hp]
    have hV0 : 0 < V.length := by
      rcases Nat.eq_zero_or_pos V.length with h | h
      · rw [h] at hp; simp at hp
      · exact h
    have hr : p % V.length < V.length := Nat.mod_lt _ hV0
    have hj : p / V.length < N := (Nat.div_lt_iff_lt_mul hV0).mpr hp
    have hpe : p = p / V.length * V.length + p % V.length := by
      rw [Nat.mul_comm]; exact (Nat.div_add_mod p V.length).symm
    generalize p / V.length = j at hj hpe
    generalize p % V.length = r at hr hpe
    have hVr : V[r]? = some V[r] := List.getElem?_eq_getElem hr
    have hRj : ((List.range N).map (fun j => indexRow padRight N j V))[j]? =
        some (indexRow padRight N j V) := by rw [List.getElem?_map, List.getElem?_range hj]; rfl
    have huniq : ∀ r' L' k, V[r']? = some L' → k < L'.length →
        place padRight N L'.length k * V.length + r' = p → r' = r ∧ place padRight N L'.length k = j := by
      intro r' L' k h1 h2 h3
      have hr' := (List.getElem?_eq_some_iff.mp h1).1
      rw [hpe] at h3
      have e1 := congrArg (· % V.length) h3
      simp only [Nat.mul_comm _ V.length, Nat.mul_add_mod, Nat.mod_eq_of_lt hr', Nat.mod_eq_of_lt hr] at e1
      subst e1
      exact ⟨rfl, Nat.eq_of_mul_eq_mul_right hV0 (by omega)⟩
    have hfg := hreg.flatten_get j r _ hRj hr
    rw [hpe, hfg, indexRow_get padRight N j V r _ hVr, ← hpe]
    simp only [Option.map_some, Option.some.injEq]
    cases hc : column padRight N j (positions V r V[r]) with
    | some i =>
      obtain ⟨k, h1, h2, rfl⟩ := (column_positions ..).mp hc
      cases hf : ws.find? (fun w => w.1 == p) with
      | none =>
        rw [List.find?_eq_none] at hf
        have := hf _ ((hmem _).mpr ⟨r, _, k, hVr, h1, rfl⟩)
        simp only [← h2, ← hpe, beq_self_eq_true, not_true_eq_false] at this
      | some w =>
        have h3 := List.find?_some hf
        obtain ⟨r', L', k', h4, h5, rfl⟩ := (hmem w).mp (List.mem_of_find?_eq_some hf)
        obtain ⟨rfl, h6⟩ := huniq r' L' k' h4 h5 (by simpa using h3)
        rw [hVr] at h4
        obtain rfl := Option.some.inj h4
        rw [h2] at h6
        rw [place_inj h6]
    | none =>
      cases hf : ws.find? (fun w => w.1 == p) with
      | none => rfl
      | some w =>
        have h3 := List.find?_some hf
        obtain ⟨r', L', k', h4, h5, rfl⟩ := (hmem w).mp (List.mem_of_find?_eq_some hf)
        obtain ⟨rfl, h6⟩ := huniq r' L' k' h4 h5 (by simpa using h3)
        rw [hVr] at h4
        obtain rfl := Option.some.inj h4
        have := (column_positions padRight N j V r' V[r'] _).mpr ⟨k', h5, h6.symm, rfl⟩
        rw [hc] at this
        exact absurd this (by simp)
  · rw [List.getElem?_eq_none (by simpa using hp), List.getElem?_eq_none (by rw [hfl]; omega)]
    rfl

theorem maxSize_eq (U r : Shape) (V : List (List X)) (N : Nat) (h : IsLongest N V) :
    maxSize (U ++ lay V :: r) (U.length + 1) = some N := by
  unfold maxSize
  rw [Nat.add_sub_cancel, List.getElem?_append_right (Nat.le_refl _), Nat.sub_self]
  simp only [List.getElem?_cons_zero, Option.bind_eq_bind, Option.bind_some]
  have hl : (lay V).1.length - 1 = V.length := by simp [lay]
  have hm : (List.range ((lay V).1.length - 1)).mapM (fun i => rowLen (lay V).1 i) =
      some (V.map List.length) := by
    apply mapM_some_of
    · simp [hl]
    · intro i b hb
      have hi : i < V.length := by
        have := (List.getElem?_eq_some_iff.mp hb).1; rwa [List.length_range, hl] at this
      rw [hl, List.getElem?_range hi] at hb
      obtain rfl := Option.some.inj hb
      have hV : V[i]? = some V[i] := List.getElem?_eq_getElem hi
      rw [show (lay V).1 = psum (V.map List.length) from rfl, rowLen_psum V i _ hV,
        List.getElem?_map, hV]
      rfl
  rw [hm, Option.bind_some]
  congr 1
  have key : ∀ (ns : List Nat) (c M : Nat), c ≤ M → (∀ n ∈ ns, n ≤ M) → (M = c ∨ ∃ n ∈ ns, n = M) →
      ns.foldl max c = M := by
    intro ns
    induction ns with
    | nil =>
      intro c M _ _ h3
      rcases h3 with rfl | ⟨n, hn, _⟩
      · rfl
      · simp at hn
    | cons n ns ih =>
      intro c M h1 h2 h3
      have hn := h2 n (by simp)
      refine ih (max c n) M (by omega) (fun x hx => h2 x (by simp [hx])) ?_
      rcases h3 with rfl | ⟨x, hx, rfl⟩
      · left; omega
      · rcases List.mem_cons.mp hx with rfl | hx
        · left; omega
        · exact Or.inr ⟨x, hx, rfl⟩
  apply key _ 0 N (by omega)
  · intro n hn
    obtain ⟨L, hL, rfl⟩ := List.mem_map.mp hn
    exact h.1 L hL
  · rcases h.2 with h0 | ⟨L, hL, h0⟩
    · exact Or.inl h0
    · exact Or.inr ⟨_, List.mem_map.mpr ⟨L, hL, rfl⟩, h0⟩

theorem IsLongest.zero {N : Nat} (h : IsLongest N ([] : List (List X))) : N = 0 := by
  rcases h.2 with h0 | ⟨L, hL, _⟩
  · exact h0
  · simp at hL

/-- The values at the positions `e` are those of the list. -/
def ValuesAt (src : List X) (e : List Nat) (out : List X) : Prop := e.map (fun i => src[i]?) = out.map some

theorem select_columns (m : Nat) (V : List (List (List (Nest α m)))) (N : Nat) (padRight : Bool)
    (hN : IsLongest N V) :
    ∃ outs, selectAxis0 (fullLayers (m + 1) (V.flatten : List (Nest α (m + 1)))) (regularLayer N V.length)
        ((List.range N).map (fun j => indexRow padRight N j V)).flatten = some outs ∧
      outs.length = N ∧ ∀ j, j < N → ∃ elems,
        outs[j]? = some (fullLayers (m + 1)
          (V.map (fun L => (column padRight N j L).getD []) : List (List (Nest α m))), elems) ∧
        ValuesAt (valuesOf (m + 1) (V.flatten : List (Nest α (m + 1)))) elems
          (valuesOf (m + 1) (V.map (fun L => (column padRight N j L).getD []) : List (List (Nest α m)))) := by
  have hlen : ((List.range N).map (fun j => indexRow padRight N j V)).map List.length =
      List.replicate N V.length := by
    rw [List.map_map]
    apply List.ext_getElem?
    intro i
    rw [List.getElem?_map, List.getElem?_replicate]
    by_cases hi : i < N
    · rw [List.getElem?_range hi, if_pos hi]; simp [indexRow]
    · rw [List.getElem?_eq_none (by simpa using hi), if_neg hi]; rfl
  have hlay : regularLayer N V.length = lay ((List.range N).map (fun j => indexRow padRight N j V)) := by
    rw [regularLayer_eq, lay, hlen]
  have hin : ∀ i ∈ ((List.range N).map (fun j => indexRow padRight N j V)).flatten,
      -1 ≤ i ∧ i < (V.flatten.length : Int) := by
    intro i hi
    obtain ⟨row, h1, h2⟩ := List.mem_flatten.mp hi
    obtain ⟨j, _, rfl⟩ := List.mem_map.mp h1
    exact indexRow_in padRight N j V i h2
  have hne : ∀ r ∈ (List.range N).map (fun j => indexRow padRight N j V), r ≠ [] := by
    intro r hr h0
    obtain ⟨j, hj, rfl⟩ := List.mem_map.mp hr
    have : V.length = 0 := by
      have := congrArg List.length h0
      simpa [indexRow] using this
    have hV : V = [] := List.eq_nil_of_length_eq_zero this
    subst hV
    rw [hN.zero] at hj; simp at hj
  have hsel := select_axis0 m (V.flatten : List (Nest α (m + 1))) _ hin hne
  rw [hlay, hsel]
  have hrow : ∀ j, ∃ elems, indexAxis0 (layersOf (m + 1) (V.flatten : List (Nest α (m + 1))))
      (indexRow padRight N j V) = some (fullLayers (m + 1)
          (V.map (fun L => (column padRight N j L).getD []) : List (List (Nest α m))), elems) ∧
        ValuesAt (valuesOf (m + 1) (V.flatten : List (Nest α (m + 1)))) elems
          (valuesOf (m + 1) (V.map (fun L => (column padRight N j L).getD []) :
            List (List (Nest α m)))) := by
    intro j
    have h := index_axis0 m (V.flatten : List (Nest α (m + 1))) (indexRow padRight N j V)
      (indexRow_in padRight N j V)
    rw [pick_indexRow] at h
    exact h
  obtain ⟨outs, ho⟩ := mapM_exists (f := indexAxis0 (layersOf (m + 1) (V.flatten : List (Nest α (m + 1)))))
      (l := (List.range N).map (fun j => indexRow padRight N j V)) (by
    intro r hr
    obtain ⟨j, _, rfl⟩ := List.mem_map.mp hr
    obtain ⟨e, he, _⟩ := hrow j
    exact ⟨_, he⟩)
  obtain ⟨h1, h2⟩ := mapM_get ho
  refine ⟨outs, ho, by simpa using h1, fun j hj => ?_⟩
  obtain ⟨e, he, hv⟩ := hrow j
  refine ⟨e, ?_, hv⟩
  rw [h2 j (indexRow padRight N j V) (by rw [List.getElem?_map, List.getElem?_range hj]; rfl), he]

/-! ## The layers above the axis -/

/-- The upper layers that `Unstack` puts above each output. -/
def topOf (U : Shape) (n : Nat) : Shape := if U = [] then [trivialLayer n] else U

theorem trivialLayer_tot (n : Nat) : totSize [trivialLayer n] 1 = some n := rfl

theorem topOf_tot (U : Shape) (n : Nat) (h : U = [] ∨ totSize U U.length = some n) :
    topOf U n ≠ [] ∧ totSize (topOf U n) (topOf U n).length = some n := by
  unfold topOf
  by_cases hU : U = []
  · rw [if_pos hU]; exact ⟨by simp, rfl⟩
  · rw [if_neg hU]
    exact ⟨hU, h.resolve_left hU⟩

theorem lay_dim (V : List (List X)) (r : Shape) : totSize (lay V :: r) 0 = some V.length := by
  simp [totSize, lay]

theorem top_eq (U : Shape) (V : List (List X)) (h : U = [] ∨ totSize U U.length = some V.length) :
    ∃ dim0 top', totSize (U ++ [lay V]) 0 = some dim0 ∧
      addFirst (U ++ [lay V]) dim0 = some top' ∧
      removeAxis top' top'.length = some (topOf U V.length) := by
  by_cases hU : U = []
  · subst hU
    refine ⟨V.length, [trivialLayer V.length, lay V], lay_dim V [], ?_, ?_⟩
    · rw [addFirst, if_pos (by rfl), composeShapes, if_pos]
      · rfl
      · exact ⟨by simp, by simp, by rw [show ([] ++ [lay V] : Shape) = [lay V] from rfl, lay_dim]; rfl⟩
    · rfl
  · have hpos : 0 < U.length := List.length_pos_of_ne_nil hU
    obtain ⟨n, hn⟩ := (totSize_append U [lay V] [] 0 (by omega) hpos).2
    refine ⟨n, U ++ [lay V], hn, ?_, ?_⟩
    · rw [addFirst, if_neg (by simp; omega)]
    · unfold removeAxis
      rw [if_neg (by simp; omega), if_neg (by simp), if_neg (by simp)]
      simp [topOf, hU]

theorem rows_eq (U r : Shape) (V : List (List X)) (h : U = [] ∨ totSize U U.length = some V.length) :
    totSize (U ++ lay V :: r) (U.length + 1 - 1) = some V.length := by
  rw [Nat.add_sub_cancel]
  rcases h with rfl | h
  · exact lay_dim V r
  · by_cases hU : U = []
    · subst hU; exact lay_dim V r
    · have := (totSize_append U (lay V :: r) [] U.length (Nat.le_refl _)
        (List.length_pos_of_ne_nil hU)).1
      rw [this, List.append_nil, h]

/-- The steps that the two cases of `Unstack` share: `src'` is the shape after the possible extra
layer. -/
theorem unstackPos_common (m : Nat) (U : Shape) (V : List (List (List (Nest α m)))) (N : Nat)
    (padRight : Bool) (src : Shape) (tot : Nat)
    (hU : U = [] ∨ totSize U U.length = some V.length) (hN : IsLongest N V)
    (hsrc : ∃ r, src = U ++ lay V :: r) (htot : totSize src src.length = some tot)
    (hsrc' : addLast src (U.length + 1) tot = some (U ++ lay V :: fullLayers (m + 1) (V.flatten : List (Nest α (m + 1))))) :
    ∃ outs : List (Shape × List Nat), outs.length = N ∧ (∀ j, j < N → ∃ elems,
        outs[j]? = some (fullLayers (m + 1)
          (V.map (fun L => (column padRight N j L).getD []) : List (List (Nest α m))), elems) ∧
        ValuesAt (valuesOf (m + 1) (V.flatten : List (Nest α (m + 1)))) elems
          (valuesOf (m + 1) (V.map (fun L => (column padRight N j L).getD []) : List (List (Nest α m))))) ∧
      unstackPos src (U.length + 1) padRight =
        (outs.mapM (unstackFinish (topOf U V.length) (U.length == 0) (U.length + 1 == src.length))).map
          (fun res => (U ++ lay V :: fullLayers (m + 1) (V.flatten : List (Nest α (m + 1))), res)) := by
  obtain ⟨outs, h1, h2, h3⟩ := select_columns m V N padRight hN
  refine ⟨outs, h2, h3, ?_⟩
  obtain ⟨r, rfl⟩ := hsrc
  obtain ⟨dim0, top', t1, t2, t3⟩ := top_eq U V hU
  have hlayer : (U ++ lay V :: r)[U.length + 1 - 1]? = some (lay V) := by
    rw [Nat.add_sub_cancel, List.getElem?_append_right (Nat.le_refl _), Nat.sub_self]; rfl
  have hdec : decomposeShape (U ++ lay V :: fullLayers (m + 1) (V.flatten : List (Nest α (m + 1))))
      (U.length + 1) = some (U ++ [lay V], fullLayers (m + 1) (V.flatten : List (Nest α (m + 1)))) := by
    unfold decomposeShape
    rw [if_pos ⟨by omega, by rw [List.length_append, List.length_cons, fullLayers_length]; omega⟩]
    congr 2
    · rw [List.take_append, List.take_of_length_le (by omega), Nat.add_sub_cancel_left]; rfl
    · rw [List.drop_append, List.drop_of_length_le (by omega), Nat.add_sub_cancel_left]; rfl
  unfold unstackPos
  simp only [Option.bind_eq_bind, rows_eq U r V hU, hlayer, maxSize_eq U r V N hN, Option.bind_some,
    unstackIndexes_eq padRight N V hN.1, htot, hsrc', hdec, t1, t2, t3, h1]
  have : ((U ++ [lay V]).length == 1) = (U.length == 0) := by simp
  rw [this]
  cases outs.mapM (unstackFinish (topOf U V.length) (U.length == 0)
    (U.length + 1 == (U ++ lay V :: r).length)) <;> rfl

/-- `Unstack` on an axis that is not the last. -/
theorem unstackPos_inner (m : Nat) (U : Shape) (V : List (List (List (Nest α m)))) (N : Nat)
    (padRight : Bool) (hU : U = [] ∨ totSize U U.length = some V.length) (hN : IsLongest N V) :
    ∃ outs, unstackPos (U ++ fullLayers (m + 2) (V : List (Nest α (m + 2)))) (U.length + 1) padRight =
        some (U ++ fullLayers (m + 2) (V : List (Nest α (m + 2))), outs) ∧ outs.length = N ∧
      ∀ j, j < N → ∃ elems,
        outs[j]? = some (U ++ fullLayers (m + 1)
          (V.map (fun L => (column padRight N j L).getD []) : List (List (Nest α m))), elems) ∧
        ValuesAt (valuesOf (m + 1) (V.flatten : List (Nest α (m + 1)))) elems
          (valuesOf (m + 1) (V.map (fun L => (column padRight N j L).getD []) : List (List (Nest α m)))) := by
  have f : fullLayers (m + 2) (V : List (Nest α (m + 2))) =
      lay V :: fullLayers (m + 1) (V.flatten : List (Nest α (m + 1))) := fullLayers_succ (m + 1) (α := α) V
  rw [f]
  have hl : (U ++ lay V :: fullLayers (m + 1) (V.flatten : List (Nest α (m + 1)))).length =
      U.length + m + 2 := by
    rw [List.length_append, List.length_cons, fullLayers_length]; omega
  have hb : (U.length + 1 == (U ++ lay V :: fullLayers (m + 1)
      (V.flatten : List (Nest α (m + 1)))).length) = false := by rw [hl]; simp; omega
  obtain ⟨tot, htot⟩ := (totSize_append (U ++ lay V :: fullLayers (m + 1)
    (V.flatten : List (Nest α (m + 1)))) [] [] _ (Nat.le_refl _) (by rw [hl]; omega)).2
  rw [List.append_nil] at htot
  obtain ⟨outs, h1, h2, h3⟩ := unstackPos_common m U V N padRight _ tot hU hN ⟨_, rfl⟩ htot
    (by rw [addLast, if_neg (by rw [hl]; omega)])
  rw [h3, hb]
  obtain ⟨hne, ht⟩ := topOf_tot U V.length hU
  have hfin : ∀ (W : List (List (Nest α m))) e, W.length = V.length →
      unstackFinish (topOf U V.length) (U.length == 0) false
        (fullLayers (m + 1) (W : List (Nest α (m + 1))), e) =
      some (U ++ fullLayers (m + 1) (W : List (Nest α (m + 1))), e) := by
    intro W e hW
    have fW : fullLayers (m + 1) (W : List (Nest α (m + 1))) = lay W :: fullLayers m W.flatten :=
      fullLayers_succ m W
    rw [fW]
    have hc : composeShapes (topOf U V.length) (lay W :: fullLayers m W.flatten) =
        some (topOf U V.length ++ lay W :: fullLayers m W.flatten) := by
      rw [composeShapes, if_pos ⟨hne, by simp, by rw [ht, lay_dim, hW]⟩]
    unfold unstackFinish
    simp only [hc, Option.bind_eq_bind, Option.bind_some]
    by_cases hU0 : U = []
    · subst hU0
      rfl
    · have : (U.length == 0) = false := by
        have := List.length_pos_of_ne_nil hU0
        simp; exact hU0
      rw [this]
      simp [topOf, hU0]
  obtain ⟨res, hres⟩ := mapM_exists (f := unstackFinish (topOf U V.length) (U.length == 0) false)
      (l := outs) (by
    intro o ho
    obtain ⟨j, hj⟩ := List.mem_iff_getElem?.mp ho
    obtain ⟨e, he, _⟩ := h2 j (by rw [← h1]; exact (List.getElem?_eq_some_iff.mp hj).1)
    obtain rfl := Option.some.inj (hj.symm.trans he)
    exact ⟨_, hfin _ e (by simp)⟩)
  obtain ⟨r1, r2⟩ := mapM_get hres
  refine ⟨res, by rw [hres]; rfl, by rw [r1, h1], fun j hj => ?_⟩
  obtain ⟨e, he, hv⟩ := h2 j hj
  exact ⟨e, by rw [r2 j _ he, hfin _ e (by simp)], hv⟩

theorem lay_map_map (f : X → Y) (V : List (List X)) : lay (V.map (List.map f)) = lay V := by
  rw [lay, lay, lengths_map_map]

theorem lay_congr {V : List (List X)} {W : List (List Y)} (h : V.map List.length = W.map List.length) :
    lay V = lay W := by rw [lay, lay, h]

theorem lay_singletons (l : List X) : lay (l.map (fun x => [x])) = regularLayer l.length 1 := by
  rw [regularLayer_eq, lay, List.map_map]
  have : l.map (List.length ∘ fun x => [x]) = List.replicate l.length 1 := by
    rw [List.eq_replicate_iff]
    refine ⟨by simp, ?_⟩
    intro b hb
    obtain ⟨x, _, rfl⟩ := List.mem_map.mp hb
    rfl
  rw [this]

theorem lay_trivial (V : List X) : lay [V] = trivialLayer V.length := by
  simp [lay, trivialLayer, psum, psumFrom, idsFrom]

theorem lay_tot (U : Shape) (V : List (List X)) :
    totSize (U ++ [lay V]) (U ++ [lay V]).length = some V.flatten.length := by
  unfold totSize
  rw [if_neg (by simp), List.length_append, List.length_singleton, Nat.add_sub_cancel,
    List.getElem?_append_right (Nat.le_refl _), Nat.sub_self]
  change some ((psum (V.map List.length)).getLastD 0) = _
  rw [List.length_flatten, psum_getLastD]

theorem filter_toList (f : X → Option Y) (l : List X) :
    ((l.map (fun x => (f x).toList)).filter nonEmptyRow).flatten = l.filterMap f ∧
    ((l.map (fun x => (f x).toList)).filter nonEmptyRow).length = (l.filterMap f).length := by
  induction l with
  | nil => exact ⟨rfl, rfl⟩
  | cons x l ih =>
    rw [List.map_cons, List.filterMap_cons]
    cases hx : f x with
    | none => exact ih
    | some y =>
      have h1 : nonEmptyRow (some y).toList = true := rfl
      rw [List.filter_cons_of_pos (by simpa using h1), List.flatten_cons, ih.1, List.length_cons, ih.2]
      exact ⟨rfl, rfl⟩

theorem flatten_toList (f : X → Option Y) (l : List X) :
    (l.map (fun x => (f x).toList)).flatten = l.filterMap f := by
  induction l with
  | nil => rfl
  | cons x l ih =>
    rw [List.map_cons, List.flatten_cons, ih, List.filterMap_cons]
    cases f x <;> rfl

theorem filterMap_flatten (f : X → Option Y) (B : List (List X)) :
    (B.map (List.filterMap f)).flatten = B.flatten.filterMap f := by
  induction B with
  | nil => rfl
  | cons b B ih => rw [List.map_cons, List.flatten_cons, List.flatten_cons, List.filterMap_append, ih]

/-- `Unstack` on the last axis. -/
theorem unstackPos_last (a : Nat) (T0 : List (Nest (List (List α)) a)) (U : Shape) (N : Nat)
    (padRight : Bool)
    (hU : U = [] ∨ totSize U U.length = some (valuesOf a T0).flatten.length)
    (htop : topOf U (valuesOf a T0).flatten.length = fullLayers a T0 ++ [lay (valuesOf a T0)])
    (hN : IsLongest N (valuesOf a T0).flatten) :
    ∃ outs, unstackPos (U ++ [lay (valuesOf a T0).flatten]) (U.length + 1) padRight =
        some (U ++ [lay (valuesOf a T0).flatten,
          regularLayer (valuesOf a T0).flatten.flatten.length 1], outs) ∧ outs.length = N ∧
      ∀ j, j < N → ∃ elems,
        outs[j]? = some (fullLayers a T0 ++
          [lay ((valuesOf a T0).map (List.filterMap (column padRight N j)))], elems) ∧
        ValuesAt (valuesOf a T0).flatten.flatten elems
          ((valuesOf a T0).map (List.filterMap (column padRight N j))).flatten := by
  generalize hB : valuesOf a T0 = B at *
  have hl1 : ∀ W : List (List α), fullLayers 1 (W : List (Nest α 1)) = [lay W] := by
    intro W
    have : fullLayers 1 (W : List (Nest α 1)) = _ := fullLayers_succ 0 (α := α) W
    rw [this]; rfl
  let V' : List (List (List (Nest α 0))) := B.flatten.map (List.map (fun x => [x]))
  have hlen' : V'.length = B.flatten.length := by simp only [V', List.length_map]
  have hlay' : lay V' = lay B.flatten := lay_map_map _ _
  have hfl' : V'.flatten = B.flatten.flatten.map (fun x => [x]) := flatten_map_map _ _
  have hvals : valuesOf 1 (V'.flatten : List (Nest α 1)) = B.flatten.flatten := by
    have : valuesOf 1 (V'.flatten : List (Nest α 1)) = V'.flatten.flatten := rfl
    rw [this, hfl']
    generalize B.flatten.flatten = l
    induction l with
    | nil => rfl
    | cons x l ih => rw [List.map_cons, List.flatten_cons, ih]; rfl
  have hN' : IsLongest N V' := by
    refine ⟨?_, ?_⟩
    · intro L hL
      obtain ⟨L0, h0, rfl⟩ := List.mem_map.mp hL
      rw [List.length_map]; exact hN.1 L0 h0
    · rcases hN.2 with h0 | ⟨L0, h0, h1⟩
      · exact Or.inl h0
      · exact Or.inr ⟨_, List.mem_map.mpr ⟨L0, h0, rfl⟩, by rw [List.length_map]; exact h1⟩
  have hcol : ∀ j, V'.map (fun L => (column padRight N j L).getD []) =
      B.flatten.map (fun L => (column padRight N j L).toList) := by
    intro j
    simp only [V', List.map_map]
    apply List.map_congr_left
    intro L _
    simp only [Function.comp_apply]
    have := column_map (fun x : α => [x]) padRight N j L
    rw [show column padRight N j (L.map (fun x : α => ([x] : List (Nest α 0)))) = _ from this]
    cases column padRight N j L <;> rfl
  have hb : (U.length + 1 == (U ++ [lay B.flatten]).length) = true := by simp
  have hfull : fullLayers 1 (V'.flatten : List (Nest α 1)) =
      [regularLayer B.flatten.flatten.length 1] := by
    rw [hl1, hfl']; exact congrArg (fun x => [x]) (lay_singletons _)
  obtain ⟨outs, h1, h2, h3⟩ := unstackPos_common 0 U V' N padRight (U ++ [lay B.flatten])
    B.flatten.flatten.length (by rw [hlen']; exact hU) hN' ⟨[], by rw [hlay']⟩ (lay_tot U _) (by
      rw [addLast, if_pos (by simp), composeShapes, if_pos, hlay']
      · rw [show fullLayers (0 + 1) (V'.flatten : List (Nest α (0 + 1))) = _ from hfull]; simp
      · refine ⟨by simp, by simp, ?_⟩
        rw [lay_tot, ← lay_singletons, lay_dim, List.length_map])
  have hfull' : fullLayers (0 + 1) (V'.flatten : List (Nest α (0 + 1))) =
      [regularLayer B.flatten.flatten.length 1] := hfull
  rw [h3, hb, hlay', hlen', hfull']
  have hfin : ∀ j e, unstackFinish (topOf U B.flatten.length) (U.length == 0) true
        (fullLayers (0 + 1) (V'.map (fun L => (column padRight N j L).getD []) :
          List (Nest α (0 + 1))), e) =
      some (fullLayers a T0 ++ [lay (B.map (List.filterMap (column padRight N j)))], e) := by
    intro j e
    rw [hcol, show fullLayers (0 + 1) (B.flatten.map (fun L => (column padRight N j L).toList) :
      List (Nest α (0 + 1))) = _ from hl1 _]
    obtain ⟨hne, ht⟩ := topOf_tot U B.flatten.length hU
    have hc : composeShapes (topOf U B.flatten.length)
        [lay (B.flatten.map (fun L => (column padRight N j L).toList))] =
        some (fullLayers a T0 ++ [lay B, lay (B.flatten.map (fun L => (column padRight N j L).toList))]) := by
      rw [composeShapes, if_pos ⟨hne, by simp, by rw [ht, lay_dim, List.length_map]⟩, htop]
      simp
    let f : List α → List α := fun L => (column padRight N j L).toList
    have r1 : fullLayers (0 + 2 + a) ((T0.map (Nest.map (β := List (List (Nest α 0))) (List.map f) a)).map
        (Nest.join (α := α) (0 + 2) a)) =
        fullLayers a T0 ++ [lay B, lay (B.flatten.map f)] := by
      have e1 : fullLayers (0 + 2 + a) ((T0.map (Nest.map (β := List (List (Nest α 0))) (List.map f) a)).map
        (Nest.join (α := α) (0 + 2) a)) = _ := fullLayers_join (α := α) (0 + 2) a _
      rw [e1, fullLayers_map, valuesOf_map, hB]
      have e2 : fullLayers (0 + 2) (B.map (List.map f) : List (Nest α (0 + 2))) = _ :=
        fullLayers_succ (0 + 1) (α := α) (B.map (List.map f))
      have e3 : fullLayers (0 + 1) ((B.map (List.map f)).flatten : List (Nest α (0 + 1))) = _ := hl1 _
      rw [e2, e3, flatten_map_map, lengths_map_map]
      rfl
    have r2 := removeEmpty_later 0 a (T0.map (Nest.map (β := List (List (Nest α 0))) (List.map f) a))
    rw [r1] at r2
    have r3 : fullLayers (0 + 2 + a) (((T0.map (Nest.map (β := List (List (Nest α 0))) (List.map f) a)).map
        (Nest.map (β := List (List (Nest α 0))) (List.filter nonEmptyRow) a)).map
          (Nest.join (α := α) (0 + 2) a)) =
        fullLayers a T0 ++ [lay (B.map (List.filterMap (column padRight N j))),
          lay ((B.map (List.map f)).map (List.filter nonEmptyRow)).flatten] := by
      have e1 : fullLayers (0 + 2 + a) (((T0.map (Nest.map (β := List (List (Nest α 0))) (List.map f) a)).map
        (Nest.map (β := List (List (Nest α 0))) (List.filter nonEmptyRow) a)).map
          (Nest.join (α := α) (0 + 2) a)) = _ := fullLayers_join (α := α) (0 + 2) a _
      rw [e1, fullLayers_map, fullLayers_map, valuesOf_map, valuesOf_map, hB]
      have e2 : fullLayers (0 + 2) ((B.map (List.map f)).map (List.filter nonEmptyRow) :
          List (Nest α (0 + 2))) = _ :=
        fullLayers_succ (0 + 1) (α := α) ((B.map (List.map f)).map (List.filter nonEmptyRow))
      have e3 : fullLayers (0 + 1) (((B.map (List.map f)).map (List.filter nonEmptyRow)).flatten :
          List (Nest α (0 + 1))) = _ := hl1 _
      rw [e2, e3]
      have e4 : ((B.map (List.map f)).map (List.filter nonEmptyRow)).map List.length =
          (B.map (List.filterMap (column padRight N j))).map List.length := by
        simp only [List.map_map]
        apply List.map_congr_left
        intro b _
        exact (filter_toList (column padRight N j) b).2
      rw [e4]
      rfl
    rw [r3] at r2
    unfold unstackFinish
    have hl2 : (fullLayers a T0 ++ [lay B, lay (B.flatten.map f)]).length + 1 - 2 = a + 1 := by
      rw [List.length_append, fullLayers_length]; rfl
    have hra : ∀ x y : List Nat × List Nat, removeAxis (fullLayers a T0 ++ [x, y])
        (fullLayers a T0 ++ [x, y]).length = some (fullLayers a T0 ++ [x]) := by
      intro x y
      have hl3 : (fullLayers a T0 ++ [x, y]).length = a + 2 := by
        rw [List.length_append, fullLayers_length]; rfl
      unfold removeAxis
      rw [hl3, if_neg (by omega), if_neg (by omega), if_neg (by omega)]
      congr 1
      rw [List.take_append, List.take_of_length_le (by rw [fullLayers_length]; omega), fullLayers_length,
        show a + 2 - 1 - a = 1 by omega]
      rfl
    rw [← hl2] at r2
    have hf : (B.flatten.map (fun L => (column padRight N j L).toList)) = B.flatten.map f := rfl
    rw [hf] at hc ⊢
    simp only [hc, Option.bind_eq_bind, Option.bind_some, r2, hra, Bool.not_true, Bool.and_false,
      Bool.false_eq_true, if_false, if_true]
  obtain ⟨res, hres⟩ := mapM_exists (f := unstackFinish (topOf U B.flatten.length) (U.length == 0) true)
      (l := outs) (by
    intro o ho
    obtain ⟨j, hj⟩ := List.mem_iff_getElem?.mp ho
    obtain ⟨e, he, _⟩ := h2 j (by rw [← h1]; exact (List.getElem?_eq_some_iff.mp hj).1)
    obtain rfl := Option.some.inj (hj.symm.trans he)
    exact ⟨_, hfin j e⟩)
  obtain ⟨r1, r2⟩ := mapM_get hres
  refine ⟨res, by rw [hres]; rfl, by rw [r1, h1], fun j hj => ?_⟩
  obtain ⟨e, he, hv⟩ := h2 j hj
  refine ⟨e, by rw [r2 j _ he, hfin j e], ?_⟩
  rw [hcol] at hv
  rw [filterMap_flatten, ← flatten_toList]
  have hv' : ValuesAt (valuesOf 1 (V'.flatten : List (Nest α 1))) e
    (B.flatten.map (fun L => (column padRight N j L).toList)).flatten := hv
  rwa [hvals] at hv'

end Verif.Ragged
