import Verif.Fsa.Compose.Lemmas

/-!
# Composition: vectors
-/

namespace Verif.Fsa.Comp
open Verif.Fsa Verif.Fsa.Isect Verif.Fsa.Att Verif.Fsa.Top Verif.Ragged
variable {W : Type}

/-! ### Attributes of a vector -/

theorem pickAll_append {A : Type} (l : List A) (i j : List Int) (d : A) (x y : List A) (hx : pickAll l i d = some x)
    (hy : pickAll l j d = some y) : pickAll l (i ++ j) d = some (x ++ y) := by
  unfold pickAll at *
  rw [List.mapM_append, hx, hy]; rfl

theorem pickAll_shift {A : Type} (T : List A) (d : A) (b : Nat) (m : List Int) (l : List A)
    (h : ∀ x ∈ m, x = -1 ∨ ∃ k : Nat, x = k ∧ k < l.length) (hT : ∀ k, k < l.length → T[b + k]? = l[k]?) :
    pickAll T (shiftMap b m) d = some (m.map (val l d)) := by
  unfold pickAll shiftMap
  induction m with
  | nil => rfl
  | cons x m ih =>
    have ih := ih (fun y hy => h y (List.mem_cons_of_mem _ hy))
    rw [List.map_cons, List.mapM_cons, ih, List.map_cons]
    rcases h x (by simp) with rfl | ⟨k, rfl, hk⟩
    · rfl
    · have e : ((k : Int) + (b : Int)).toNat = b + k := by omega
      have e0 : (if (k : Int) ≠ -1 then (k : Int) + (b : Int) else (k : Int)) = (k : Int) + (b : Int) := if_pos (by omega)
      simp only [e0]
      rw [if_neg (by omega), if_pos (by omega), e, hT k hk,
        List.getElem?_eq_getElem hk, val_nat l d k l[k] (List.getElem?_eq_getElem hk)]
      rfl

theorem pickAll_join {A Q : Type} (T : List A) (d : A) (b : Q → Nat) (m : Q → List Int) (l : Q → List A) (qs : List Q)
    (h : ∀ q ∈ qs, ∀ x ∈ m q, x = -1 ∨ ∃ k : Nat, x = k ∧ k < (l q).length)
    (hT : ∀ q ∈ qs, ∀ k, k < (l q).length → T[b q + k]? = (l q)[k]?) :
    pickAll T (qs.map (fun q => shiftMap (b q) (m q))).flatten d = some (qs.map (fun q => (m q).map (val (l q) d))).flatten := by
  induction qs with
  | nil => rfl
  | cons q qs ih =>
    rw [List.map_cons, List.flatten_cons, List.map_cons, List.flatten_cons]
    exact pickAll_append T _ _ d _ _
      (pickAll_shift T d (b q) (m q) (l q) (h q (by simp)) (hT q (by simp)))
      (ih (fun q hq => h q (List.mem_cons_of_mem _ hq)) (fun q hq => hT q (List.mem_cons_of_mem _ hq)))

theorem flatten_at {A : Type} (L : List (List A)) (r : Nat) (l : List A) (h : L[r]? = some l) (k : Nat) (hk : k < l.length) :
    L.flatten[((L.map List.length).take r).sum + k]? = l[k]? := by
  induction L generalizing r with
  | nil => simp at h
  | cons x L ih =>
    cases r with
    | zero =>
      simp only [List.getElem?_cons_zero, Option.some.injEq] at h
      subst h
      simp [List.getElem?_append_left hk]
    | succ r =>
      rw [List.getElem?_cons_succ] at h
      rw [List.flatten_cons, List.map_cons, List.take_succ_cons, List.sum_cons,
        List.getElem?_append_right (by omega)]
      rw [show x.length + ((L.map List.length).take r).sum + k - x.length = ((L.map List.length).take r).sum + k by omega]
      exact ih r h

theorem zipWith_join {A B C Q : Type} (h : A → B → C) (a : Q → List A) (b : Q → List B) (qs : List Q)
    (hl : ∀ q ∈ qs, (a q).length = (b q).length) :
    List.zipWith h (qs.map a).flatten (qs.map b).flatten = (qs.map (fun q => List.zipWith h (a q) (b q))).flatten := by
  induction qs with
  | nil => rfl
  | cons q qs ih =>
    rw [List.map_cons, List.flatten_cons, List.map_cons, List.flatten_cons, List.map_cons, List.flatten_cons,
      List.zipWith_append (hl q (by simp)), ih (fun q hq => hl q (List.mem_cons_of_mem _ hq))]

/-! ### Changing the arcs of an FSA -/

/-- Changing the elements by position. -/
def mapPos {A B : Type} (g : Nat → A → B) : Nat → List (List A) → List (List B)
  | _, [] => []
  | b, row :: t => row.mapIdx (fun k a => g (b + k) a) :: mapPos g (b + row.length) t

theorem mapPos_flatten {A B : Type} (g : Nat → A → B) (b : Nat) (L : List (List A)) :
    (mapPos g b L).flatten = L.flatten.mapIdx (fun k a => g (b + k) a) := by
  induction L generalizing b with
  | nil => rfl
  | cons row L ih =>
    rw [mapPos, List.flatten_cons, ih, List.flatten_cons, List.mapIdx_append]
    congr 2
    funext k a
    congr 1; omega

theorem mapPos_lengths {A B : Type} (g : Nat → A → B) (b : Nat) (L : List (List A)) :
    (mapPos g b L).map List.length = L.map List.length := by
  induction L generalizing b with
  | nil => rfl
  | cons row L ih => rw [mapPos, List.map_cons, List.map_cons, ih, List.length_mapIdx]

theorem mapPos_length {A B : Type} (g : Nat → A → B) (b : Nat) (L : List (List A)) :
    (mapPos g b L).length = L.length := by
  have := congrArg List.length (mapPos_lengths g b L)
  simpa using this

theorem mapPos_get {A B : Type} (g : Nat → A → B) (L : List (List A)) :
    ∀ (b s : Nat) (row : List B), (mapPos g b L)[s]? = some row →
    ∃ row0 n, L[s]? = some row0 ∧ row = row0.mapIdx (fun k a => g (n + k) a) := by
  induction L with
  | nil => intro b s row h; simp [mapPos] at h
  | cons r L ih =>
    intro b s row h
    cases s with
    | zero =>
      simp only [mapPos, List.getElem?_cons_zero, Option.some.injEq] at h
      exact ⟨r, b, rfl, h.symm⟩
    | succ s =>
      simp only [mapPos, List.getElem?_cons_succ] at h
      obtain ⟨row0, n, h1, h2⟩ := ih _ s row h
      exact ⟨row0, n, h1, h2⟩

theorem mapPos_rowsOk (g : Nat → Arc W → Arc W) (hg : ∀ k a, (g k a).src = a.src ∧ (g k a).dst = a.dst) (b : Nat)
    (L : List (List (Arc W))) (h : RowsOk L) : RowsOk (mapPos g b L) := by
  intro s row hs a ha
  obtain ⟨row0, n, h1, rfl⟩ := mapPos_get g L b s row hs
  obtain ⟨k, hk, rfl⟩ := List.mem_mapIdx.mp ha
  obtain ⟨h2, h3⟩ := h s row0 h1 _ (List.getElem_mem hk)
  rw [mapPos_length, (hg _ _).1, (hg _ _).2]
  exact ⟨h2, h3⟩

theorem flat_mapPos {Q : Type} (g : Q → Nat → Arc W → Arc W) (rows : Q → List (List (Arc W))) (qs : List Q) :
    flat (qs.map (fun q => mapPos (g q) 0 (rows q))) =
      { flat (qs.map rows) with arcs := (qs.map (fun q => (rows q).flatten.mapIdx (g q))).flatten } := by
  have h1 : (qs.map (fun q => mapPos (g q) 0 (rows q))).map List.length = (qs.map rows).map List.length := by
    rw [List.map_map, List.map_map]
    exact List.map_congr_left (fun q _ => mapPos_length _ _ _)
  have h2 : (qs.map (fun q => mapPos (g q) 0 (rows q))).flatten.map List.length = (qs.map rows).flatten.map List.length := by
    rw [List.map_flatten, List.map_flatten, List.map_map, List.map_map]
    congr 1
    exact List.map_congr_left (fun q _ => mapPos_lengths _ _ _)
  have h3 : (qs.map (fun q => mapPos (g q) 0 (rows q))).flatten.flatten = (qs.map (fun q => (rows q).flatten.mapIdx (g q))).flatten := by
    rw [List.flatten_flatten, List.map_map]
    congr 1
    refine List.map_congr_left (fun q _ => ?_)
    show (mapPos (g q) 0 (rows q)).flatten = _
    rw [mapPos_flatten]
    congr 1
    funext k a
    rw [Nat.zero_add]
  unfold flat
  rw [h1, h2, h3]

/-! ### The inverse of an FSA, sorted -/

/-- What `compose` needs to know about the first input: state numbers in range, no FSA with one state, nothing leaving
the final state, no output label below -1 or too large, and 0 or -1 as output label of arcs that enter the final state. -/
structure Left (f : TRows W) : Prop where
  ok : RowsOk (arcsOf f)
  size : f.length ≠ 1
  final : ∀ x ∈ f.flatten, x.1.src ≠ f.length - 1
  aux : ∀ x ∈ f.flatten, -1 ≤ x.2 ∧ x.2 < 2147483648
  finalAux : ∀ x ∈ f.flatten, x.1.dst + 1 = f.length → x.2 = 0 ∨ x.2 = -1

/-- The aux labels of the arcs of a transducer. -/
def auxs (f : TRows W) : List Int := f.flatten.map Prod.snd

/-- `invertArc` where it does not fail. -/
def invT (n : Nat) (x : Arc W × Int) : Arc W × Int :=
  ({ x.1 with label := if x.1.dst + 1 = n then -1 else if x.2 = -1 then 0 else x.2 }, x.1.label)

/-- `invertRows` where it does not fail. -/
def invR (f : TRows W) : TRows W := f.map (fun row => row.map (invT f.length))

theorem mapM_total {A B : Type} (l : List A) (f : A → Option B) (g : A → B) (h : ∀ x ∈ l, f x = some (g x)) :
    l.mapM f = some (l.map g) := by
  induction l with
  | nil => rfl
  | cons a l ih =>
    rw [List.mapM_cons, h a (by simp), ih (fun x hx => h x (List.mem_cons_of_mem _ hx))]
    rfl

theorem invertRows_eq (f : TRows W) (h : Left f) : invertRows f = some (invR f) := by
  unfold invertRows invR
  refine mapM_total _ _ _ (fun row hrow => mapM_total _ _ _ (fun x hx => ?_))
  have hm : x ∈ f.flatten := List.mem_flatten.mpr ⟨row, hrow, hx⟩
  obtain ⟨h1, h2⟩ := h.aux x hm
  unfold invertArc fixLabel invT
  by_cases hd : x.1.dst + 1 = f.length
  · have := h.finalAux x hm hd
    rw [if_pos hd, if_pos (by tauto), if_pos hd]
    rfl
  · rw [if_neg hd, if_neg hd, Option.bind_some]
    by_cases hx : x.2 = -1
    · rw [if_pos hx]; rfl
    · rw [if_neg hx, if_neg (by omega)]

/-- The comparison of the sort. -/
def less (x y : Arc W × Int) : Bool := arcLess x.1 y.1

/-- The inverse with sorted arcs. -/
def prep (f : TRows W) : TRows W := sortRows (invR f)

theorem flatten_map_len {A B : Type} (f : List (List A)) (g : A → B) : (f.map (fun row => row.map g)).flatten = f.flatten.map g := by
  rw [List.map_flatten]

theorem outLabel_rows (f : TRows W) (h : Left f) (x : Arc W × Int) (hx : x ∈ f.flatten) :
    outLabel (rowsFsa (arcsOf f)) x.1 x.2 = if x.1.dst + 1 = f.length then -1 else if x.2 = -1 then 0 else x.2 := by
  obtain ⟨row, hr, hxr⟩ := List.mem_flatten.mp hx
  obtain ⟨s, hs⟩ := List.mem_iff_getElem?.mp hr
  have := h.ok s (row.map Prod.fst) (by unfold arcsOf; rw [List.getElem?_map, hs]; rfl) x.1 (List.mem_map.mpr ⟨x, hxr, rfl⟩)
  have hl : (arcsOf f).length = f.length := by unfold arcsOf; rw [List.length_map]
  rw [hl] at this
  unfold outLabel Fsa.final rowsFsa
  rw [hl]
  have e : x.1.dst = f.length - 1 ↔ x.1.dst + 1 = f.length := by omega
  by_cases hd : x.1.dst + 1 = f.length
  · rw [if_pos (e.mpr hd), if_pos hd]
  · rw [if_neg (fun h => hd (e.mp h)), if_neg hd]

/-- Where the arcs of the sorted inverse come from, and back. -/
def sigma (f : TRows W) (i : Nat) : Nat := (ordersFrom less 0 (invR f)).getD i 0
def tau (f : TRows W) (i : Nat) : Nat := (ordersFrom less 0 (invR f)).idxOf i

theorem invR_flatten (f : TRows W) : (invR f).flatten = f.flatten.map (invT f.length) := by
  unfold invR; rw [List.map_flatten]

theorem prep_length (f : TRows W) : (prep f).length = f.length := by
  unfold prep sortRows invR; rw [List.length_map, List.length_map]

theorem prep_flatten (f : TRows W) :
    (ordersFrom less 0 (invR f)).map (fun i => (invR f).flatten[i]?) = (prep f).flatten.map some := by
  have := ordersFrom_values (less (W := W)) (invR f) 0 (invR f).flatten (fun k _ => by rw [Nat.zero_add])
  exact this

theorem invOf_prep (f : TRows W) (h : Left f) :
    InvOf (rowsFsa (arcsOf f)) (auxs f) (prep f).flatten (sigma f) (tau f) := by
  have hp := ordersFrom_perm (less (W := W)) (invR f) 0
  have hv := prep_flatten f
  have hlen := congrArg List.length hv
  rw [List.length_map, List.length_map] at hlen
  have hpl := hp.length_eq
  rw [List.length_range'] at hpl
  have hfl : (invR f).flatten.length = f.flatten.length := by rw [invR_flatten, List.length_map]
  have harcs : (rowsFsa (arcsOf f)).arcs = f.flatten.map Prod.fst := by
    unfold rowsFsa arcsOf; rw [List.map_flatten]
  have hnd : (ordersFrom less 0 (invR f)).Nodup := hp.nodup_iff.mpr List.nodup_range'
  have hmem : ∀ i, i ∈ ordersFrom less 0 (invR f) ↔ i < f.flatten.length := by
    intro i
    rw [hp.mem_iff, List.mem_range'_1]
    omega
  have hlt : ∀ i, i < (prep f).flatten.length → (ordersFrom less 0 (invR f))[i]? = some (sigma f i) := by
    intro i hi
    rw [← hlen] at hi
    unfold sigma
    rw [List.getD_eq_getElem?_getD, List.getElem?_eq_getElem hi, Option.getD_some]
  refine ⟨?_, ?_, ?_, ?_, ?_, ?_, ?_⟩
  · rw [harcs]; unfold auxs; rw [List.length_map, List.length_map]
  · rw [harcs, List.length_map]; omega
  · intro i hi
    have := (hmem _).mp (List.mem_of_getElem? (hlt i hi))
    omega
  · intro i hi
    have hi' : i < f.flatten.length := by omega
    have := List.idxOf_lt_length_of_mem ((hmem i).mpr hi')
    unfold tau; omega
  · intro i hi
    unfold tau
    have hi' : i < (ordersFrom less 0 (invR f)).length := by omega
    have e : sigma f i = (ordersFrom less 0 (invR f))[i] := by
      have := hlt i hi
      rw [List.getElem?_eq_getElem hi'] at this
      exact (Option.some.inj this).symm
    rw [e]
    exact List.Nodup.idxOf_getElem hnd i hi'
  · intro i hi
    have hi' : i < f.flatten.length := by omega
    have hl := List.idxOf_lt_length_of_mem ((hmem i).mpr hi')
    unfold sigma tau
    rw [List.getD_eq_getElem?_getD, List.getElem?_eq_getElem hl, Option.getD_some, List.getElem_idxOf]
  · intro i y hy
    have hi := (List.getElem?_eq_some_iff.mp hy).1
    have h1 := congrArg (fun l => l[i]?) hv
    simp only [List.getElem?_map] at h1
    rw [hlt i hi, hy, Option.map_some, Option.map_some, Option.some.injEq, invR_flatten, List.getElem?_map,
      Option.map_eq_some_iff] at h1
    obtain ⟨x, hx, rfl⟩ := h1
    refine ⟨x.1, x.2, ?_, ?_, ?_⟩
    · rw [harcs, List.getElem?_map, hx]; rfl
    · unfold auxs; rw [List.getElem?_map, hx]; rfl
    · rw [outLabel_rows f h x (List.mem_of_getElem? hx)]; rfl

theorem less_sorted (row : List (Arc W × Int)) (hl : ∀ x ∈ row, Int32 x.1.label) :
    (row.mergeSort (fun x y => !less y x)).Pairwise (fun x y => u32 x.1.label ≤ u32 y.1.label) := by
  have key : row.mergeSort (fun x y => !less y x) =
      row.mergeSort (fun x y => decide (u32 x.1.label < u32 y.1.label ∨ (u32 x.1.label = u32 y.1.label ∧ x.1.dst ≤ y.1.dst))) := by
    apply mergeSort_congr
    intro a ha b hb
    rw [Bool.eq_iff_iff, decide_eq_true_iff]
    unfold less arcLess
    by_cases he : b.1.label = a.1.label
    · rw [if_neg (by simpa using he)]
      simp only [he, Bool.not_eq_true', decide_eq_false_iff_not, lt_irrefl, true_and, false_or]
      omega
    · rw [if_pos he]
      have : u32 a.1.label ≠ u32 b.1.label := fun h => he (u32_inj _ _ (hl a ha) (hl b hb) h).symm
      simp only [Bool.not_eq_true', decide_eq_false_iff_not]
      constructor
      · intro h1; left; omega
      · rintro (h1 | ⟨h1, _⟩)
        · omega
        · exact absurd h1 this
  rw [key]
  refine (List.pairwise_mergeSort ?_ ?_ row).imp ?_
  · intro a b c h1 h2
    simp only [decide_eq_true_iff] at *
    omega
  · intro a b
    simp only [Bool.or_eq_true, decide_eq_true_iff]
    omega
  · intro a b h
    simp only [decide_eq_true_iff] at h
    omega

theorem mem_prep (f : TRows W) (s : Nat) (row : List (Arc W × Int)) (h : (prep f)[s]? = some row) :
    ∃ row0, f[s]? = some row0 ∧ row = (row0.map (invT f.length)).mergeSort (fun x y => !less y x) := by
  unfold prep sortRows invR at h
  rw [List.getElem?_map, List.getElem?_map, Option.map_map, Option.map_eq_some_iff] at h
  obtain ⟨row0, h1, h2⟩ := h
  exact ⟨row0, h1, h2.symm⟩

theorem prep_mem (f : TRows W) (s : Nat) (row : List (Arc W × Int)) (h : (prep f)[s]? = some row) (y : Arc W × Int)
    (hy : y ∈ row) : ∃ row0 x, f[s]? = some row0 ∧ x ∈ row0 ∧ y = invT f.length x := by
  obtain ⟨row0, h1, rfl⟩ := mem_prep f s row h
  obtain ⟨x, hx, rfl⟩ := List.mem_map.mp ((List.mergeSort_perm _ _).mem_iff.mp hy)
  exact ⟨row0, x, h1, hx, rfl⟩

theorem mem_arcsOf {X : Type} (f : List (List (Arc W × X))) (s : Nat) (row : List (Arc W)) (h : (arcsOf f)[s]? = some row) :
    ∃ row0, f[s]? = some row0 ∧ row = row0.map Prod.fst := by
  unfold arcsOf at h
  rw [List.getElem?_map, Option.map_eq_some_iff] at h
  obtain ⟨r, h1, h2⟩ := h
  exact ⟨r, h1, h2.symm⟩

theorem invT_label (f : TRows W) (h : Left f) (x : Arc W × Int) (hx : x ∈ f.flatten) : Int32 (invT f.length x).1.label := by
  obtain ⟨h1, h2⟩ := h.aux x hx
  unfold invT Int32
  simp only
  split
  · omega
  · split <;> omega

theorem input_prep (f : TRows W) (h : Left f) : Input (arcsOf (prep f)) := by
  have hlen : (arcsOf (prep f)).length = f.length := by unfold arcsOf; rw [List.length_map, prep_length]
  have key : ∀ a ∈ (arcsOf (prep f)).flatten, ∃ x ∈ f.flatten, a = (invT f.length x).1 := by
    intro a ha
    obtain ⟨row, hr, har⟩ := List.mem_flatten.mp ha
    obtain ⟨s, hs⟩ := List.mem_iff_getElem?.mp hr
    obtain ⟨row0, h1, rfl⟩ := mem_arcsOf _ s row hs
    obtain ⟨y, hy, rfl⟩ := List.mem_map.mp har
    obtain ⟨row1, x, h2, h3, rfl⟩ := prep_mem f s row0 h1 y hy
    exact ⟨x, List.mem_flatten.mpr ⟨row1, List.mem_of_getElem? h2, h3⟩, rfl⟩
  refine ⟨?_, ?_, ?_, ?_, ?_⟩
  · intro s row hs a ha
    obtain ⟨row0, h1, rfl⟩ := mem_arcsOf _ s row hs
    obtain ⟨y, hy, rfl⟩ := List.mem_map.mp ha
    obtain ⟨row1, x, h2, h3, rfl⟩ := prep_mem f s row0 h1 y hy
    have := h.ok s (row1.map Prod.fst) (by unfold arcsOf; rw [List.getElem?_map, h2]; rfl) x.1 (List.mem_map.mpr ⟨x, h3, rfl⟩)
    rw [hlen]
    have hl : (arcsOf f).length = f.length := by unfold arcsOf; rw [List.length_map]
    rw [hl] at this
    exact this
  · intro row hrow
    obtain ⟨s, hs⟩ := List.mem_iff_getElem?.mp hrow
    obtain ⟨row0, h1, rfl⟩ := mem_arcsOf _ s row hs
    obtain ⟨row1, h2, rfl⟩ := mem_prep f s row0 h1
    rw [List.pairwise_map]
    apply less_sorted
    intro y hy
    obtain ⟨x, hx, rfl⟩ := List.mem_map.mp hy
    exact invT_label f h x (List.mem_flatten.mpr ⟨row1, List.mem_of_getElem? h2, hx⟩)
  · intro a ha
    obtain ⟨x, hx, rfl⟩ := key a ha
    exact invT_label f h x hx
  · rw [hlen]; exact h.size
  · intro a ha
    obtain ⟨x, hx, rfl⟩ := key a ha
    rw [hlen]
    exact h.final x hx

theorem rowsOk_sorted (f : List (List (Arc W))) (h : RowsOk f) : (rowsFsa f).Sorted := by
  unfold Fsa.Sorted rowsFsa
  rw [List.pairwise_flatten]
  refine ⟨?_, ?_⟩
  · intro row hr
    obtain ⟨s, hs⟩ := List.mem_iff_getElem?.mp hr
    refine List.pairwise_of_forall_mem_list (fun a ha b hb => ?_)
    rw [(h s row hs a ha).1, (h s row hs b hb).1]
  · rw [List.pairwise_iff_getElem]
    intro i j hi hj hij a ha b hb
    rw [(h i _ (List.getElem?_eq_getElem hi) a ha).1, (h j _ (List.getElem?_eq_getElem hj) b hb).1]
    omega

end Verif.Fsa.Comp
