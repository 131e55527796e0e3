import Verif.Ragged.SizeProps
import Verif.Ragged.AxisProps

/-!
# C10: `Renumbering` and `RemoveEmptyLists`
-/

namespace Verif.Ragged
open Verif.Util
variable {α : Type} {X Y : Type}

/-- Specification: the entries of `l` whose flag is set, in order. -/
def sel : List Bool → List X → List X
  | k :: ks, x :: xs => if k then x :: sel ks xs else sel ks xs
  | _, _ => []

/-- The number of kept positions before `i`. -/
def rank (keep : List Bool) (i : Nat) : Nat := ((keep.take i).map Bool.toNat).sum

theorem rank_succ (keep : List Bool) (i : Nat) (k : Bool) (h : keep[i]? = some k) :
    rank keep (i + 1) = rank keep i + k.toNat := by
  simp [rank, List.take_add_one, h]

@[simp] theorem rank_zero (keep : List Bool) : rank keep 0 = 0 := by simp [rank]

theorem rank_cons_succ (k : Bool) (keep : List Bool) (i : Nat) :
    rank (k :: keep) (i + 1) = k.toNat + rank keep i := by simp [rank]

theorem old2new_eq (keep : List Bool) : old2new keep = psum (keep.map Bool.toNat) :=
  runningSums_eq 0 _

/-- `Old2New()` gives the number of kept elements before each one. -/
theorem old2new_get (keep : List Bool) (i : Nat) (h : i ≤ keep.length) :
    (old2new keep)[i]? = some (rank keep i) := by
  rw [old2new_eq, psum_get _ i (by simpa using h), ← List.map_take]; rfl

theorem sel_length (keep : List Bool) (l : List X) (h : l.length = keep.length) :
    (sel keep l).length = rank keep keep.length := by
  induction keep generalizing l with
  | nil => simp [sel]
  | cons k keep ih =>
    cases l with
    | nil => simp at h
    | cons x l =>
      rw [List.length_cons, rank_cons_succ, sel, ← ih l (by simpa using h)]
      cases k <;> simp [Nat.add_comm]

theorem sel_get (keep : List Bool) (l : List X) (i : Nat) (h : l.length = keep.length)
    (hk : keep[i]? = some true) : (sel keep l)[rank keep i]? = l[i]? := by
  induction keep generalizing l i with
  | nil => simp at hk
  | cons k keep ih =>
    cases l with
    | nil => simp at h
    | cons x l =>
      cases i with
      | zero =>
        obtain rfl : k = true := by simpa using hk
        simp [sel]
      | succ i =>
        have := ih l i (by simpa using h) (by simpa using hk)
        rw [rank_cons_succ, sel, List.getElem?_cons_succ, ← this]
        cases k
        · simp
        · rw [Bool.toNat_true, Nat.add_comm]; simp

theorem rank_surj (keep : List Bool) (j : Nat) (h : j < rank keep keep.length) :
    ∃ i, keep[i]? = some true ∧ j = rank keep i := by
  induction keep generalizing j with
  | nil => simp at h
  | cons k keep ih =>
    rw [List.length_cons, rank_cons_succ] at h
    by_cases h0 : j < k.toNat
    · refine ⟨0, ?_, ?_⟩
      · cases k <;> simp at h0 ⊢
      · cases k <;> simp at h0 ⊢; exact h0
    · obtain ⟨i, h1, h2⟩ := ih (j - k.toNat) (by omega)
      exact ⟨i + 1, by simpa using h1, by rw [rank_cons_succ]; omega⟩

/-- `New2Old()` lists the kept positions in increasing order. -/
theorem new2old_spec (keep : List Bool) :
    new2old keep = some (sel keep (List.range keep.length)) := by
  set n := keep.length with hn
  obtain ⟨w, hw⟩ := mapM_exists (l := List.range (n + 1)) (f := fun i =>
      (old2new keep)[i]?.bind fun a =>
      if i = n then some [(a, i)]
      else (old2new keep)[i + 1]?.bind fun b => some (if a < b then [(a, i)] else [])) (by
    intro i hi
    rw [List.mem_range] at hi
    rw [old2new_get keep i (by omega), Option.bind_some]
    by_cases h : i = n
    · rw [if_pos h]; exact ⟨_, rfl⟩
    · rw [if_neg h, old2new_get keep (i + 1) (by omega), Option.bind_some]; exact ⟨_, rfl⟩)
  have hlast : (old2new keep).getLastD 0 = rank keep n := by
    rw [old2new_eq, psum_getLastD, rank, hn, List.take_length]
  have hl : (sel keep (List.range n)).length = rank keep n := sel_length keep _ (by simp [hn])
  have hs : scatter (rank keep n + 1) w.flatten = some (sel keep (List.range n) ++ [n]) := by
    apply scatter_eq
    · simp [hl]
    · intro x hx
      obtain ⟨i, hi, ws, hf, hx⟩ := (mem_flatten_mapM hw x).mp hx
      rw [List.mem_range] at hi
      rw [old2new_get keep i (by omega), Option.bind_some] at hf
      by_cases h : i = n
      · rw [if_pos h] at hf
        rw [← Option.some.inj hf, List.mem_singleton] at hx
        subst hx; subst h
        rw [List.getElem?_append_right (by rw [hl])]
        simp [hl]
      · have hlt : i < keep.length := by omega
        rw [if_neg h, old2new_get keep (i + 1) (by omega), Option.bind_some,
          rank_succ keep i _ (List.getElem?_eq_getElem hlt)] at hf
        rw [← Option.some.inj hf] at hx
        split at hx
        · next hc =>
          obtain rfl := List.mem_singleton.mp hx
          have hk : keep[i]? = some true := by
            rw [List.getElem?_eq_getElem hlt]
            cases h2 : keep[i]
            · rw [h2] at hc; simp at hc
            · rfl
          have := sel_get keep (List.range n) i (by simp [hn]) hk
          rw [List.getElem?_range (by omega)] at this
          have hlt2 := (List.getElem?_eq_some_iff.mp this).1
          rw [List.getElem?_append_left hlt2]; exact this
        · simp at hx
    · intro j hj
      by_cases hjn : j = rank keep n
      · refine ⟨(j, n), (mem_flatten_mapM hw _).mpr ⟨n, by simp, [(j, n)], ?_, by simp⟩, rfl⟩
        rw [old2new_get keep n (by omega), Option.bind_some, if_pos rfl, hjn]
      · obtain ⟨i, h1, rfl⟩ := rank_surj keep j (by rw [← hn]; omega)
        have hlt := (List.getElem?_eq_some_iff.mp h1).1
        refine ⟨(rank keep i, i), (mem_flatten_mapM hw _).mpr ⟨i, by simp; omega, [(rank keep i, i)], ?_,
          by simp⟩, rfl⟩
        rw [old2new_get keep i (by omega), Option.bind_some, if_neg (by omega),
          old2new_get keep (i + 1) (by omega), Option.bind_some, rank_succ keep i _ h1, if_pos (by simp)]
  unfold new2old
  simp only [Option.bind_eq_bind] at hw ⊢
  rw [hw, Option.bind_some, hlast, hs, Option.bind_some, List.take_append_of_le_length (by omega),
    List.take_of_length_le (by omega)]

example : new2old [true, false, false, true, true] = some [0, 3, 4] := by decide +kernel

theorem gather_sel (l : List Nat) (keep : List Bool) (h : l.length = keep.length) :
    gather l (sel keep (List.range keep.length)) = some (sel keep l) := by
  apply mapM_some_of
  · rw [sel_length _ _ h, sel_length _ _ (by simp)]
  intro j b hb
  have hj : j < rank keep keep.length := by
    rw [← sel_length keep (List.range keep.length) (by simp)]
    exact (List.getElem?_eq_some_iff.mp hb).1
  obtain ⟨i, h1, rfl⟩ := rank_surj keep j hj
  have hlt := (List.getElem?_eq_some_iff.mp h1).1
  rw [sel_get keep _ i (by simp) h1, List.getElem?_range hlt] at hb
  obtain rfl := Option.some.inj hb
  rw [sel_get keep l i h h1]

theorem gather_ids_sel (tbl ns : List Nat) (keep : List Bool) (r b : Nat)
    (hl : ns.length = keep.length) (hz : ∀ i : Nat, keep[i]? = some false → ns[i]? = some 0)
    (ht : ∀ i, i < ns.length → tbl[r + i]? = some (b + rank keep i)) :
    gather tbl (idsFrom r ns) = some (idsFrom b (sel keep ns)) := by
  induction ns generalizing keep r b with
  | nil => cases keep <;> rfl
  | cons n ns ih =>
    cases keep with
    | nil => simp at hl
    | cons k keep =>
      have h1 : gather tbl (List.replicate n r) = some (List.replicate n b) := by
        have := gather_const tbl b (List.replicate n r) (fun i hi => by
          rw [List.eq_of_mem_replicate hi]
          have := ht 0 (by simp)
          simpa using this)
        simpa using this
      have h2 := ih keep (r + 1) (b + k.toNat) (by simpa using hl)
        (fun i hi => by have := hz (i + 1) (by simpa using hi); simpa using this)
        (fun i hi => by
          have := ht (i + 1) (by simpa using hi)
          rw [rank_cons_succ] at this
          rw [show r + 1 + i = r + (i + 1) by omega, this]
          congr 1; omega)
      have h3 := gather_append tbl _ _ _ _ h1 h2
      rw [idsFrom, h3, sel]
      cases k
      · have := hz 0 rfl
        obtain rfl : n = 0 := by simpa using this
        simp
      · simp [idsFrom]

theorem sel_take_sum (ns : List Nat) (keep : List Bool) (i : Nat)
    (hl : ns.length = keep.length) (hz : ∀ i : Nat, keep[i]? = some false → ns[i]? = some 0) :
    ((sel keep ns).take (rank keep i)).sum = (ns.take i).sum := by
  induction ns generalizing keep i with
  | nil => cases keep <;> simp [sel]
  | cons n ns ih =>
    cases keep with
    | nil => simp at hl
    | cons k keep =>
      cases i with
      | zero => simp
      | succ i =>
        have h2 := ih keep i (by simpa using hl)
          (fun i hi => by have := hz (i + 1) (by simpa using hi); simpa using this)
        rw [rank_cons_succ, sel, List.take_succ_cons, List.sum_cons, ← h2]
        cases k
        · have := hz 0 rfl
          obtain rfl : n = 0 := by simpa using this
          simp
        · rw [Bool.toNat_true, Nat.add_comm]; simp

/-- Renumbering the rows of one layer, when only empty rows are dropped. -/
theorem renumber_layer (ns : List Nat) (rest : Shape) (keep : List Bool)
    (hl : ns.length = keep.length) (hz : ∀ i : Nat, keep[i]? = some false → ns[i]? = some 0) :
    renumberAxis0Simple ((psum ns, idsFrom 0 ns) :: rest) keep =
      some ((psum (sel keep ns), idsFrom 0 (sel keep ns)) :: rest) := by
  rw [renumberAxis0Simple, if_pos (by simp [hl])]
  have h1 : gather ((old2new keep).take keep.length) (idsFrom 0 ns) =
      some (idsFrom 0 (sel keep ns)) := by
    apply gather_ids_sel _ _ _ _ _ hl hz
    intro i hi
    rw [Nat.zero_add, List.getElem?_take_of_lt (by omega), old2new_get keep i (by omega), Nat.zero_add]
  have hlen := sel_length keep (List.range keep.length) (by simp)
  have hlen2 := sel_length keep ns hl
  have htot : (sel keep ns).sum = ns.sum := by
    have := sel_take_sum ns keep ns.length hl hz
    rwa [hl, ← hlen2, List.take_length, ← hl, List.take_length] at this
  have h2 : (List.range ((sel keep (List.range keep.length)).length + 1)).mapM (fun i =>
        if i = (sel keep (List.range keep.length)).length then some ((psum ns).getLastD 0)
        else (sel keep (List.range keep.length))[i]?.bind fun old => (psum ns)[old]?) =
      some (psum (sel keep ns)) := by
    apply mapM_some_of
    · simp [hlen, hlen2]
    intro j b hb
    have hj : j < (sel keep (List.range keep.length)).length + 1 := by
      have := (List.getElem?_eq_some_iff.mp hb).1; simpa using this
    obtain rfl : j = b := by
      rw [List.getElem?_range hj] at hb; exact Option.some.inj hb
    by_cases he : j = (sel keep (List.range keep.length)).length
    · rw [if_pos he, psum_getLastD, psum_get _ j (by omega), he, hlen, ← hlen2, List.take_length, htot]
    · obtain ⟨i, h1, rfl⟩ := rank_surj keep j (by omega)
      have hlt := (List.getElem?_eq_some_iff.mp h1).1
      rw [if_neg he, sel_get keep _ i (by simp) h1, List.getElem?_range hlt, Option.bind_some,
        psum_get _ i (by omega), psum_get _ _ (by omega), sel_take_sum ns keep i hl hz]
  rw [new2old_spec]
  simp only [Option.bind_eq_bind, Option.bind_some, h1, h2]

theorem sel_map (f : X → Y) (keep : List Bool) (l : List X) : (sel keep l).map f = sel keep (l.map f) := by
  induction keep generalizing l with
  | nil => rfl
  | cons k keep ih =>
    cases l with
    | nil => rfl
    | cons x l => cases k <;> simp [sel, ih]

theorem sel_filter (p : X → Bool) (l : List X) : sel (l.map p) l = l.filter p := by
  induction l with
  | nil => rfl
  | cons x l ih =>
    rw [List.map_cons, sel, ih]
    cases h : p x <;> simp [h]

theorem sel_flatten (keep : List Bool) (T : List (List X)) (hl : T.length = keep.length)
    (hz : ∀ i : Nat, keep[i]? = some false → T[i]? = some []) : (sel keep T).flatten = T.flatten := by
  induction T generalizing keep with
  | nil => cases keep <;> rfl
  | cons x T ih =>
    cases keep with
    | nil => simp at hl
    | cons k keep =>
      have h2 := ih keep (by simpa using hl)
          (fun i hi => by have := hz (i + 1) (by simpa using hi); simpa using this)
      rw [sel, List.flatten_cons, ← h2]
      cases k
      · have := hz 0 rfl
        obtain rfl : x = [] := by simpa using this
        simp
      · simp

/-- `RemoveSomeEmptyLists` on axis 0 (`RenumberAxis0Simple`): if every dropped row is empty, the
result is the list of kept rows. -/
theorem removeSome_axis0 (n : Nat) (T : List (List (Nest α n))) (keep : List Bool)
    (hl : T.length = keep.length) (hz : ∀ i : Nat, keep[i]? = some false → T[i]? = some []) :
    renumberAxis0Simple (fullLayers (n + 1) (T : List (Nest α (n + 1)))) keep =
      some (fullLayers (n + 1) (sel keep T : List (List (Nest α n)))) := by
  have f1 := fullLayers_succ n T
  have f2 := fullLayers_succ n (sel keep T)
  rw [f1, f2, sel_map, sel_flatten keep T hl hz]
  apply renumber_layer
  · simpa using hl
  · intro i hi
    rw [List.getElem?_map, hz i hi]; rfl

theorem keepNonEmpty_psum (ns : List Nat) : keepNonEmpty (psum ns) = some (ns.map (fun n : Nat => n != 0)) := by
  apply mapM_some_of
  · simp
  intro i b hb
  have hi : i < ns.length := by
    have := (List.getElem?_eq_some_iff.mp hb).1; simpa using this
  obtain rfl : i = b := by
    rw [List.getElem?_range (by simp; omega)] at hb; exact Option.some.inj hb
  rw [psum_get ns i (by omega), psum_get ns (i + 1) (by omega),
    take_succ_sum ns i _ (List.getElem?_eq_getElem hi), List.getElem?_map, List.getElem?_eq_getElem hi]
  simp only [Option.bind_eq_bind, Option.bind_some, Option.map_some]
  congr 1
  by_cases h : ns[i] = 0
  · simp [h]
  · have h1 : (List.take i ns).sum + ns[i] ≠ (List.take i ns).sum := by omega
    exact (bne_iff_ne.mpr h1).trans (bne_iff_ne.mpr h).symm

/-- The list has an element. -/
def nonEmptyRow (r : List X) : Bool := !r.isEmpty

theorem nonEmpty_flags (T : List (List X)) :
    (T.map List.length).map (fun n : Nat => n != 0) = T.map nonEmptyRow := by
  rw [List.map_map]
  apply List.map_congr_left
  intro r _
  cases r <;> simp [nonEmptyRow]

theorem nonEmpty_flags_false (T : List (List X)) (i : Nat)
    (h : (T.map nonEmptyRow)[i]? = some false) : T[i]? = some [] := by
  rw [List.getElem?_map] at h
  cases hT : T[i]? with
  | none => simp [hT] at h
  | some r =>
    rw [hT] at h
    cases r with
    | nil => rfl
    | cons a r => simp [nonEmptyRow] at h

/-- `RemoveEmptyLists` on axis 0 keeps exactly the non-empty rows, in order. -/
theorem removeEmpty_axis0 (n : Nat) (T : List (List (Nest α n))) :
    removeEmptyLists (fullLayers (n + 1) (T : List (Nest α (n + 1)))) 0 =
      some (fullLayers (n + 1) (T.filter nonEmptyRow : List (List (Nest α n)))) := by
  have h := removeSome_axis0 n T (T.map nonEmptyRow) (by simp) (nonEmpty_flags_false T)
  rw [sel_filter] at h
  have f1 := fullLayers_succ n T
  rw [f1] at h ⊢
  rw [← h]
  unfold removeEmptyLists
  rw [if_pos rfl]
  show ((keepNonEmpty (psum (T.map List.length))).bind _) = _
  simp only [keepNonEmpty_psum, nonEmpty_flags, Option.bind_some]

theorem sel_append (k1 k2 : List Bool) (a b : List X) (h : k1.length = a.length) :
    sel (k1 ++ k2) (a ++ b) = sel k1 a ++ sel k2 b := by
  induction k1 generalizing a with
  | nil =>
    obtain rfl : a = [] := List.eq_nil_of_length_eq_zero (by simpa using h.symm)
    simp [sel]
  | cons k k1 ih =>
    cases a with
    | nil => simp at h
    | cons x a =>
      have := ih a (by simpa using h)
      cases k <;> simp [sel, this]

theorem sel_replicate (p : X → Bool) (v : List X) (r : Nat) :
    sel (v.map p) (List.replicate v.length r) = List.replicate (v.filter p).length r := by
  induction v with
  | nil => rfl
  | cons x v ih =>
    rw [List.map_cons, List.length_cons, List.replicate_succ, sel, ih]
    cases h : p x <;> simp [h, List.replicate_succ]

theorem sel_ids (p : X → Bool) (V : List (List X)) (r : Nat) :
    sel (V.flatten.map p) (idsFrom r (V.map List.length)) =
      idsFrom r ((V.map (List.filter p)).map List.length) := by
  induction V generalizing r with
  | nil => rfl
  | cons v V ih =>
    rw [List.flatten_cons, List.map_append, List.map_cons, idsFrom, sel_append _ _ _ _ (by simp),
      sel_replicate, ih]
    rfl

theorem flatten_filter (p : X → Bool) (V : List (List X)) :
    (V.map (List.filter p)).flatten = V.flatten.filter p := by
  induction V with
  | nil => rfl
  | cons v V ih =>
    rw [List.map_cons, List.flatten_cons, List.flatten_cons, List.filter_append, ih]

/-- `RemoveEmptyLists` on a later axis drops exactly the empty lists of that axis, each from the
list that contains it. -/
theorem removeEmpty_later (m a : Nat) (T : List (Nest (List (List (Nest α m))) a)) :
    removeEmptyLists (fullLayers (m + 2 + a) (T.map (Nest.join (α := α) (m + 2) a))) (a + 1) =
      some (fullLayers (m + 2 + a)
        ((T.map (Nest.map (β := List (List (Nest α m))) (List.filter nonEmptyRow) a)).map
          (Nest.join (α := α) (m + 2) a))) := by
  have e1 : fullLayers (m + 2 + a) (T.map (Nest.join (α := α) (m + 2) a)) = _ :=
    fullLayers_join (α := α) (m + 2) a T
  have e2 : fullLayers (m + 2 + a) ((T.map (Nest.map (β := List (List (Nest α m)))
      (List.filter nonEmptyRow) a)).map (Nest.join (α := α) (m + 2) a)) = _ :=
    fullLayers_join (α := α) (m + 2) a
      (T.map (Nest.map (β := List (List (Nest α m))) (List.filter nonEmptyRow) a))
  have e3 : fullLayers a (T.map (Nest.map (β := List (List (Nest α m)))
      (List.filter nonEmptyRow) a)) = _ :=
    fullLayers_map (List.filter nonEmptyRow) a T
  have e4 : valuesOf a (T.map (Nest.map (β := List (List (Nest α m)))
      (List.filter nonEmptyRow) a)) = _ :=
    valuesOf_map (List.filter nonEmptyRow) a T
  have key : ∀ V : List (List (List (Nest α m))),
      removeEmptyLists (fullLayers a T ++ fullLayers (m + 2) (V : List (Nest α (m + 2)))) (a + 1) =
        some (fullLayers a T ++ fullLayers (m + 2)
          (V.map (List.filter nonEmptyRow) : List (List (List (Nest α m))))) := by
    intro V
    have f1 : fullLayers (m + 2) (V : List (Nest α (m + 2))) = _ :=
      fullLayers_succ (m + 1) (α := α) V
    have f2 : fullLayers (m + 2) (V.map (List.filter nonEmptyRow) :
        List (List (List (Nest α m)))) = _ :=
      fullLayers_succ (m + 1) (α := α) (V.map (List.filter nonEmptyRow))
    have f3 : fullLayers (m + 1) (V.flatten : List (List (Nest α m))) = _ := fullLayers_succ m V.flatten
    have hr := removeSome_axis0 m V.flatten (V.flatten.map nonEmptyRow) (by rw [List.length_map])
      (nonEmpty_flags_false V.flatten)
    rw [sel_filter] at hr
    rw [f1, f2, flatten_filter]
    unfold removeEmptyLists
    have hl : ∀ x z, (fullLayers a T ++ x :: z : List (List Nat × List Nat)).length =
        a + 1 + z.length := by intros; simp; omega
    have g1 : ∀ x z, (fullLayers a T ++ x :: z : List (List Nat × List Nat))[a + 1 - 1]? =
        some x := by
      intro x z
      rw [Nat.add_sub_cancel, List.getElem?_append_right (by simp)]; simp
    have g2 : (fullLayers a T ++ (psum (V.map List.length), idsFrom 0 (V.map List.length)) ::
        fullLayers (m + 1) (V.flatten : List (List (Nest α m))) : List (List Nat × List Nat))[a + 1]? =
        some (psum (V.flatten.map List.length), idsFrom 0 (V.flatten.map List.length)) := by
      rw [f3, List.getElem?_append_right (by simp)]; simp
    have g3 : ∀ x z, (fullLayers a T ++ x :: z : List (List Nat × List Nat)).take (a + 1 - 1)
        = fullLayers a T := by
      intro x z
      rw [Nat.add_sub_cancel, List.take_append_of_le_length (by simp), List.take_of_length_le (by simp)]
    have g4 : ∀ x z, (fullLayers a T ++ x :: z : List (List Nat × List Nat)).drop (a + 1)
        = z := by
      intro x z
      rw [List.drop_append, List.drop_of_length_le (by simp), fullLayers_length,
        show a + 1 - a = 1 by omega]
      rfl
    have hids : (idsFrom 0 (V.map List.length)).length = V.flatten.length := by
      simp [List.length_flatten]
    have hg := gather_sel (idsFrom 0 (V.map List.length)) (V.flatten.map nonEmptyRow)
      (by rw [hids, List.length_map])
    have hsp := rowIdsToRowSplits_idsFrom ((V.map (List.filter nonEmptyRow)).map List.length)
    rw [List.length_map, List.length_map] at hsp
    rw [List.length_map] at hg
    rw [if_neg (by omega), if_neg (by rw [hl]; simp), g1, g2, g3, g4]
    simp only [keepNonEmpty_psum, nonEmpty_flags, Option.bind_eq_bind, Option.bind_some, hr]
    rw [if_pos (by rw [hids, List.length_map]), new2old_spec]
    simp only [Option.bind_some, hg, sel_ids, psum_length, List.length_map, Nat.add_sub_cancel, hsp]
  rw [e1, e2, e3, e4]
  exact key (valuesOf a T)

/-- `RemoveEmptyLists` keeps the values array as it is. -/
theorem removeEmpty_values (n : Nat) (T : List (List (Nest α n))) :
    valuesOf (n + 1) (T.filter nonEmptyRow : List (List (Nest α n))) =
      valuesOf (n + 1) (T : List (Nest α (n + 1))) := by
  have : (T.filter nonEmptyRow).flatten = T.flatten := by
    rw [← sel_filter]
    exact sel_flatten _ T (by simp) (nonEmpty_flags_false T)
  show valuesOf n _ = valuesOf n _
  rw [this]

example : removeEmptyLists [([0, 2, 2, 5], [0, 0, 2, 2, 2])] 0 = some [([0, 2, 5], [0, 0, 1, 1, 1])] := by
  decide +kernel

/-- [[[1], [], [2]], [[]], [[3, 4]]] becomes [[[1], [2]], [], [[3, 4]]]. -/
example : removeEmptyLists [([0, 3, 4, 5], [0, 0, 0, 1, 2]), ([0, 1, 1, 2, 2, 4], [0, 2, 4, 4])] 1 =
    some [([0, 2, 2, 3], [0, 0, 2]), ([0, 1, 2, 4], [0, 1, 2, 2])] := by decide +kernel

/-- The model of `RenumberAxis0Simple` called with a flag that drops a non-empty row gives wrong
row_ids: the precondition checked in debug builds only is needed. -/
theorem renumber_needs_empty : ∃ l, renumberAxis0Simple [([0, 2, 3], [0, 0, 1])] [false, true] = some [l] ∧
    rowSplitsToRowIds l.1 3 ≠ some l.2 := ⟨([2, 3], [0, 0, 0]), by decide +kernel⟩

end Verif.Ragged
