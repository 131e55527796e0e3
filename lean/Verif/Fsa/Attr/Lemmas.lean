import Verif.Fsa.Attr.Spec
import Verif.Fsa.Cache.System

/-! Lemmas on assigning attributes one after the other. -/

namespace Verif.Fsa.Att
open Verif.Fsa.Cac (Dict get put get_put get_mem get_none mem_put get_filter)
variable {S : Type}

/-! ## Dictionaries -/

theorem get_cons {V : Type} (n : String) (v : V) (t : Dict V) (k : String) :
    get ((n, v) :: t) k = if n = k then some v else get t k := rfl

theorem get_of_mem {V : Type} {d : Dict V} (hn : (d.map Prod.fst).Nodup) {x : String × V} (hx : x ∈ d) :
    get d x.1 = some x.2 := by
  induction d with
  | nil => simp at hx
  | cons y t ih =>
    obtain ⟨a, b⟩ := y
    rw [List.map_cons, List.nodup_cons] at hn
    rcases List.mem_cons.1 hx with rfl | hx
    · simp [Cac.get]
    · unfold Cac.get
      rw [if_neg, ih hn.2 hx]
      intro h
      exact hn.1 (List.mem_map.2 ⟨x, hx, h.symm⟩)

theorem put_keys {V : Type} (d : Dict V) (k : String) (v : V) :
    (put d k v).map Prod.fst = if k ∈ d.map Prod.fst then d.map Prod.fst else d.map Prod.fst ++ [k] := by
  induction d with
  | nil => simp [put]
  | cons y t ih =>
    obtain ⟨a, b⟩ := y
    unfold put
    by_cases h : a = k
    · simp [h]
    · rw [if_neg h, List.map_cons, ih]
      by_cases hk : k ∈ t.map Prod.fst
      · rw [if_pos hk, if_pos (by rw [List.map_cons]; exact List.mem_cons_of_mem _ hk)]
        rfl
      · rw [if_neg hk, if_neg (by
          rw [List.map_cons, List.mem_cons]
          rintro (h' | h')
          · exact h h'.symm
          · exact hk h')]
        rfl

theorem put_nodup {V : Type} {d : Dict V} (k : String) (v : V) (hn : (d.map Prod.fst).Nodup) :
    ((put d k v).map Prod.fst).Nodup := by
  rw [put_keys]
  split
  · exact hn
  · rename_i h
    rw [List.nodup_append]
    exact ⟨hn, by simp, fun a ha b hb => by
      rw [List.mem_singleton] at hb
      rintro rfl
      exact h (hb ▸ ha)⟩

theorem filter_keys {V : Type} {d : Dict V} (p : String × V → Bool) (hn : (d.map Prod.fst).Nodup) :
    ((d.filter p).map Prod.fst).Nodup :=
  (List.filter_sublist.map Prod.fst).nodup hn

theorem namedTensor_keys {o : Obj S} (b : Bool) (h : Ok o) : ((namedTensor b o).map Prod.fst).Nodup :=
  filter_keys _ h.tkeys

theorem namedNon_keys {o : Obj S} (h : Ok o) : ((namedNon o).map Prod.fst).Nodup :=
  filter_keys _ h.nkeys

theorem get_namedTensor (b : Bool) (o : Obj S) (k : String) :
    get (namedTensor b o) k = if k ≠ "labels" ∧ (b = true ∨ k ≠ "scores") then get o.tensor k else none := by
  unfold namedTensor
  rw [get_filter o.tensor (fun n => n != "labels" && (b || n != "scores"))]
  simp

theorem get_namedNon (o : Obj S) (k : String) :
    get (namedNon o) k = if k ≠ "labels_version" then get o.non k else none := by
  unfold namedNon
  rw [get_filter o.non (fun n => n != "labels_version")]
  simp

theorem mem_namedTensor {b : Bool} {o : Obj S} {x : String × Val S} (h : x ∈ namedTensor b o) :
    x ∈ o.tensor ∧ x.1 ≠ "labels" ∧ (b = true ∨ x.1 ≠ "scores") := by
  unfold namedTensor at h
  rw [List.mem_filter] at h
  simpa using h

theorem mem_namedNon {o : Obj S} {x : String × Val S} (h : x ∈ namedNon o) :
    x ∈ o.non ∧ x.1 ≠ "labels_version" := by
  unfold namedNon at h
  rw [List.mem_filter] at h
  simpa using h

/-! ## One assignment -/

theorem newObj_ok (labels : List Int) (scores : List S) (h : scores.length = labels.length) :
    Ok (newObj labels scores) := by
  refine ⟨by simp [newObj], by simp [newObj], ?_, ?_, ?_, ?_, by simp [newObj, Cac.get], by simp [newObj, Cac.get]⟩
  · intro x hx
    simp only [newObj, List.mem_cons, List.not_mem_nil, or_false] at hx
    rcases hx with rfl | rfl
    · simp [Val.rows, newObj, h]
    · simp [Val.rows, newObj]
  · intro x hx
    simp only [newObj, List.mem_cons, List.not_mem_nil, or_false] at hx
    rw [hx]; rfl
  · intro x hx
    simp only [newObj, List.mem_cons, List.not_mem_nil, or_false] at hx
    rcases hx with rfl | rfl <;> rfl
  · intro x hx
    simp only [newObj, List.mem_cons, List.not_mem_nil, or_false] at hx
    rw [hx]; rfl

theorem asF32_some {v : Val S} {l : List S} (h : asF32 v = some l) : v = .flt false l := by
  unfold asF32 at h
  split at h
  · rw [Option.some.inj h]
  · simp at h

/-- What an assignment of a tensor does. -/
theorem setAttr_tensor {o d : Obj S} {name : String} {v : Val S} {n : Nat} (hr : v.rows = some n)
    (h : setAttr o name v = some d) :
    refused name = false ∧ n = o.labels.length ∧ name ≠ "labels" ∧ d.labels = o.labels ∧ d.non = o.non ∧
      d.tensor = put o.tensor name v ∧
      (if name = "scores" then v = .flt false d.scores else d.scores = o.scores) := by
  unfold setAttr at h
  cases hf : refused name with
  | true => rw [hf, if_pos rfl] at h; simp at h
  | false =>
    rw [hf, if_neg (by simp), hr] at h
    dsimp only at h
    split at h
    · rename_i hn
      unfold storeTensor at h
      split at h
      · simp at h
      · rename_i h1
        split at h
        · rename_i h2
          cases ha : asF32 v with
          | none => rw [ha] at h; simp at h
          | some l =>
            rw [ha] at h
            obtain rfl := Option.some.inj h
            refine ⟨rfl, hn, h1, rfl, rfl, rfl, ?_⟩
            rw [if_pos h2]
            exact asF32_some ha
        · rename_i h2
          obtain rfl := Option.some.inj h
          refine ⟨rfl, hn, h1, rfl, rfl, rfl, ?_⟩
          rw [if_neg h2]
    · simp at h

theorem setAttr_non {o d : Obj S} {name : String} {v : Val S} (hr : v.rows = none)
    (h : setAttr o name v = some d) : refused name = false ∧ d = { o with non := put o.non name v } := by
  unfold setAttr at h
  cases hf : refused name with
  | true => rw [hf, if_pos rfl] at h; simp at h
  | false =>
    rw [hf, if_neg (by simp), hr] at h
    exact ⟨rfl, (Option.some.inj h).symm⟩

theorem setAttr_labels {o d : Obj S} {name : String} {v : Val S} (h : setAttr o name v = some d) :
    d.labels = o.labels := by
  cases hr : v.rows with
  | none => rw [(setAttr_non hr h).2]
  | some n => exact (setAttr_tensor hr h).2.2.2.1

/-- Assignments keep objects as they should be. -/
theorem setAttr_ok {o d : Obj S} (ho : Ok o) {name : String} {v : Val S} (h : setAttr o name v = some d) :
    Ok d := by
  cases hr : v.rows with
  | none =>
    obtain ⟨hn, rfl⟩ := setAttr_non hr h
    refine ⟨ho.tkeys, put_nodup _ _ ho.nkeys, ho.rows, ?_, ho.names, ?_, ho.scores, ho.labels⟩
    · intro x hx
      rcases mem_put hx with rfl | hx
      · exact hr
      · exact ho.nrows x hx
    · intro x hx
      rcases mem_put hx with rfl | hx
      · exact hn
      · exact ho.nnames x hx
  | some n =>
    obtain ⟨h1, h2, h3, h4, h5, h6, h7⟩ := setAttr_tensor hr h
    refine ⟨h6 ▸ put_nodup _ _ ho.tkeys, h5 ▸ ho.nkeys, ?_, h5 ▸ ho.nrows, ?_, h5 ▸ ho.nnames, ?_, ?_⟩
    · intro x hx
      rw [h6] at hx
      rw [h4]
      rcases mem_put hx with rfl | hx
      · rw [hr, h2]
      · exact ho.rows x hx
    · intro x hx
      rw [h6] at hx
      rcases mem_put hx with rfl | hx
      · exact h1
      · exact ho.names x hx
    · rw [h6, get_put]
      by_cases hs : name = "scores"
      · rw [if_pos hs] at h7 ⊢
        rw [h7]
      · rw [if_neg hs] at h7 ⊢
        rw [h7]
        exact ho.scores
    · rw [h6, get_put, if_neg h3, h4]
      exact ho.labels

theorem setAttr_total {o : Obj S} {name : String} {v : Val S} (h1 : refused name = false)
    (h2 : name ≠ "labels") (h3 : v.rows = some o.labels.length) (h4 : name = "scores" → (asF32 v).isSome) :
    ∃ d, setAttr o name v = some d := by
  unfold setAttr storeTensor
  rw [h1, if_neg (by simp), h3]
  dsimp only
  rw [if_pos rfl, if_neg h2]
  split
  · rename_i hs
    obtain ⟨l, hl⟩ := Option.isSome_iff_exists.1 (h4 hs)
    exact ⟨_, by rw [hl]; rfl⟩
  · exact ⟨_, rfl⟩

/-! ## Many assignments -/

/-- Assigning tensors. -/
theorem setAll_tensor {f : String → Val S → Option (Val S)} {l : Dict (Val S)} {d0 d : Obj S}
    (hk : (l.map Prod.fst).Nodup) (hf : ∀ n v v', f n v = some v' → v'.rows ≠ none)
    (h : setAll f d0 l = some d) :
    d.labels = d0.labels ∧ d.non = d0.non ∧
      (∀ k, get d.tensor k = match get l k with | some v => f k v | none => get d0.tensor k) ∧
      (∀ x ∈ l, ∃ v, f x.1 x.2 = some v ∧ v.rows = some d0.labels.length ∧ x.1 ≠ "labels") ∧
      (match get l "scores" with
        | some v => f "scores" v = some (.flt false d.scores)
        | none => d.scores = d0.scores) := by
  induction l generalizing d0 with
  | nil =>
    obtain rfl := Option.some.inj h
    exact ⟨rfl, rfl, fun k => rfl, by simp, rfl⟩
  | cons x t ih =>
    obtain ⟨n, v⟩ := x
    rw [List.map_cons, List.nodup_cons] at hk
    unfold setAll at h
    rw [List.foldlM_cons] at h
    cases hv : f n v with
    | none => simp [hv] at h
    | some v' =>
      simp only [hv, Option.bind_eq_bind, Option.bind_some] at h
      cases hs : setAttr d0 n v' with
      | none => simp [hs] at h
      | some d1 =>
        simp only [hs, Option.bind_some] at h
        obtain ⟨m, hm⟩ := Option.ne_none_iff_exists'.1 (hf n v v' hv)
        obtain ⟨a1, a2, a3, a4, a5, a6, a7⟩ := setAttr_tensor hm hs
        obtain ⟨b1, b2, b3, b4, b5⟩ := ih hk.2 h
        have hnt : get t n = none := by
          cases hg : get t n with
          | none => rfl
          | some w => exact absurd (List.mem_map.2 ⟨_, get_mem hg, rfl⟩) hk.1
        refine ⟨b1.trans a4, b2.trans a5, ?_, ?_, ?_⟩
        · intro k
          rw [b3 k]
          rw [get_cons]
          by_cases hn : n = k
          · subst hn
            rw [if_pos rfl, hnt, a6]
            dsimp only
            rw [show get (put d0.tensor n v') n = some v' by rw [get_put, if_pos rfl], hv]
          · rw [if_neg hn]
            cases hg : get t k with
            | some w => rfl
            | none =>
              dsimp only
              rw [a6, get_put, if_neg hn]
        · intro x hx
          rcases List.mem_cons.1 hx with rfl | hx
          · exact ⟨v', hv, by rw [hm, a2], a3⟩
          · obtain ⟨w, w1, w2, w3⟩ := b4 x hx
            exact ⟨w, w1, by rw [w2, a4], w3⟩
        · rw [get_cons]
          by_cases hn : n = "scores"
          · subst hn
            rw [if_pos rfl] at a7 ⊢
            dsimp only
            rw [hnt] at b5
            dsimp only at b5
            rw [b5, ← a7, hv]
          · rw [if_neg hn] at a7 ⊢
            cases hg : get t "scores" with
            | some w => rw [hg] at b5; exact b5
            | none => rw [hg] at b5; dsimp only at b5 ⊢; rw [b5, a7]

theorem setAll_total {f : String → Val S → Option (Val S)} {l : Dict (Val S)} {d0 : Obj S}
    (h : ∀ x ∈ l, refused x.1 = false ∧ x.1 ≠ "labels" ∧
      ∃ v, f x.1 x.2 = some v ∧ v.rows = some d0.labels.length ∧ (x.1 = "scores" → (asF32 v).isSome)) :
    ∃ d, setAll f d0 l = some d := by
  induction l generalizing d0 with
  | nil => exact ⟨d0, rfl⟩
  | cons x t ih =>
    obtain ⟨h1, h2, v, h3, h4, h5⟩ := h x List.mem_cons_self
    obtain ⟨d1, hd1⟩ := setAttr_total h1 h2 h4 h5
    have hl := setAttr_labels hd1
    obtain ⟨d, hd⟩ := ih (d0 := d1) (fun y hy => by rw [hl]; exact h y (List.mem_cons_of_mem _ hy))
    refine ⟨d, ?_⟩
    unfold setAll at hd ⊢
    rw [List.foldlM_cons, h3]
    simp only [Option.bind_eq_bind, Option.bind_some, hd1]
    exact hd

/-- Assigning other attributes. -/
theorem setAll_non {l : Dict (Val S)} {d0 d : Obj S} (hk : (l.map Prod.fst).Nodup)
    (hr : ∀ x ∈ l, x.2.rows = none) (h : setAll (fun _ v => some v) d0 l = some d) :
    d.labels = d0.labels ∧ d.scores = d0.scores ∧ d.tensor = d0.tensor ∧
      ∀ k, get d.non k = match get l k with | some v => some v | none => get d0.non k := by
  induction l generalizing d0 with
  | nil =>
    obtain rfl := Option.some.inj h
    exact ⟨rfl, rfl, rfl, fun k => rfl⟩
  | cons x t ih =>
    obtain ⟨n, v⟩ := x
    rw [List.map_cons, List.nodup_cons] at hk
    unfold setAll at h
    rw [List.foldlM_cons] at h
    simp only [Option.bind_eq_bind, Option.bind_some] at h
    cases hs : setAttr d0 n v with
    | none => simp [hs] at h
    | some d1 =>
      simp only [hs, Option.bind_some] at h
      obtain ⟨_, rfl⟩ := setAttr_non (hr (n, v) List.mem_cons_self) hs
      obtain ⟨b1, b2, b3, b4⟩ := ih hk.2 (fun y hy => hr y (List.mem_cons_of_mem _ hy)) h
      refine ⟨b1, b2, b3, ?_⟩
      intro k
      rw [b4 k]
      have hnt : get t n = none := by
        cases hg : get t n with
        | none => rfl
        | some w => exact absurd (List.mem_map.2 ⟨_, get_mem hg, rfl⟩) hk.1
      rw [get_cons]
      by_cases hn : n = k
      · subst hn
        rw [if_pos rfl, hnt]
        dsimp only
        rw [get_put, if_pos rfl]
      · rw [if_neg hn]
        cases hg : get t k with
        | some w => rfl
        | none =>
          dsimp only
          rw [get_put, if_neg hn]

theorem setAll_non_total {l : Dict (Val S)} {d0 : Obj S}
    (h : ∀ x ∈ l, refused x.1 = false ∧ x.2.rows = none) :
    ∃ d, setAll (fun _ v => some v) d0 l = some d := by
  induction l generalizing d0 with
  | nil => exact ⟨d0, rfl⟩
  | cons x t ih =>
    obtain ⟨h1, h2⟩ := h x List.mem_cons_self
    obtain ⟨d, hd⟩ := ih (d0 := { d0 with non := put d0.non x.1 x.2 })
      (fun y hy => h y (List.mem_cons_of_mem _ hy))
    refine ⟨d, ?_⟩
    unfold setAll at hd ⊢
    rw [List.foldlM_cons]
    simp only [Option.bind_eq_bind, Option.bind_some]
    have : setAttr d0 x.1 x.2 = some { d0 with non := put d0.non x.1 x.2 } := by
      unfold setAttr
      rw [h1, if_neg (by simp), h2]
    rw [this, Option.bind_some]
    exact hd

theorem setAll_ok {f : String → Val S → Option (Val S)} {l : Dict (Val S)} {d0 d : Obj S} (h0 : Ok d0)
    (h : setAll f d0 l = some d) : Ok d := by
  induction l generalizing d0 with
  | nil => obtain rfl := Option.some.inj h; exact h0
  | cons x t ih =>
    unfold setAll at h
    rw [List.foldlM_cons] at h
    cases hv : f x.1 x.2 with
    | none => simp [hv] at h
    | some v' =>
      simp only [hv, Option.bind_eq_bind, Option.bind_some] at h
      cases hs : setAttr d0 x.1 v' with
      | none => simp [hs] at h
      | some d1 =>
        simp only [hs, Option.bind_some] at h
        exact ih (setAttr_ok h0 hs) h

/-! ## Indexing -/

theorem mapM_some {α β : Type} {g : α → Option β} {l : List α} {r : List β} (h : l.mapM g = some r) :
    r.length = l.length ∧ ∀ (j : Nat) (a : α), l[j]? = some a → ∃ b, g a = some b ∧ r[j]? = some b := by
  induction l generalizing r with
  | nil =>
    simp only [List.mapM_nil, Option.pure_def, Option.some.injEq] at h
    subst h
    simp
  | cons x t ih =>
    rw [List.mapM_cons] at h
    cases hx : g x with
    | none => simp [hx] at h
    | some b =>
      cases ht : t.mapM g with
      | none => simp [hx, ht] at h
      | some r' =>
        simp only [hx, ht, Option.bind_eq_bind, Option.bind_some, Option.pure_def, Option.some.injEq] at h
        subst h
        obtain ⟨h1, h2⟩ := ih ht
        refine ⟨by simp [h1], ?_⟩
        intro j a ha
        cases j with
        | zero =>
          rw [List.getElem?_cons_zero] at ha
          rw [← Option.some.inj ha]
          exact ⟨b, hx, rfl⟩
        | succ j =>
          rw [List.getElem?_cons_succ] at ha
          obtain ⟨b', h3, h4⟩ := h2 j a ha
          exact ⟨b', h3, by rw [List.getElem?_cons_succ]; exact h4⟩

theorem mapM_total {α β : Type} {g : α → Option β} {l : List α} (h : ∀ a ∈ l, (g a).isSome) :
    ∃ r, l.mapM g = some r := by
  induction l with
  | nil => exact ⟨[], rfl⟩
  | cons x t ih =>
    obtain ⟨r, hr⟩ := ih fun a ha => h a (List.mem_cons_of_mem _ ha)
    obtain ⟨b, hb⟩ := Option.isSome_iff_exists.1 (h x List.mem_cons_self)
    exact ⟨b :: r, by simp [List.mapM_cons, hb, hr]⟩

theorem pickAll_some {α : Type} {l r : List α} {idx : List Int} {z : α} (h : pickAll l idx z = some r) :
    r.length = idx.length ∧ ∀ (j : Nat) (i : Int), idx[j]? = some i →
      (i = -1 → r[j]? = some z) ∧ (i ≠ -1 → 0 ≤ i ∧ i.toNat < l.length ∧ r[j]? = l[i.toNat]?) := by
  obtain ⟨h1, h2⟩ := mapM_some h
  refine ⟨h1, ?_⟩
  intro j i hi
  obtain ⟨b, h3, h4⟩ := h2 j i hi
  constructor
  · intro he
    rw [if_pos he] at h3
    rw [h4, h3]
  · intro he
    rw [if_neg he] at h3
    split at h3
    · rename_i h0
      exact ⟨h0, (List.getElem?_eq_some_iff.1 h3).1, by rw [h4, h3]⟩
    · simp at h3

theorem pickAll_total {α : Type} {l : List α} {idx : List Int} {z : α} (h : InRange l.length idx) :
    ∃ r, pickAll l idx z = some r := by
  apply mapM_total
  intro i hi
  rcases h i hi with rfl | ⟨h1, h2⟩
  · simp
  · rw [if_neg (by omega), if_pos h1, List.getElem?_eq_getElem (by omega)]
    rfl

theorem indexSelect_some {α : Type} {l r : List α} {idx : List Int} {z : α} (h : indexSelect l idx z = some r)
    (hlen : r.length = idx.length) :
    ∀ (j : Nat) (i : Int), idx[j]? = some i →
      (i = -1 → r[j]? = some z) ∧ (i ≠ -1 → 0 ≤ i ∧ i.toNat < l.length ∧ r[j]? = l[i.toNat]?) := by
  unfold indexSelect at h
  split at h
  · obtain rfl := Option.some.inj h
    intro j i hi
    have := (List.getElem?_eq_some_iff.1 hi).1
    simp at hlen
    omega
  · exact (pickAll_some h).2

theorem indexSelect_total {α : Type} {l : List α} {idx : List Int} {z : α} (h : InRange l.length idx)
    (hne : l ≠ [] ∨ idx = []) : ∃ r, indexSelect l idx z = some r ∧ r.length = idx.length := by
  unfold indexSelect
  split
  · rename_i h0
    refine ⟨[], rfl, ?_⟩
    rcases hne with hne | hne
    · rcases h0 with h0 | h0
      · simp [h0]
      · exact absurd (List.eq_nil_of_length_eq_zero h0) hne
    · simp [hne]
  · obtain ⟨r, hr⟩ := pickAll_total (z := z) h
    exact ⟨r, hr, (pickAll_some hr).1⟩

end Verif.Fsa.Att
