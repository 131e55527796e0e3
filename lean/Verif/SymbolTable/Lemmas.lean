import Verif.SymbolTable.Model

namespace Verif.SymbolTable
open Verif.Text

namespace Dict
variable {K V : Type} [DecidableEq K]

theorem get?_nil (k : K) : get? ([] : Dict K V) k = none := rfl

theorem get?_cons (k k' : K) (v : V) (d : Dict K V) :
    get? ((k', v) :: d) k = if k = k' then some v else get? d k := by
  unfold get?
  rw [List.lookup_cons]
  by_cases h : k = k'
  · simp [h]
  · have : (k == k') = false := by simp [h]
    simp [this, h]

theorem get?_set (d : Dict K V) (k k' : K) (v : V) :
    get? (set d k v) k' = if k' = k then some v else get? d k' := by
  induction d with
  | nil => simp [set, get?_cons, get?_nil]
  | cons e d ih =>
    obtain ⟨a, b⟩ := e
    simp only [set]
    by_cases h : a = k
    · simp only [h, if_true, get?_cons]
      by_cases h2 : k' = k <;> simp [h2]
    · simp only [h, if_false, get?_cons, ih]
      by_cases h2 : k' = a
      · have : k' ≠ k := fun h3 => h (h2 ▸ h3)
        simp only [h2, if_true]
        rw [if_neg h]
      · simp [h2]

theorem mem_of_get? {d : Dict K V} {k : K} {v : V} (h : get? d k = some v) : (k, v) ∈ d := by
  induction d with
  | nil => simp [get?_nil] at h
  | cons e d ih =>
    obtain ⟨a, b⟩ := e
    rw [get?_cons] at h
    by_cases h2 : k = a
    · simp [h2] at h; simp [h2, h]
    · simp [h2] at h; exact List.mem_cons_of_mem _ (ih h)

theorem get?_of_mem {d : Dict K V} (hd : (keys d).Nodup) {k : K} {v : V} (h : (k, v) ∈ d) :
    get? d k = some v := by
  induction d with
  | nil => simp at h
  | cons e d ih =>
    obtain ⟨a, b⟩ := e
    simp only [keys, List.map_cons, List.nodup_cons] at hd
    rw [get?_cons]
    rcases List.mem_cons.mp h with h1 | h1
    · simp at h1; simp [h1]
    · have : k ≠ a := by
        intro he
        exact hd.1 (List.mem_map.mpr ⟨(k, v), h1, he⟩)
      simp [this]; exact ih hd.2 h1

theorem get?_iff_mem {d : Dict K V} (hd : (keys d).Nodup) {k : K} {v : V} :
    get? d k = some v ↔ (k, v) ∈ d := ⟨mem_of_get?, get?_of_mem hd⟩

theorem mem_keys_iff {d : Dict K V} {k : K} : k ∈ keys d ↔ (get? d k).isSome = true := by
  constructor
  · intro h
    induction d with
    | nil => simp [keys] at h
    | cons e d ih =>
      obtain ⟨a, b⟩ := e
      rw [get?_cons]
      by_cases h2 : k = a
      · simp [h2]
      · simp only [h2, if_false]
        simp only [keys, List.map_cons, List.mem_cons, h2, false_or] at h
        exact ih h
  · intro h
    obtain ⟨v, hv⟩ := Option.isSome_iff_exists.mp h
    exact List.mem_map.mpr ⟨_, mem_of_get? hv, rfl⟩

theorem set_fresh (d : Dict K V) (k : K) (v : V) (h : get? d k = none) :
    set d k v = d ++ [(k, v)] := by
  induction d with
  | nil => rfl
  | cons e d ih =>
    obtain ⟨a, b⟩ := e
    rw [get?_cons] at h
    by_cases h2 : k = a
    · simp [h2] at h
    · simp only [h2, if_false] at h
      have h3 : a ≠ k := fun h => h2 h.symm
      simp [set, h3, ih h]

theorem keys_set_nodup (d : Dict K V) (k : K) (v : V) (h : (keys d).Nodup) :
    (keys (set d k v)).Nodup := by
  induction d with
  | nil => simp [set, keys]
  | cons e d ih =>
    obtain ⟨a, b⟩ := e
    simp only [keys, List.map_cons, List.nodup_cons] at h
    simp only [set]
    by_cases h2 : a = k
    · simp only [h2, if_true, keys, List.map_cons, List.nodup_cons]
      exact ⟨h2 ▸ h.1, h.2⟩
    · simp only [h2, if_false, keys, List.map_cons, List.nodup_cons]
      refine ⟨?_, ih h.2⟩
      intro hm
      have hm' : a ∈ keys (set d k v) := hm
      rw [mem_keys_iff, get?_set] at hm'
      simp only [h2, if_false] at hm'
      exact h.1 (mem_keys_iff.mpr hm')

theorem get?_union (b a : Dict K V) (hb : (keys b).Nodup) (k : K) :
    get? (union a b) k = (get? b k).or (get? a k) := by
  induction b generalizing a with
  | nil => simp [union, get?_nil]
  | cons e b ih =>
    obtain ⟨x, y⟩ := e
    simp only [keys, List.map_cons, List.nodup_cons] at hb
    have h1 : union a ((x, y) :: b) = union (set a x y) b := rfl
    rw [h1, ih _ hb.2, get?_set, get?_cons]
    by_cases h : k = x
    · have h3 : get? b k = none := by
        cases h4 : get? b k with
        | none => rfl
        | some v => exact absurd (mem_keys_iff.mpr (by simp [← h, h4])) hb.1
      simp [h, h ▸ h3]
    · simp [h]

theorem keys_union_nodup (b a : Dict K V) (ha : (keys a).Nodup) : (keys (union a b)).Nodup := by
  induction b generalizing a with
  | nil => exact ha
  | cons e b ih => exact ih _ (keys_set_nodup a e.1 e.2 ha)

theorem get?_perm {d d' : Dict K V} (h : d.Perm d') (hd : (keys d).Nodup) (k : K) :
    get? d k = get? d' k := by
  have hd' : (keys d').Nodup := (h.map _).nodup_iff.mp hd
  apply Option.ext
  intro v
  rw [get?_iff_mem hd, get?_iff_mem hd', h.mem_iff]

end Dict

section
variable {σ : Type} [DecidableEq σ]

theorem checkIds_ok_iff (s2i : Dict σ Int) (l : Dict Int σ) :
    checkIds s2i l = .ok () ↔ ∀ i s, (i, s) ∈ l → Dict.get? s2i s = some i ∧ 0 ≤ i := by
  induction l with
  | nil => simp [checkIds]
  | cons e l ih =>
    obtain ⟨a, b⟩ := e
    simp only [checkIds]
    cases hg : Dict.get? s2i b with
    | none =>
      simp only [reduceCtorEq, false_iff]
      intro h
      have := (h a b (by simp)).1
      rw [hg] at this; cases this
    | some j =>
      simp only
      by_cases h1 : j = a
      · by_cases h2 : a < 0
        · simp only [h1, ne_eq, not_true, if_false, h2, if_true, reduceCtorEq, false_iff]
          intro h
          have := (h a b (by simp)).2
          omega
        · simp only [h1, ne_eq, not_true, if_false, h2, ih]
          constructor
          · intro h i s hm
            rcases List.mem_cons.mp hm with hm | hm
            · simp at hm; rw [hm.1, hm.2]; exact ⟨by rw [hg, h1], by omega⟩
            · exact h i s hm
          · intro h i s hm; exact h i s (List.mem_cons_of_mem _ hm)
      · simp only [ne_eq, h1, not_false_iff, if_true, reduceCtorEq, false_iff]
        intro h
        have := (h a b (by simp)).1
        rw [hg] at this; exact h1 (Option.some.inj this)

theorem checkSyms_ok_iff (i2s : Dict Int σ) (l : Dict σ Int) :
    checkSyms i2s l = .ok () ↔ ∀ s i, (s, i) ∈ l → Dict.get? i2s i = some s ∧ 0 ≤ i := by
  induction l with
  | nil => simp [checkSyms]
  | cons e l ih =>
    obtain ⟨a, b⟩ := e
    simp only [checkSyms]
    by_cases h2 : b < 0
    · simp only [h2, if_true, reduceCtorEq, false_iff]
      intro h
      have := (h a b (by simp)).2
      omega
    simp only [h2, if_false]
    cases hg : Dict.get? i2s b with
    | none =>
      simp only [reduceCtorEq, false_iff]
      intro h
      have := (h a b (by simp)).1
      rw [hg] at this; cases this
    | some j =>
      simp only
      by_cases h1 : j = a
      · simp only [h1, ne_eq, not_true, if_false, ih]
        constructor
        · intro h i s hm
          rcases List.mem_cons.mp hm with hm | hm
          · simp at hm; rw [hm.1, hm.2]; exact ⟨by rw [hg, h1], by omega⟩
          · exact h i s hm
        · intro h i s hm; exact h i s (List.mem_cons_of_mem _ hm)
      · simp only [ne_eq, h1, not_false_iff, if_true, reduceCtorEq, false_iff]
        intro h
        have := (h a b (by simp)).1
        rw [hg] at this; exact h1 (Option.some.inj this)

omit [DecidableEq σ] in
theorem le_maxKey (d : Dict Int σ) (k : Int) (v : σ) (h : (k, v) ∈ d) : k ≤ maxKey d := by
  induction d with
  | nil => simp at h
  | cons e d ih =>
    obtain ⟨a, b⟩ := e
    cases d with
    | nil => simp at h; simp [maxKey, h]
    | cons e' d =>
      simp only [maxKey]
      rcases List.mem_cons.mp h with h | h
      · simp at h; omega
      · have := ih h; omega

omit [DecidableEq σ] in
theorem maxKey_mem (d : Dict Int σ) (h : d ≠ []) : ∃ v, (maxKey d, v) ∈ d := by
  induction d with
  | nil => exact absurd rfl h
  | cons e d ih =>
    obtain ⟨a, b⟩ := e
    cases d with
    | nil => exact ⟨b, by simp [maxKey]⟩
    | cons e' d =>
      obtain ⟨v, hv⟩ := ih (by simp)
      simp only [maxKey]
      by_cases hle : a ≤ maxKey (e' :: d)
      · refine ⟨v, ?_⟩
        rw [Int.max_eq_right hle]; exact List.mem_cons_of_mem _ hv
      · refine ⟨b, ?_⟩
        rw [Int.max_eq_left (by omega)]; simp

theorem compatIds_iff (b l : Dict Int σ) :
    compatIds b l = true ↔ ∀ i s, (i, s) ∈ l → ∀ s', Dict.get? b i = some s' → s = s' := by
  induction l with
  | nil => simp [compatIds]
  | cons e l ih =>
    obtain ⟨x, y⟩ := e
    simp only [compatIds, Bool.and_eq_true, ih]
    constructor
    · rintro ⟨h1, h2⟩ i s hm s' hs'
      rcases List.mem_cons.mp hm with hm | hm
      · simp at hm; obtain ⟨rfl, rfl⟩ := hm
        rw [hs'] at h1; simpa using h1
      · exact h2 i s hm s' hs'
    · intro h
      refine ⟨?_, fun i s hm => h i s (List.mem_cons_of_mem _ hm)⟩
      cases hg : Dict.get? b x with
      | none => rfl
      | some s' => simpa using h x y (by simp) s' hg

theorem compatSyms_iff (b l : Dict σ Int) :
    compatSyms b l = true ↔ ∀ s i, (s, i) ∈ l → ∀ i', Dict.get? b s = some i' → i = i' := by
  induction l with
  | nil => simp [compatSyms]
  | cons e l ih =>
    obtain ⟨x, y⟩ := e
    simp only [compatSyms, Bool.and_eq_true, ih]
    constructor
    · rintro ⟨h1, h2⟩ i s hm s' hs'
      rcases List.mem_cons.mp hm with hm | hm
      · simp at hm; obtain ⟨rfl, rfl⟩ := hm
        rw [hs'] at h1; simpa using h1
      · exact h2 i s hm s' hs'
    · intro h
      refine ⟨?_, fun i s hm => h i s (List.mem_cons_of_mem _ hm)⟩
      cases hg : Dict.get? b x with
      | none => rfl
      | some s' => simpa using h x y (by simp) s' hg

end

theorem insertSorted_perm (e : Int × Str) (l : List (Int × Str)) :
    (insertSorted e l).Perm (e :: l) := by
  induction l with
  | nil => exact List.Perm.refl _
  | cons f l ih =>
    simp only [insertSorted]
    split
    · exact List.Perm.refl _
    · exact (ih.cons f).trans (List.Perm.swap e f l)

theorem sortItems_perm (d : Dict Int Str) : (sortItems d).Perm d := by
  induction d with
  | nil => exact List.Perm.refl _
  | cons e d ih =>
    exact (insertSorted_perm e _).trans (ih.cons e)

/-- Reading back the printed lines of fresh entries appends them to both dictionaries. -/
theorem readLines_print (l : Dict Int Str) (i2s : Dict Int Str) (s2i : Dict Str Int)
    (hs : ∀ i s, (i, s) ∈ l → s ≠ [] ∧ ∀ c ∈ s, isWs c = false)
    (hk : (Dict.keys (i2s ++ l)).Nodup)
    (hv : (Dict.keys (s2i ++ l.map (fun e => (e.2, e.1)))).Nodup) :
    readLines (splitNl (l.flatMap line)) i2s s2i =
      .ok (i2s ++ l, s2i ++ l.map (fun e => (e.2, e.1))) := by
  induction l generalizing i2s s2i with
  | nil => simp [splitNl, readLines, fields, fieldsAux]
  | cons e l ih =>
    obtain ⟨i, s⟩ := e
    obtain ⟨hne, hws⟩ := hs i s (by simp)
    have hline : List.flatMap line ((i, s) :: l) =
        (s ++ ' ' :: showInt i) ++ '\n' :: l.flatMap line := by
      simp [line]
    have hnl : '\n' ∉ s ++ ' ' :: showInt i := by
      simp only [List.mem_append, List.mem_cons, not_or]
      exact ⟨not_mem_nl_of_noWs hws, by decide, not_mem_nl_of_noWs (showInt_noWs i)⟩
    rw [hline, splitNl_line _ _ hnl]
    simp only [readLines, fields_two s (showInt i) hws (showInt_noWs i) hne (showInt_ne_nil i),
      parseInt_showInt]
    have hgi : Dict.get? i2s i = none := by
      cases hg : Dict.get? i2s i with
      | none => rfl
      | some v =>
        exfalso
        have hm : i ∈ Dict.keys i2s := Dict.mem_keys_iff.mpr (by simp [hg])
        simp only [Dict.keys, List.map_append, List.nodup_append] at hk
        exact hk.2.2 i hm i (by simp) rfl
    have hgs : Dict.get? s2i s = none := by
      cases hg : Dict.get? s2i s with
      | none => rfl
      | some v =>
        exfalso
        have hm : s ∈ Dict.keys s2i := Dict.mem_keys_iff.mpr (by simp [hg])
        simp only [Dict.keys, List.map_append, List.nodup_append] at hv
        exact hv.2.2 s hm s (by simp) rfl
    simp only [Dict.has, hgi, hgs, Option.isSome_none, Bool.false_eq_true, if_false]
    rw [Dict.set_fresh _ _ _ hgi, Dict.set_fresh _ _ _ hgs,
      ih (i2s ++ [(i, s)]) (s2i ++ [(s, i)]) (fun a b h => hs a b (List.mem_cons_of_mem _ h))
        (by simpa using hk) (by simpa using hv)]
    simp

end Verif.SymbolTable
