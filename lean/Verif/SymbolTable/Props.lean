import Verif.SymbolTable.Lemmas

/-!
# Properties of `SymbolTable` (C01 - C04)

The specification speaks about look-ups only: `getId` (`table[int]`) and `getSym`
(`table[symbol]`).
-/

namespace Verif.SymbolTable
open Verif.Text

section
variable {σ : Type} [DecidableEq σ]

/-- `table[·]` is a bijection between the ids and the symbols present. -/
def Bijective (t : SymTab σ) : Prop :=
  ∀ i s, getId t i = some s ↔ getSym t s = some i

/-- A well-formed table: bijective, epsilon at 0, the next automatic id is the largest id
plus one, and (a fact about Python dictionaries) keys are unique. -/
structure WF (t : SymTab σ) : Prop where
  bij : Bijective t
  eps0 : getId t 0 = some t.eps
  lt_next : ∀ i s, getId t i = some s → i < t.next
  next_used : ∃ s, getId t (t.next - 1) = some s
  nodup_ids : (Dict.keys t.id2sym).Nodup
  nodup_syms : (Dict.keys t.sym2id).Nodup

/-- No id is negative. -/
def NonnegIds (t : SymTab σ) : Prop := ∀ i s, getId t i = some s → 0 ≤ i

/-- A history of `add` calls; exceptions leave the table as `add` left it. -/
def addAll (t : SymTab σ) (calls : List (σ × Option Int)) : SymTab σ :=
  calls.foldl (fun t c => (add t c.1 c.2).1) t

/-! ## C01 -/

/-- What one `add` call does, seen through look-ups: an existing symbol is returned
unchanged; an occupied id is rejected; otherwise exactly one entry is added, at the given
id or at the next automatic one. -/
theorem add_spec (t : SymTab σ) (s : σ) (ix : Option Int) :
    (∀ i, getSym t s = some i → add t s ix = (t, .ok i)) ∧
    (getSym t s = none →
      ∀ j, j = ix.getD t.next →
        ((getId t j).isSome → add t s ix = (t, .error .value)) ∧
        (getId t j = none →
          (add t s ix).2 = .ok j ∧
          (∀ i, getId (add t s ix).1 i = if i = j then some s else getId t i) ∧
          (∀ s', getSym (add t s ix).1 s' = if s' = s then some j else getSym t s'))) := by
  constructor
  · intro i hi
    simp only [getSym] at hi
    simp [add, hi]
  · intro hn j hj
    simp only [getSym] at hn
    have hj' : pickIndex t ix = j := by
      cases ix <;> simp [hj, pickIndex]
    constructor
    · intro hs
      simp only [getId] at hs
      simp only [add, hn, hj', Dict.has, hs, if_true]
    · intro hs
      simp only [getId] at hs
      simp only [add, hn, hj', Dict.has, hs, Option.isSome_none, Bool.false_eq_true, if_false,
        getId, getSym, Dict.get?_set, true_and]
      exact ⟨fun _ => trivial, fun _ => trivial⟩

/-- `add` without an index never raises on a well-formed table. -/
theorem add_auto_ok (t : SymTab σ) (h : WF t) (s : σ) : ∃ i, (add t s none).2 = .ok i := by
  cases hs : getSym t s with
  | some i => exact ⟨i, by rw [(add_spec t s none).1 i hs]⟩
  | none =>
    refine ⟨t.next, ((add_spec t s none).2 hs t.next rfl).2 ?_ |>.1⟩
    cases hg : getId t t.next with
    | none => rfl
    | some s' => exact absurd (h.lt_next _ _ hg) (by omega)

theorem add_wf (t : SymTab σ) (h : WF t) (s : σ) (ix : Option Int) : WF (add t s ix).1 := by
  cases hs : getSym t s with
  | some i => rw [(add_spec t s ix).1 i hs]; exact h
  | none =>
    cases hj : getId t (ix.getD t.next) with
    | some s' =>
      rw [((add_spec t s ix).2 hs _ rfl).1 (by simp [hj])]; exact h
    | none =>
      obtain ⟨_, hid, hsym⟩ := ((add_spec t s ix).2 hs _ rfl).2 hj
      generalize hjj : ix.getD t.next = j at *
      have hform : (add t s ix).1 = { t with
          sym2id := Dict.set t.sym2id s j
          id2sym := Dict.set t.id2sym j s
          next := if t.next ≤ j then j + 1 else t.next } := by
        have hj' : pickIndex t ix = j := by
          cases ix <;> simpa [pickIndex] using hjj
        simp only [getSym] at hs
        simp only [getId] at hj
        simp only [add, hs, hj', Dict.has, hj, Option.isSome_none, Bool.false_eq_true, if_false]
      have hj0 : j ≠ 0 := by
        rintro rfl
        rw [h.eps0] at hj; cases hj
      constructor
      · intro i s'
        rw [hid, hsym]
        by_cases h1 : i = j
        · by_cases h2 : s' = s
          · simp [h1, h2]
          · simp only [h1, if_true, h2, if_false]
            constructor
            · intro he; exact absurd (Option.some.inj he).symm h2
            · intro he; rw [(h.bij j s').mpr he] at hj; cases hj
        · by_cases h2 : s' = s
          · simp only [h1, if_false, h2, if_true]
            constructor
            · intro he; rw [(h.bij i s).mp he] at hs; cases hs
            · intro he; exact absurd (Option.some.inj he).symm h1
          · simp only [h1, h2, if_false]; exact h.bij i s'
      · rw [hid]
        have : (add t s ix).1.eps = t.eps := by rw [hform]
        rw [this, if_neg (fun h => hj0 h.symm)]; exact h.eps0
      · intro i s' hi
        rw [hid] at hi
        have hnx : (add t s ix).1.next = if t.next ≤ j then j + 1 else t.next := by rw [hform]
        rw [hnx]
        by_cases h1 : i = j
        · split <;> omega
        · rw [if_neg h1] at hi
          have := h.lt_next _ _ hi
          split <;> omega
      · have hnx : (add t s ix).1.next = if t.next ≤ j then j + 1 else t.next := by rw [hform]
        rw [hnx]
        by_cases hle : t.next ≤ j
        · refine ⟨s, ?_⟩
          rw [if_pos hle, hid]; simp
        · rw [if_neg hle]
          obtain ⟨s', hs'⟩ := h.next_used
          refine ⟨s', ?_⟩
          rw [hid]
          have : t.next - 1 ≠ j := by
            rintro rfl
            rw [hs'] at hj; cases hj
          rw [if_neg this]; exact hs'
      · rw [hform]; exact Dict.keys_set_nodup _ _ _ h.nodup_ids
      · rw [hform]; exact Dict.keys_set_nodup _ _ _ h.nodup_syms

/-- Entries are never lost or moved by an `add`. -/
theorem add_keeps (t : SymTab σ) (s : σ) (ix : Option Int) (i : Int) (s' : σ)
    (hi : getId t i = some s') : getId (add t s ix).1 i = some s' := by
  cases hs : getSym t s with
  | some i => rw [(add_spec t s ix).1 i hs]; exact hi
  | none =>
    cases hj : getId t (ix.getD t.next) with
    | some s' =>
      rw [((add_spec t s ix).2 hs _ rfl).1 (by simp [hj])]; exact hi
    | none =>
      obtain ⟨_, hid, _⟩ := ((add_spec t s ix).2 hs _ rfl).2 hj
      rw [hid]
      have : i ≠ ix.getD t.next := by
        rintro rfl
        rw [hi] at hj; cases hj
      rw [if_neg this]; exact hi

/-- **C01.** Any history of `add` calls on a well-formed table leaves it well formed (a
bijection with epsilon at 0), keeps every entry in place, and whenever `add` returns `i`
for `s`, later look-ups give `i ↔ s`, whatever is added afterwards. -/
theorem addAll_wf (t : SymTab σ) (h : WF t) (calls : List (σ × Option Int)) :
    WF (addAll t calls) ∧
    ∀ i s, getId t i = some s → getId (addAll t calls) i = some s := by
  induction calls generalizing t with
  | nil => exact ⟨h, fun _ _ h => h⟩
  | cons c calls ih =>
    have hw := add_wf t h c.1 c.2
    obtain ⟨h1, h2⟩ := ih (add t c.1 c.2).1 hw
    exact ⟨h1, fun i s hi => h2 i s (add_keeps t c.1 c.2 i s hi)⟩

theorem add_then_lookup (t : SymTab σ) (h : WF t) (s : σ) (ix : Option Int) (i : Int)
    (hr : (add t s ix).2 = .ok i) (calls : List (σ × Option Int)) :
    getId (addAll (add t s ix).1 calls) i = some s ∧
    getSym (addAll (add t s ix).1 calls) s = some i := by
  have hw := add_wf t h s ix
  have hi : getId (add t s ix).1 i = some s := by
    cases hs : getSym t s with
    | some j =>
      have he := (add_spec t s ix).1 j hs
      rw [he] at hr
      simp only [Except.ok.injEq] at hr
      rw [he]; subst hr; exact (h.bij _ _).mpr hs
    | none =>
      cases hj : getId t (ix.getD t.next) with
      | some s' =>
        rw [((add_spec t s ix).2 hs _ rfl).1 (by simp [hj])] at hr
        simp at hr
      | none =>
        obtain ⟨h1, hid, _⟩ := ((add_spec t s ix).2 hs _ rfl).2 hj
        rw [h1] at hr
        simp only [Except.ok.injEq] at hr
        rw [hid, ← hr]; simp
  obtain ⟨h1, h2⟩ := addAll_wf _ hw calls
  exact ⟨h2 i s hi, (h1.bij i s).mp (h2 i s hi)⟩

/-! ## Construction -/

/-- Entries handed to the constructor are accepted exactly when they are mutually inverse
with non-negative ids and id 0, if present, is epsilon. -/
theorem construct_ok_iff (i2s : Dict Int σ) (s2i : Dict σ Int) (eps : σ)
    (hn1 : (Dict.keys i2s).Nodup) (hn2 : (Dict.keys s2i).Nodup) :
    (∃ t, construct i2s s2i eps = .ok t) ↔
      (∀ i s, Dict.get? i2s i = some s ↔ Dict.get? s2i s = some i) ∧
      (∀ i s, Dict.get? i2s i = some s → 0 ≤ i) ∧
      (∀ s, Dict.get? i2s 0 = some s → s = eps) := by
  constructor
  · rintro ⟨t, ht⟩
    unfold construct at ht
    cases h1 : checkIds s2i i2s with
    | error e => rw [h1] at ht; simp at ht
    | ok u =>
      cases h2 : checkSyms i2s s2i with
      | error e => rw [h1, h2] at ht; simp at ht
      | ok u2 =>
        have h1' := (checkIds_ok_iff s2i i2s).mp h1
        have h2' := (checkSyms_ok_iff i2s s2i).mp h2
        refine ⟨fun i s => ⟨fun h => (h1' i s (Dict.mem_of_get? h)).1,
          fun h => (h2' s i (Dict.mem_of_get? h)).1⟩,
          fun i s h => (h1' i s (Dict.mem_of_get? h)).2, ?_⟩
        intro s hs
        rw [h1, h2] at ht
        simp only [hs] at ht
        by_cases he : s = eps
        · exact he
        · simp [he] at ht
  · rintro ⟨hb, hnn, h0⟩
    have h1 : checkIds s2i i2s = .ok () := by
      rw [checkIds_ok_iff]
      intro i s hm
      have := Dict.get?_of_mem hn1 hm
      exact ⟨(hb i s).mp this, hnn i s this⟩
    have h2 : checkSyms i2s s2i = .ok () := by
      rw [checkSyms_ok_iff]
      intro s i hm
      have := Dict.get?_of_mem hn2 hm
      exact ⟨(hb i s).mpr this, hnn i s ((hb i s).mpr this)⟩
    unfold construct
    rw [h1, h2]
    simp only
    cases hg : Dict.get? i2s 0 with
    | none => exact ⟨_, rfl⟩
    | some s =>
      have he := h0 s hg
      subst he
      simp only [ne_eq, not_true, if_false, (hb 0 s).mp hg]
      exact ⟨_, rfl⟩

/-- A constructed table is well formed, provided epsilon is not listed under a non-zero id
while id 0 is missing (see `fromStr_not_bijective` for what happens otherwise), and its
look-ups are the given ones plus epsilon at 0. -/
theorem construct_wf (i2s : Dict Int σ) (s2i : Dict σ Int) (eps : σ) (t : SymTab σ)
    (hn1 : (Dict.keys i2s).Nodup) (hn2 : (Dict.keys s2i).Nodup)
    (hguard : Dict.get? i2s 0 = none → Dict.get? s2i eps = none)
    (ht : construct i2s s2i eps = .ok t) :
    WF t ∧ NonnegIds t ∧ t.eps = eps ∧
    (∀ i, getId t i = if i = 0 then some eps else Dict.get? i2s i) ∧
    (∀ s, getSym t s = if s = eps then some 0 else Dict.get? s2i s) := by
  obtain ⟨hb, hnn, h0⟩ := (construct_ok_iff i2s s2i eps hn1 hn2).mp ⟨t, ht⟩
  have h1 : checkIds s2i i2s = .ok () := by
    rw [checkIds_ok_iff]
    intro i s hm
    have := Dict.get?_of_mem hn1 hm
    exact ⟨(hb i s).mp this, hnn i s this⟩
  have h2 : checkSyms i2s s2i = .ok () := by
    rw [checkSyms_ok_iff]
    intro s i hm
    have := Dict.get?_of_mem hn2 hm
    exact ⟨(hb i s).mpr this, hnn i s ((hb i s).mpr this)⟩
  unfold construct at ht
  rw [h1, h2] at ht
  simp only at ht
  -- the two look-up tables of the result
  have key : ∃ a b, t = ⟨a, b, maxKey a + 1, eps⟩ ∧ (Dict.keys a).Nodup ∧ (Dict.keys b).Nodup ∧
      (∀ i, Dict.get? a i = if i = 0 then some eps else Dict.get? i2s i) ∧
      (∀ s, Dict.get? b s = if s = eps then some 0 else Dict.get? s2i s) := by
    cases hg : Dict.get? i2s 0 with
    | none =>
      rw [hg] at ht
      simp only [Except.ok.injEq] at ht
      exact ⟨_, _, ht.symm, Dict.keys_set_nodup _ _ _ hn1, Dict.keys_set_nodup _ _ _ hn2,
        fun i => Dict.get?_set _ _ _ _, fun s => Dict.get?_set _ _ _ _⟩
    | some s =>
      have he := h0 s hg
      subst he
      have h00 := (hb 0 s).mp hg
      rw [hg] at ht
      simp only [ne_eq, not_true, if_false, h00, Except.ok.injEq] at ht
      refine ⟨_, _, ht.symm, hn1, hn2, ?_, ?_⟩
      · intro i; split
        · rename_i h; rw [h, hg]
        · rfl
      · intro i; split
        · rename_i h; rw [h, h00]
        · rfl
  obtain ⟨a, b, rfl, hna, hnb, hga, hgb⟩ := key
  have hbij : Bijective (⟨a, b, maxKey a + 1, eps⟩ : SymTab σ) := by
    intro i s
    simp only [getId, getSym, hga, hgb]
    by_cases hi : i = 0
    · by_cases hs : s = eps
      · simp [hi, hs]
      · simp only [hi, if_true, hs, if_false]
        constructor
        · intro h; exact absurd (Option.some.inj h).symm hs
        · intro h; exact absurd (h0 s ((hb 0 s).mpr h)) hs
    · by_cases hs : s = eps
      · simp only [hi, if_false, hs, if_true]
        constructor
        · intro h
          exfalso
          have h3 := (hb i eps).mp h
          cases hg : Dict.get? i2s 0 with
          | none => rw [hguard hg] at h3; cases h3
          | some s' =>
            have := h0 s' hg
            subst this
            rw [(hb 0 s').mp hg] at h3
            exact hi (Option.some.inj h3).symm
        · intro h; exact absurd (Option.some.inj h).symm hi
      · simp only [hi, hs, if_false]; exact hb i s
  have hlt : ∀ i s, Dict.get? a i = some s → i < maxKey a + 1 := by
    intro i s h
    have := le_maxKey a i s (Dict.mem_of_get? h)
    omega
  have ha0 : Dict.get? a 0 = some eps := by rw [hga]; simp
  refine ⟨⟨hbij, ha0, hlt, ?_, hna, hnb⟩, ?_, rfl, hga, hgb⟩
  · have : a ≠ [] := by
      rintro rfl
      simp [Dict.get?_nil] at ha0
    obtain ⟨v, hv⟩ := maxKey_mem a this
    refine ⟨v, ?_⟩
    simp only [getId]
    rw [show maxKey a + 1 - 1 = maxKey a by omega]
    exact Dict.get?_of_mem hna hv
  · intro i s h
    simp only [getId, hga] at h
    by_cases hi : i = 0
    · omega
    · rw [if_neg hi] at h; exact hnn i s h

/-- `SymbolTable()` succeeds and is well formed, so `addAll_wf` applies to every history
that starts from a new table. -/
theorem empty_wf (eps : σ) : ∃ t, empty eps = .ok t ∧ WF t ∧ NonnegIds t := by
  have hex : ∃ t, construct ([] : Dict Int σ) [] eps = .ok t := by
    rw [construct_ok_iff [] [] eps (by simp [Dict.keys]) (by simp [Dict.keys])]
    simp [Dict.get?_nil]
  obtain ⟨t, ht⟩ := hex
  obtain ⟨h1, h2, _⟩ := construct_wf [] [] eps t (by simp [Dict.keys]) (by simp [Dict.keys])
    (fun _ => rfl) ht
  exact ⟨t, ht, h1, h2⟩

/-! ## C03 -/

/-- The tables do not contradict each other. -/
def Compatible (a b : SymTab σ) : Prop :=
  a.eps = b.eps ∧
  (∀ i s s', getId a i = some s → getId b i = some s' → s = s') ∧
  (∀ s i i', getSym a s = some i → getSym b s = some i' → i = i')

theorem checkCompatible_iff (a b : SymTab σ) (ha : WF a) :
    checkCompatible a b = true ↔ Compatible a b := by
  simp only [checkCompatible, Bool.and_eq_true, decide_eq_true_eq, compatIds_iff, compatSyms_iff,
    Compatible, and_assoc]
  constructor
  · rintro ⟨h1, h2, h3⟩
    exact ⟨h1, fun i s s' h h' => h2 i s (Dict.mem_of_get? h) s' h',
      fun s i i' h h' => h3 s i (Dict.mem_of_get? h) i' h'⟩
  · rintro ⟨h1, h2, h3⟩
    exact ⟨h1, fun i s h s' h' => h2 i s s' (Dict.get?_of_mem ha.nodup_ids h) h',
      fun s i h i' h' => h3 s i i' (Dict.get?_of_mem ha.nodup_syms h) h'⟩

/-- **C03.** `merge` succeeds exactly on compatible tables; the result is well formed and
its look-ups are the union of the look-ups. -/
theorem merge_spec (a b : SymTab σ) (ha : WF a) (hb : WF b)
    (hna : NonnegIds a) (hnb : NonnegIds b) :
    ((∃ t, merge a b = .ok t) ↔ Compatible a b) ∧
    (∀ t, merge a b = .ok t →
      WF t ∧ NonnegIds t ∧ t.eps = a.eps ∧
      (∀ i, getId t i = (getId a i).or (getId b i)) ∧
      (∀ s, getSym t s = (getSym a s).or (getSym b s))) := by
  have hk1 := Dict.keys_union_nodup b.id2sym a.id2sym ha.nodup_ids
  have hk2 := Dict.keys_union_nodup b.sym2id a.sym2id ha.nodup_syms
  have hu1 := Dict.get?_union b.id2sym a.id2sym hb.nodup_ids
  have hu2 := Dict.get?_union b.sym2id a.sym2id hb.nodup_syms
  -- with compatible tables the order of the union does not matter
  have swap1 : Compatible a b → ∀ i,
      Dict.get? (Dict.union a.id2sym b.id2sym) i = (getId a i).or (getId b i) := by
    intro hc i
    rw [hu1]
    show (getId b i).or (getId a i) = _
    cases h1 : getId a i with
    | none => simp
    | some s =>
      cases h2 : getId b i with
      | none => simp
      | some s' => simp [hc.2.1 i s s' h1 h2]
  have swap2 : Compatible a b → ∀ s,
      Dict.get? (Dict.union a.sym2id b.sym2id) s = (getSym a s).or (getSym b s) := by
    intro hc s
    rw [hu2]
    show (getSym b s).or (getSym a s) = _
    cases h1 : getSym a s with
    | none => simp
    | some i =>
      cases h2 : getSym b s with
      | none => simp
      | some i' => simp [hc.2.2 s i i' h1 h2]
  have h0u : Compatible a b → Dict.get? (Dict.union a.id2sym b.id2sym) 0 = some a.eps := by
    intro hc
    rw [swap1 hc, ha.eps0]; rfl
  have hcons : Compatible a b → ∃ t, construct (Dict.union a.id2sym b.id2sym)
      (Dict.union a.sym2id b.sym2id) a.eps = .ok t := by
    intro hc
    rw [construct_ok_iff _ _ _ hk1 hk2]
    refine ⟨?_, ?_, ?_⟩
    · intro i s
      rw [swap1 hc, swap2 hc]
      constructor
      · intro h
        cases h1 : getId a i with
        | some s' =>
          rw [h1] at h; simp at h; subst h
          rw [(ha.bij i s').mp h1]; rfl
        | none =>
          rw [h1] at h; simp at h
          have h2 := (hb.bij i s).mp h
          cases h3 : getSym a s with
          | none => simp [h2]
          | some i' => simp [hc.2.2 s i' i h3 h2]
      · intro h
        cases h1 : getSym a s with
        | some i' =>
          rw [h1] at h; simp at h; subst h
          rw [(ha.bij i' s).mpr h1]; rfl
        | none =>
          rw [h1] at h; simp at h
          have h2 := (hb.bij i s).mpr h
          cases h3 : getId a i with
          | none => simp [h2]
          | some s' => simp [hc.2.1 i s' s h3 h2]
    · intro i s h
      rw [swap1 hc] at h
      cases h1 : getId a i with
      | some s' => exact hna i s' h1
      | none => rw [h1] at h; simp at h; exact hnb i s h
    · intro s h
      rw [h0u hc] at h
      exact (Option.some.inj h).symm
  constructor
  · constructor
    · rintro ⟨t, ht⟩
      unfold merge at ht
      by_cases hc : checkCompatible a b = true
      · exact (checkCompatible_iff a b ha).mp hc
      · simp [hc] at ht
    · intro hc
      obtain ⟨t, ht⟩ := hcons hc
      refine ⟨t, ?_⟩
      unfold merge
      rw [if_pos ((checkCompatible_iff a b ha).mpr hc)]
      exact ht
  · intro t ht
    unfold merge at ht
    by_cases hc : checkCompatible a b = true
    · rw [if_pos hc] at ht
      have hc' := (checkCompatible_iff a b ha).mp hc
      obtain ⟨h1, h2, h3, h4, h5⟩ := construct_wf _ _ _ t hk1 hk2
        (fun h => by rw [h0u hc'] at h; cases h) ht
      refine ⟨h1, h2, h3, ?_, ?_⟩
      · intro i
        rw [h4, swap1 hc']
        by_cases hi : i = 0
        · rw [hi, ha.eps0]; simp
        · simp [hi]
      · intro s
        rw [h5, swap2 hc']
        by_cases hs : s = a.eps
        · rw [if_pos hs, hs, (ha.bij 0 a.eps).mp ha.eps0]; rfl
        · simp [hs]
    · simp [hc] at ht

/-- Order of merging does not matter for look-ups. -/
theorem merge_comm (a b t t' : SymTab σ) (ha : WF a) (hb : WF b)
    (hna : NonnegIds a) (hnb : NonnegIds b)
    (h : merge a b = .ok t) (h' : merge b a = .ok t') :
    (∀ i, getId t i = getId t' i) ∧ (∀ s, getSym t s = getSym t' s) := by
  obtain ⟨hc, hs⟩ := merge_spec a b ha hb hna hnb
  obtain ⟨_, hs'⟩ := merge_spec b a hb ha hnb hna
  have hcc := hc.mp ⟨t, h⟩
  obtain ⟨_, _, _, h4, h5⟩ := hs t h
  obtain ⟨_, _, _, h4', h5'⟩ := hs' t' h'
  constructor
  · intro i
    rw [h4, h4']
    cases h1 : getId a i <;> cases h2 : getId b i <;> simp
    exact hcc.2.1 i _ _ h1 h2
  · intro i
    rw [h5, h5']
    cases h1 : getSym a i <;> cases h2 : getSym b i <;> simp
    exact hcc.2.2 i _ _ h1 h2

/-- A merge is possible in one order exactly if it is in the other. -/
theorem merge_ok_comm (a b : SymTab σ) (ha : WF a) (hb : WF b)
    (hna : NonnegIds a) (hnb : NonnegIds b) :
    (∃ t, merge a b = .ok t) ↔ (∃ t, merge b a = .ok t) := by
  rw [(merge_spec a b ha hb hna hnb).1, (merge_spec b a hb ha hnb hna).1]
  constructor
  · rintro ⟨h1, h2, h3⟩
    exact ⟨h1.symm, fun i s s' h h' => (h2 i s' s h' h).symm,
      fun s i i' h h' => (h3 s i' i h' h).symm⟩
  · rintro ⟨h1, h2, h3⟩
    exact ⟨h1.symm, fun i s s' h h' => (h2 i s' s h' h).symm,
      fun s i i' h h' => (h3 s i' i h' h).symm⟩

/-- Merging a table with itself changes nothing. -/
theorem merge_self (a : SymTab σ) (ha : WF a) (hna : NonnegIds a) :
    ∃ t, merge a a = .ok t ∧ (∀ i, getId t i = getId a i) ∧ (∀ s, getSym t s = getSym a s) := by
  obtain ⟨hc, hs⟩ := merge_spec a a ha ha hna hna
  obtain ⟨t, ht⟩ := hc.mpr ⟨rfl, fun i s s' h h' => by rw [h] at h'; exact Option.some.inj h',
    fun i s s' h h' => by rw [h] at h'; exact Option.some.inj h'⟩
  obtain ⟨_, _, _, h4, h5⟩ := hs t ht
  refine ⟨t, ht, fun i => ?_, fun s => ?_⟩
  · rw [h4]; cases getId a i <;> rfl
  · rw [h5]; cases getSym a s <;> rfl

/-- Merging is associative as far as look-ups can tell. -/
theorem merge_assoc (a b c ab bc t t' : SymTab σ) (ha : WF a) (hb : WF b) (hc : WF c)
    (hna : NonnegIds a) (hnb : NonnegIds b) (hnc : NonnegIds c)
    (h1 : merge a b = .ok ab) (h2 : merge ab c = .ok t)
    (h3 : merge b c = .ok bc) (h4 : merge a bc = .ok t') :
    (∀ i, getId t i = getId t' i) ∧ (∀ s, getSym t s = getSym t' s) := by
  obtain ⟨wab, nab, _, iab, sab⟩ := (merge_spec a b ha hb hna hnb).2 ab h1
  obtain ⟨_, _, _, it, st⟩ := (merge_spec ab c wab hc nab hnc).2 t h2
  obtain ⟨wbc, nbc, _, ibc, sbc⟩ := (merge_spec b c hb hc hnb hnc).2 bc h3
  obtain ⟨_, _, _, it', st'⟩ := (merge_spec a bc ha wbc hna nbc).2 t' h4
  constructor
  · intro i; rw [it, it', iab, ibc, Option.or_assoc]
  · intro i; rw [st, st', sab, sbc, Option.or_assoc]

end

/-! ## C02 -/

/-- Symbols that survive the text format: non-empty and free of white space. -/
def Printable (t : SymTab Str) : Prop :=
  ∀ i s, getId t i = some s → s ≠ [] ∧ ∀ c ∈ s, isWs c = false

/-- `pyEq` (Python `==`) returns `True` for tables with the same look-ups. -/
theorem pyEq_of_same {σ : Type} [DecidableEq σ] (a b : SymTab σ)
    (hl : a.id2sym.length = b.id2sym.length)
    (h : ∀ s, getSym a s = getSym b s) : pyEq a b = .ok true := by
  unfold pyEq
  rw [if_neg (by simp [hl])]
  have : ∀ l : List σ, (∀ s ∈ l, (getSym a s).isSome) → eqLoop a b l = .ok true := by
    intro l
    induction l with
    | nil => intro _; rfl
    | cons s l ih =>
      intro hl
      obtain ⟨i, hi⟩ := Option.isSome_iff_exists.mp (hl s (by simp))
      simp only [eqLoop, ← h s, hi, ne_eq, not_true, if_false]
      exact ih (fun s' hs' => hl s' (by simp [hs']))
  apply this
  intro s hs
  exact Dict.mem_keys_iff.mp hs

/-- **C02.** Reading back the printed form of a well-formed table with printable symbols
and non-negative ids gives a table that is identical as far as any method can tell: same
look-ups, same epsilon, same next id, and `==` returns `True`. -/
theorem fromStr_toStr (t : SymTab Str) (h : WF t) (hn : NonnegIds t) (hp : Printable t) :
    ∃ t', fromStr (toStr t) = .ok t' ∧ WF t' ∧
      (∀ i, getId t' i = getId t i) ∧ (∀ s, getSym t' s = getSym t s) ∧
      t'.eps = t.eps ∧ t'.next = t.next ∧ pyEq t t' = .ok true := by
  have hperm := sortItems_perm t.id2sym
  generalize hl : sortItems t.id2sym = l at hperm
  have hkl : (Dict.keys l).Nodup := (hperm.map _).nodup_iff.mpr h.nodup_ids
  have hget : ∀ i, Dict.get? l i = getId t i := fun i => Dict.get?_perm hperm hkl i
  have hvl : (Dict.keys (l.map (fun e => (e.2, e.1)))).Nodup := by
    -- equal symbols have equal ids
    have : (l.map (fun e => e.2)).Nodup := by
      have hnd := hkl
      unfold Dict.keys at hnd
      rw [List.nodup_iff_pairwise_ne, List.pairwise_map] at hnd ⊢
      refine List.Pairwise.imp_of_mem ?_ hnd
      intro x y hx hy hne heq
      apply hne
      have h1 : getId t x.1 = some x.2 := by rw [← hget]; exact Dict.get?_of_mem hkl hx
      have h2 : getId t y.1 = some y.2 := by rw [← hget]; exact Dict.get?_of_mem hkl hy
      have h3 := (h.bij _ _).mp h1
      have h4 := (h.bij _ _).mp h2
      rw [heq, h4] at h3
      exact (Option.some.inj h3).symm
    simpa [Dict.keys, Function.comp_def] using this
  have hread : readLines (splitNl (toStr t)) [] [] = .ok (l, l.map (fun e => (e.2, e.1))) := by
    have := readLines_print l [] []
      (fun i s hm => hp i s (by rw [← hget]; exact Dict.get?_of_mem hkl hm))
      (by simpa using hkl) (by simpa using hvl)
    simpa [toStr, hl] using this
  have hgs : ∀ s, Dict.get? (l.map (fun e => (e.2, e.1))) s = getSym t s := by
    intro s
    apply Option.ext
    intro i
    rw [Dict.get?_iff_mem hvl, ← h.bij i s, ← hget, Dict.get?_iff_mem hkl]
    constructor
    · intro hm
      obtain ⟨e, he, heq⟩ := List.mem_map.mp hm
      simp only [Prod.mk.injEq] at heq
      obtain ⟨rfl, rfl⟩ := heq
      exact he
    · intro hm; exact List.mem_map.mpr ⟨(i, s), hm, rfl⟩
  have h0 : Dict.get? l 0 = some t.eps := by rw [hget]; exact h.eps0
  have hex : ∃ t', construct l (l.map (fun e => (e.2, e.1))) t.eps = .ok t' := by
    rw [construct_ok_iff _ _ _ hkl hvl]
    refine ⟨fun i s => ?_, fun i s hi => ?_, fun s hs => ?_⟩
    · rw [hget, hgs]; exact h.bij i s
    · rw [hget] at hi; exact hn i s hi
    · rw [h0] at hs; exact (Option.some.inj hs).symm
  obtain ⟨t', ht'⟩ := hex
  obtain ⟨w, _, he, hid, hsy⟩ := construct_wf _ _ _ t' hkl hvl
    (fun hh => by rw [h0] at hh; cases hh) ht'
  have hid' : ∀ i, getId t' i = getId t i := by
    intro i
    rw [hid]
    by_cases hi : i = 0
    · rw [if_pos hi, hi]; exact h.eps0.symm
    · rw [if_neg hi, hget]
  have hsy' : ∀ s, getSym t' s = getSym t s := by
    intro s
    rw [hsy]
    by_cases hs : s = t.eps
    · rw [if_pos hs, hs]; exact ((h.bij 0 t.eps).mp h.eps0).symm
    · rw [if_neg hs, hgs]
  have hlen : t'.id2sym.length = t.id2sym.length := by
    -- the construction did not add an entry, as id 0 was present
    have : t'.id2sym = l := by
      unfold construct at ht'
      split at ht'
      · cases ht'
      · split at ht'
        · cases ht'
        · rw [h0] at ht'
          simp only [ne_eq, not_true, if_false] at ht'
          split at ht'
          · cases ht'
          · split at ht'
            · cases ht'
            · simp only [Except.ok.injEq] at ht'; rw [← ht']
    rw [this]; exact hperm.length_eq
  refine ⟨t', ?_, w, hid', hsy', he, ?_, ?_⟩
  · unfold fromStr
    rw [hread]
    simp only [epsOf, h0]
    exact ht'
  · obtain ⟨s1, hs1⟩ := w.next_used
    obtain ⟨s2, hs2⟩ := h.next_used
    have e1 := h.lt_next _ _ ((hid' _).symm.trans hs1)
    have e2 := w.lt_next _ _ ((hid' _).trans hs2)
    omega
  · exact pyEq_of_same t t' hlen.symm (fun s => (hsy' s).symm)

/-- A concrete table satisfying all hypotheses of `fromStr_toStr`: the one obtained from a
new table by two `add` calls, one automatic and one explicit. -/
def exampleTable : SymTab Str :=
  ⟨[(0, epsStr), (1, ['a']), (7, ['b', 'c'])], [(epsStr, 0), (['a'], 1), (['b', 'c'], 7)], 8, epsStr⟩

example : addAll ⟨[(0, epsStr)], [(epsStr, 0)], 1, epsStr⟩
    [(['a'], none), (['b', 'c'], some 7)] = exampleTable := by decide

theorem exampleTable_wf : WF exampleTable ∧ NonnegIds exampleTable ∧ Printable exampleTable := by
  obtain ⟨t, ht, hw, hn⟩ := empty_wf epsStr
  have e : t = ⟨[(0, epsStr)], [(epsStr, 0)], 1, epsStr⟩ := by
    have : empty epsStr = .ok ⟨[(0, epsStr)], [(epsStr, 0)], 1, epsStr⟩ := by rfl
    rw [this] at ht; exact (Except.ok.inj ht).symm
  subst e
  have hw2 := (addAll_wf _ hw [(['a'], none), (['b', 'c'], some 7)]).1
  have he : addAll ⟨[(0, epsStr)], [(epsStr, 0)], 1, epsStr⟩
    [(['a'], none), (['b', 'c'], some 7)] = exampleTable := by decide
  rw [he] at hw2
  refine ⟨hw2, ?_, ?_⟩
  · intro i s hi
    have := Dict.mem_of_get? hi
    simp only [exampleTable, List.mem_cons, Prod.mk.injEq, List.not_mem_nil, or_false] at this
    omega
  · intro i s hi
    have := Dict.mem_of_get? hi
    simp only [exampleTable, List.mem_cons, Prod.mk.injEq, List.not_mem_nil, or_false] at this
    rcases this with ⟨_, rfl⟩ | ⟨_, rfl⟩ | ⟨_, rfl⟩ <;> decide

/-- Negative ids, which `add` accepts, are lost: the printed form of a table that contains
one is rejected by `from_str`. -/
theorem negative_id_not_readable :
    let t := (add exampleTable ['x'] (some (-5))).1
    WF t ∧ Printable t ∧ fromStr (toStr t) = .error .assertion := by
  refine ⟨add_wf _ exampleTable_wf.1 _ _, ?_, by decide⟩
  intro i s hi
  have := Dict.mem_of_get? hi
  have e : (add exampleTable ['x'] (some (-5))).1.id2sym =
    [(0, epsStr), (1, ['a']), (7, ['b', 'c']), (-5, ['x'])] := by decide
  rw [e] at this
  simp only [List.mem_cons, Prod.mk.injEq, List.not_mem_nil, or_false] at this
  rcases this with ⟨_, rfl⟩ | ⟨_, rfl⟩ | ⟨_, rfl⟩ | ⟨_, rfl⟩ <;> decide

/-! ## C04 -/

/-- The negation of C04: `from_str("<eps> 5")` returns a table in which ids 5 and 0 both
map to `<eps>`. -/
theorem fromStr_not_bijective :
    ∃ (s : Str) (t : SymTab Str), fromStr s = .ok t ∧ ¬ Bijective t ∧
      getId t 0 = some epsStr ∧ getId t 5 = some epsStr := by
  refine ⟨epsStr ++ [' ', '5'], ⟨[(5, epsStr), (0, epsStr)], [(epsStr, 0)], 6, epsStr⟩,
    by decide, ?_, by decide, by decide⟩
  intro h
  exact absurd ((h 5 epsStr).mp (by decide)) (by decide)

theorem readLines_inv (ls : List Str) (i2s : Dict Int Str) (s2i : Dict Str Int)
    (r : Dict Int Str × Dict Str Int)
    (h1 : (Dict.keys i2s).Nodup) (h2 : (Dict.keys s2i).Nodup)
    (hr : readLines ls i2s s2i = .ok r) :
    (Dict.keys r.1).Nodup ∧ (Dict.keys r.2).Nodup := by
  induction ls generalizing i2s s2i with
  | nil => simp only [readLines, Except.ok.injEq] at hr; rw [← hr]; exact ⟨h1, h2⟩
  | cons l ls ih =>
    simp only [readLines] at hr
    split at hr
    · exact ih _ _ h1 h2 hr
    · split at hr
      · cases hr
      · split at hr
        · cases hr
        · split at hr
          · cases hr
          · exact ih _ _ (Dict.keys_set_nodup _ _ _ h1) (Dict.keys_set_nodup _ _ _ h2) hr
    · cases hr

/-- **C04, partial.** Missing: inputs that list the epsilon symbol under a non-zero id
without listing id 0.  For all other inputs a table returned by `from_str` is a bijection
(indeed well formed).  The guard is about the result only: no id other than 0 carries the
epsilon symbol. -/
theorem fromStr_wf_partial (s : Str) (t : SymTab Str) (h : fromStr s = .ok t)
    (hguard : ∀ i, getId t i = some t.eps → i = 0) : WF t ∧ NonnegIds t := by
  unfold fromStr at h
  cases hr : readLines (splitNl s) [] [] with
  | error e => rw [hr] at h; simp at h
  | ok r =>
    obtain ⟨i2s, s2i⟩ := r
    rw [hr] at h
    simp only at h
    obtain ⟨hn1, hn2⟩ := readLines_inv _ _ _ _ (by simp [Dict.keys]) (by simp [Dict.keys]) hr
    generalize epsOf i2s = eps at h
    have hb := (construct_ok_iff i2s s2i eps hn1 hn2).mp ⟨t, h⟩
    suffices hg : Dict.get? i2s 0 = none → Dict.get? s2i eps = none by
      obtain ⟨h1, h2, _⟩ := construct_wf i2s s2i eps t hn1 hn2 hg h
      exact ⟨h1, h2⟩
    intro h0
    cases hs : Dict.get? s2i eps with
    | none => rfl
    | some i =>
      exfalso
      have hi := (hb.1 i eps).mpr hs
      have hi0 : i ≠ 0 := by rintro rfl; rw [h0] at hi; cases hi
      -- the result still has id i ↦ eps
      unfold construct at h
      split at h
      · cases h
      · split at h
        · cases h
        · rw [h0] at h
          simp only [Except.ok.injEq] at h
          have : getId t i = some t.eps := by
            rw [← h]; simp only [getId, Dict.get?_set]
            rw [if_neg hi0]; exact hi
          exact hi0 (hguard i this)

example : ∃ t, fromStr (toStr exampleTable) = .ok t ∧ (∀ i, getId t i = some t.eps → i = 0) := by
  obtain ⟨h1, h2, h3⟩ := exampleTable_wf
  obtain ⟨t, ht, hw, _⟩ := fromStr_toStr _ h1 h2 h3
  refine ⟨t, ht, fun i hi => ?_⟩
  have a := (hw.bij i t.eps).mp hi
  have b := (hw.bij 0 t.eps).mp hw.eps0
  rw [a] at b; exact Option.some.inj b

end Verif.SymbolTable
