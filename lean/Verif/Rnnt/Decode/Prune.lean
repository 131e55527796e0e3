import Verif.Rnnt.Decode.Model
import Mathlib.Data.List.Nodup
import Mathlib.Data.List.Perm.Subperm
import Mathlib.Data.List.Perm.Lattice
import Mathlib.Algebra.Order.Ring.Defs
import Mathlib.Data.List.GetD

/-! Lemmas on reshaping, selecting and pruning lists. -/

namespace Verif.Rnnt.Dec

section
variable {α β γ : Type}

theorem reshape_length (sh : List (List α)) (l : List β) : (reshape sh l).length = sh.length := by
  induction sh generalizing l with
  | nil => rfl
  | cons r sh ih => simp [reshape, ih]

theorem reshape_map (sh : List (List α)) (f : α → β) :
    reshape sh (sh.flatten.map f) = sh.map (List.map f) := by
  induction sh with
  | nil => rfl
  | cons r sh ih =>
    have h1 : (r.map f ++ sh.flatten.map f).take r.length = r.map f := by
      rw [List.take_left' (by simp)]
    have h2 : (r.map f ++ sh.flatten.map f).drop r.length = sh.flatten.map f := by
      rw [List.drop_left' (by simp)]
    simp only [reshape, List.flatten_cons, List.map_append, List.map_cons, h1, h2, ih]

theorem reshape_flatten (sh : List (List α)) (l : List β) (h : l.length = sh.flatten.length) :
    (reshape sh l).flatten = l := by
  induction sh generalizing l with
  | nil => simp at h; simp [reshape, h]
  | cons r sh ih =>
    simp only [List.flatten_cons, List.length_append] at h
    simp only [reshape, List.flatten_cons]
    rw [ih _ (by rw [List.length_drop]; omega), List.take_append_drop]

theorem reshape_get_length (sh : List (List α)) (l : List β) (h : l.length = sh.flatten.length) :
    (reshape sh l).map List.length = sh.map List.length := by
  induction sh generalizing l with
  | nil => rfl
  | cons r sh ih =>
    simp only [List.flatten_cons, List.length_append] at h
    simp only [reshape, List.map_cons]
    rw [ih _ (by rw [List.length_drop]; omega)]
    simp; omega

theorem reshape_get (sh : List (List α)) (l : List β) (i : Nat) (r : List α) (h : sh[i]? = some r) :
    (reshape sh l)[i]? = some ((l.drop ((sh.take i).map List.length).sum).take r.length) := by
  induction sh generalizing l i with
  | nil => simp at h
  | cons r' sh ih =>
    cases i with
    | zero => simp at h; simp [reshape, h]
    | succ i =>
      simp only [List.getElem?_cons_succ] at h
      simp only [reshape, List.getElem?_cons_succ, ih _ _ h, List.take_succ_cons, List.map_cons,
        List.sum_cons, List.drop_drop]

theorem keepFlags_nil (l : List α) : keepFlags l [] = [] := by simp [keepFlags]

theorem keepFlags_sublist (l : List α) (f : List Bool) : (keepFlags l f).Sublist l := by
  induction l generalizing f with
  | nil => simp [keepFlags]
  | cons a l ih =>
    cases f with
    | nil => simp [keepFlags]
    | cons b f =>
      have := ih f
      cases b
      · simpa [keepFlags] using this.trans (List.sublist_cons_self _ _)
      · simpa [keepFlags] using this

theorem keepFlags_mem (l : List α) (f : List Bool) (x : α) :
    x ∈ keepFlags l f ↔ ∃ i : Nat, l[i]? = some x ∧ f[i]? = some true := by
  induction l generalizing f with
  | nil => simp [keepFlags]
  | cons a l ih =>
    cases f with
    | nil => simp [keepFlags]
    | cons b f =>
      have := ih f
      constructor
      · intro h
        cases b
        · have h' : x ∈ keepFlags l f := by simpa [keepFlags] using h
          obtain ⟨i, hi⟩ := this.1 h'
          exact ⟨i + 1, by simpa using hi⟩
        · have h' : x = a ∨ x ∈ keepFlags l f := by simpa [keepFlags] using h
          rcases h' with h' | h'
          · exact ⟨0, by simp [h']⟩
          · obtain ⟨i, hi⟩ := this.1 h'
            exact ⟨i + 1, by simpa using hi⟩
      · rintro ⟨i, h1, h2⟩
        cases i with
        | zero =>
          simp at h1 h2
          subst h1; subst h2
          simp [keepFlags]
        | succ i =>
          have h' := this.2 ⟨i, by simpa using h1, by simpa using h2⟩
          cases b
          · simpa [keepFlags] using h'
          · have : x = a ∨ x ∈ keepFlags l f := Or.inr h'
            simpa [keepFlags] using this

theorem keepFlags_length (l : List α) (f : List Bool) (h : f.length = l.length) :
    (keepFlags l f).length = ((List.range l.length).filter (fun i => f.getD i false)).length := by
  induction l generalizing f with
  | nil => simp [keepFlags]
  | cons a l ih =>
    cases f with
    | nil => simp at h
    | cons b f =>
      have hh : f.length = l.length := by simpa using h
      have := ih f hh
      rw [List.length_cons, List.range_succ_eq_map, List.filter_cons, List.filter_map]
      simp only [Function.comp_def, List.getD_cons_zero, List.getD_cons_succ]
      cases b
      · simpa [keepFlags] using this
      · simpa [keepFlags] using this

theorem keepFlags_map (l : List α) (f : List Bool) (g : α → β) :
    keepFlags (l.map g) f = (keepFlags l f).map g := by
  induction l generalizing f with
  | nil => simp [keepFlags]
  | cons a l ih =>
    cases f with
    | nil => simp [keepFlags]
    | cons b f =>
      have := ih f
      cases b
      · simpa [keepFlags] using this
      · simpa [keepFlags] using this

theorem keepFlags_append (l l' : List α) (f f' : List Bool) (h : f.length = l.length) :
    keepFlags (l ++ l') (f ++ f') = keepFlags l f ++ keepFlags l' f' := by
  rw [keepFlags, List.zip_append h.symm]
  simp [keepFlags]

theorem zipWith_keepFlags_flatten (sh : List (List α)) (f : List Bool) (h : f.length = sh.flatten.length) :
    (List.zipWith keepFlags sh (reshape sh f)).flatten = keepFlags sh.flatten f := by
  induction sh generalizing f with
  | nil => simp [keepFlags, reshape]
  | cons r sh ih =>
    simp only [List.flatten_cons, List.length_append] at h
    simp only [reshape, List.zipWith_cons_cons, List.flatten_cons]
    rw [ih _ (by rw [List.length_drop]; omega)]
    rw [← keepFlags_append _ _ _ _ (by simp; omega), List.take_append_drop]

end

section
variable {K : Type} [Field K] [LinearOrder K]

local notation "S" => WithBot K

theorem le_maxOf {l : List S} {x : S} (h : x ∈ l) : x ≤ maxOf l := by
  induction l with
  | nil => simp at h
  | cons a l ih =>
    rcases List.mem_cons.1 h with h | h
    · subst h; exact le_max_left _ _
    · exact (ih h).trans (le_max_right _ _)

theorem maxOf_mem {l : List S} (h : l ≠ []) : maxOf l ∈ l := by
  induction l with
  | nil => simp at h
  | cons a l ih =>
    by_cases hl : l = []
    · subst hl; simp [maxOf]
    · have := ih hl
      rcases max_choice a (maxOf l) with h' | h'
      · have h2 : maxOf (a :: l) = a := h'
        rw [h2]; exact List.mem_cons_self
      · have h2 : maxOf (a :: l) = maxOf l := h'
        rw [h2]; exact List.mem_cons_of_mem _ this

theorem maxOf_le {l : List S} {x : S} (h : ∀ y ∈ l, y ≤ x) : maxOf l ≤ x := by
  by_cases hl : l = []
  · subst hl; exact bot_le
  · exact h _ (maxOf_mem hl)

theorem maxOf_eq {l : List S} {x : S} (h : x ∈ l) (h' : ∀ y ∈ l, y ≤ x) : maxOf l = x :=
  le_antisymm (maxOf_le h') (le_maxOf h)

theorem pruneKeep_length (total : Nat) (beam : K) (m : Int) (subs : List S) :
    (pruneKeep total beam m subs).length = subs.length := by
  unfold pruneKeep
  simp only
  split <;> simp

/-- The positions in descending order of the values. -/
def ord (subs : List S) : List Nat :=
  (List.range subs.length).insertionSort (fun i j => subs.getD j ⊥ ≤ subs.getD i ⊥)

theorem ord_perm (subs : List S) : (ord subs).Perm (List.range subs.length) := List.perm_insertionSort _ _

theorem ord_nodup (subs : List S) : (ord subs).Nodup := (ord_perm subs).nodup_iff.2 List.nodup_range

theorem ord_mem (subs : List S) (i : Nat) : i ∈ ord subs ↔ i < subs.length := by
  rw [(ord_perm subs).mem_iff, List.mem_range]

theorem ord_length (subs : List S) : (ord subs).length = subs.length := by
  rw [(ord_perm subs).length_eq, List.length_range]

theorem ord_sorted (subs : List S) :
    (ord subs).Pairwise (fun i j => subs.getD j ⊥ ≤ subs.getD i ⊥) := by
  have : Std.Total (fun i j : Nat => subs.getD j ⊥ ≤ subs.getD i ⊥) := ⟨fun i j => le_total _ _⟩
  have : IsTrans Nat (fun i j : Nat => subs.getD j ⊥ ≤ subs.getD i ⊥) := ⟨fun i j k h h' => h'.trans h⟩
  exact List.pairwise_insertionSort _ _

theorem pruneKeep_get (total : Nat) (beam : K) (m : Int) (subs : List S) (ht : subs.length ≤ total)
    (i : Nat) (hi : i < subs.length) :
    (pruneKeep total beam m subs)[i]? = some true ↔
      sub (maxOf subs) beam ≤ subs.getD i ⊥ ∧ (m ≤ 0 ∨ ((ord subs).idxOf i : Int) < m) := by
  have hr : (ord subs).idxOf i < subs.length := by
    rw [← ord_length subs]; exact List.idxOf_lt_length_of_mem ((ord_mem _ _).2 hi)
  unfold pruneKeep
  simp only
  rw [List.getD_eq_getElem _ _ hi]
  split
  · rename_i h
    change (subs.zipIdx.map (fun x => !(decide (m ≤ ((ord subs).idxOf x.2 : Nat)) || _)))[i]? = _ ↔ _
    simp [hi]
    constructor
    · rintro ⟨h1, h2⟩; exact ⟨h2, Or.inr h1⟩
    · rintro ⟨h1, h2⟩; exact ⟨by omega, h1⟩
  · rename_i h
    simp [hi]
    intro _
    omega

/-- The flags do not depend on the number of elements of other lists. -/
theorem pruneKeep_total (total : Nat) (beam : K) (m : Int) (subs : List S) (ht : subs.length ≤ total) :
    pruneKeep total beam m subs = pruneKeep subs.length beam m subs := by
  apply List.ext_getElem?
  intro i
  by_cases hi : i < subs.length
  · have h1 := pruneKeep_get total beam m subs ht i hi
    have h2 := pruneKeep_get subs.length beam m subs le_rfl i hi
    have h3 := h1.trans h2.symm
    have e1 : i < (pruneKeep total beam m subs).length := by rw [pruneKeep_length]; exact hi
    have e2 : i < (pruneKeep subs.length beam m subs).length := by rw [pruneKeep_length]; exact hi
    rw [List.getElem?_eq_getElem e1, List.getElem?_eq_getElem e2] at h3 ⊢
    simp only [Option.some.injEq] at h3 ⊢
    exact Bool.eq_iff_iff.2 h3
  · rw [List.getElem?_eq_none (by rw [pruneKeep_length]; omega),
      List.getElem?_eq_none (by rw [pruneKeep_length]; omega)]

variable {α : Type}

/-- What is left of `l` after pruning with the values `f`. -/
structure Pruned (beam : K) (m : Int) (f : α → S) (l l' : List α) : Prop where
  sublist : l'.Sublist l
  inBeam : ∀ x ∈ l', sub (maxOf (l.map f)) beam ≤ f x
  limit : 0 < m → (l'.length : Int) ≤ m
  dropped : ∀ x ∈ l, sub (maxOf (l.map f)) beam ≤ f x → x ∉ l' →
    0 < m ∧ (l'.length : Int) = m ∧ ∀ y ∈ l', f x ≤ f y

theorem nodup_length_le {l l' : List Nat} (h : l.Nodup) (hs : ∀ x ∈ l, x ∈ l') : l.length ≤ l'.length :=
  (List.subperm_of_subset h hs).length_le

theorem prune_spec (total : Nat) (beam : K) (m : Int) (f : α → S) (l : List α) (ht : l.length ≤ total) :
    Pruned beam m f l (keepFlags l (pruneKeep total beam m (l.map f))) := by
  set subs := l.map f with hsubs
  have hlen : subs.length = l.length := by simp [hsubs]
  have hget : ∀ (i : Nat) (x : α), l[i]? = some x → subs.getD i ⊥ = f x := by
    intro i x h
    simp [hsubs, List.getD, h]
  have hfl := pruneKeep_length total beam m subs
  have key := fun i hi => pruneKeep_get total beam m subs (by omega) i hi
  have hgetD : ∀ i, (pruneKeep total beam m subs).getD i false = true ↔
      (pruneKeep total beam m subs)[i]? = some true := by
    intro i
    rw [List.getD]
    cases (pruneKeep total beam m subs)[i]? <;> simp
  refine ⟨keepFlags_sublist _ _, ?_, ?_, ?_⟩
  · intro x hx
    obtain ⟨i, h1, h2⟩ := (keepFlags_mem _ _ _).1 hx
    have hi : i < subs.length := by
      rw [hlen]; exact (List.getElem?_eq_some_iff.1 h1).1
    have := ((key i hi).1 h2).1
    rwa [hget i x h1] at this
  · intro hm
    rw [keepFlags_length _ _ (by rw [hfl, hlen])]
    have : ((List.range l.length).filter (fun i => (pruneKeep total beam m subs).getD i false)).length ≤ m.toNat := by
      rw [← List.length_map (fun i => (ord subs).idxOf i), ← List.length_range (n := m.toNat)]
      apply nodup_length_le
      · apply List.Nodup.map_on _ (List.nodup_range.filter _)
        intro a ha b hb hab
        simp only [List.mem_filter, List.mem_range] at ha hb
        exact List.idxOf_inj ((ord_mem subs a).2 (by omega)) |>.1 hab
      · intro r hr
        obtain ⟨i, hi, rfl⟩ := List.mem_map.1 hr
        simp only [List.mem_filter, List.mem_range] at hi
        have := ((key i (by omega)).1 ((hgetD i).1 hi.2)).2
        rw [List.mem_range]
        omega
    omega
  · intro x hx hb hnot
    obtain ⟨i, hi⟩ := List.getElem?_of_mem hx
    have hil : i < subs.length := by
      rw [hlen]; exact (List.getElem?_eq_some_iff.1 hi).1
    have hno : ¬ (pruneKeep total beam m subs)[i]? = some true :=
      fun h => hnot ((keepFlags_mem _ _ _).2 ⟨i, hi, h⟩)
    rw [key i hil, hget i x hi] at hno
    have hm : 0 < m ∧ m ≤ ((ord subs).idxOf i : Int) := by
      by_contra hcon
      exact hno ⟨hb, by omega⟩
    have hall : ∀ j, j < subs.length → ((ord subs).idxOf j : Int) < m → f x ≤ subs.getD j ⊥ := by
      intro j hj hjm
      have hs := ord_sorted subs
      rw [List.pairwise_iff_getElem] at hs
      have e1 : (ord subs).idxOf j < (ord subs).length := by
        exact List.idxOf_lt_length_of_mem ((ord_mem _ _).2 hj)
      have e2 : (ord subs).idxOf i < (ord subs).length :=
        List.idxOf_lt_length_of_mem ((ord_mem _ _).2 hil)
      have := hs _ _ e1 e2 (by omega)
      rw [List.getElem_idxOf, List.getElem_idxOf, hget i x hi] at this
      exact this
    refine ⟨hm.1, ?_, ?_⟩
    · rw [keepFlags_length _ _ (by rw [hfl, hlen])]
      apply le_antisymm
      · have : ((List.range l.length).filter (fun i => (pruneKeep total beam m subs).getD i false)).length ≤ m.toNat := by
          rw [← List.length_map (fun i => (ord subs).idxOf i), ← List.length_range (n := m.toNat)]
          apply nodup_length_le
          · apply List.Nodup.map_on _ (List.nodup_range.filter _)
            intro a ha b hb hab
            simp only [List.mem_filter, List.mem_range] at ha hb
            exact List.idxOf_inj ((ord_mem subs a).2 (by omega)) |>.1 hab
          · intro r hr
            obtain ⟨i, hi, rfl⟩ := List.mem_map.1 hr
            simp only [List.mem_filter, List.mem_range] at hi
            have := ((key i (by omega)).1 ((hgetD i).1 hi.2)).2
            rw [List.mem_range]
            omega
        omega
      · have hord : m.toNat ≤ (ord subs).length := by
          have : (ord subs).idxOf i < (ord subs).length :=
            List.idxOf_lt_length_of_mem ((ord_mem _ _).2 hil)
          omega
        have : ((ord subs).take m.toNat).length ≤
            ((List.range l.length).filter (fun i => (pruneKeep total beam m subs).getD i false)).length := by
          apply nodup_length_le ((ord_nodup subs).sublist (List.take_sublist _ _))
          intro j hj
          obtain ⟨r, hr, rfl⟩ := List.mem_iff_getElem.1 hj
          rw [List.getElem_take]
          have hr1 : r < m.toNat := by simp at hr; omega
          have hr2 : r < (ord subs).length := by omega
          have hj1 : (ord subs)[r] < subs.length := (ord_mem subs _).1 (List.getElem_mem hr2)
          have hj2 : (ord subs).idxOf (ord subs)[r] = r := List.Nodup.idxOf_getElem (ord_nodup subs) r hr2
          simp only [List.mem_filter, List.mem_range]
          refine ⟨by omega, (hgetD _).2 ((key _ hj1).2 ⟨?_, Or.inr (by omega)⟩)⟩
          exact hb.trans (hall _ hj1 (by omega))
        rw [List.length_take, Nat.min_eq_left hord] at this
        omega
    · intro y hy
      obtain ⟨j, h1, h2⟩ := (keepFlags_mem _ _ _).1 hy
      have hj : j < subs.length := by
        rw [hlen]; exact (List.getElem?_eq_some_iff.1 h1).1
      have := ((key j hj).1 h2).2
      rw [← hget j y h1]
      exact hall j hj (by omega)

theorem sub_le_self [IsStrictOrderedRing K] (x : S) {b : K} (h : 0 ≤ b) : sub x b ≤ x := by
  induction x using WithBot.recBotCoe with
  | bot => simp [sub]
  | coe x =>
    rw [sub, ← WithBot.coe_add, WithBot.coe_le_coe]
    exact add_le_of_nonpos_right (neg_nonpos.2 h)

theorem sub_mono [IsStrictOrderedRing K] {x y : S} (b : K) (h : x ≤ y) : sub x b ≤ sub y b := by
  unfold sub
  exact add_le_add_left h _

theorem sub_eq_bot {x : S} {b : K} : sub x b = ⊥ ↔ x = ⊥ := by
  unfold sub
  rw [WithBot.add_eq_bot]
  simp

/-- The best element is kept. -/
theorem Pruned.best [IsStrictOrderedRing K] {beam : K} {m : Int} {f : α → S} {l l' : List α}
    (h : Pruned beam m f l l') (hb : 0 ≤ beam) (hl : l ≠ []) : ∃ x ∈ l', f x = maxOf (l.map f) := by
  have hmem : maxOf (l.map f) ∈ l.map f := maxOf_mem (by simpa using hl)
  obtain ⟨x, hx, he⟩ := List.mem_map.1 hmem
  by_cases hin : x ∈ l'
  · exact ⟨x, hin, he⟩
  · obtain ⟨h1, h2, h3⟩ := h.dropped x hx (by rw [he]; exact sub_le_self _ hb) hin
    have : l' ≠ [] := by
      intro h0; rw [h0] at h2; simp at h2; omega
    obtain ⟨y, hy⟩ := List.exists_mem_of_ne_nil _ this
    refine ⟨y, hy, le_antisymm (le_maxOf (List.mem_map.2 ⟨y, h.sublist.subset hy, rfl⟩)) ?_⟩
    rw [← he]; exact h3 y hy

end

end Verif.Rnnt.Dec
