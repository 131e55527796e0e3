import Verif.Fsa.Pruned.Model
import Verif.Ragged.RemoveEmptyProps

/-!
# The numbers of the new states

For every order of the insertions: one arc for each destination above the cutoff gives its state a number,
and every arc finds the number of its destination.
-/

set_option linter.unusedSectionVars false

namespace Verif.Fsa.Dp
open Verif.Ragged Verif.Util Verif.Fsa.Dn

/-- Positions in a list that is sorted by a key, restricted to one key. -/
theorem sorted_filter {α : Type} (c : α → Nat) (i : Nat) (l : List α) (s : Nat)
    (h : l.Pairwise (fun x y => c x ≤ c y)) :
    (l.zipIdx s).filter (fun x => c x.1 = i) =
      (l.filter (fun x => c x = i)).zipIdx (s + l.countP (fun x => c x < i)) := by
  induction l generalizing s with
  | nil => simp
  | cons a l ih =>
    obtain ⟨h1, h2⟩ := List.pairwise_cons.mp h
    rw [List.zipIdx_cons, List.filter_cons, List.filter_cons, List.countP_cons]
    have hz : i ≤ c a → l.countP (fun x => c x < i) = 0 := by
      intro hi
      rw [List.countP_eq_zero]
      intro x hx
      have := h1 x hx
      simp; omega
    rcases Nat.lt_trichotomy (c a) i with h' | h' | h'
    · rw [if_neg (by simp; omega), if_neg (by simp; omega), ih (s + 1) h2]
      simp only [h', decide_true, if_true]
      congr 1; omega
    · have := hz (by omega)
      rw [if_pos (by simp [h']), if_pos (by simp [h']), ih (s + 1) h2, this, List.zipIdx_cons]
      simp [h']
    · rw [if_neg (by simp; omega), if_neg (by simp; omega), ih (s + 1) h2]
      have e : l.filter (fun x => decide (c x = i)) = [] := by
        rw [List.filter_eq_nil_iff]
        intro x hx
        have := h1 x hx
        simp; omega
      rw [e]; simp

theorem mem_sel {X : Type} (flags : List Bool) (l : List X) (h : l.length = flags.length) (y : X) :
    y ∈ sel flags l ↔ ∃ w : Nat, flags[w]? = some true ∧ l[w]? = some y := by
  constructor
  · intro hy
    obtain ⟨j, hj⟩ := List.getElem?_of_mem hy
    have hlt := (List.getElem?_eq_some_iff.mp hj).1
    rw [sel_length _ _ h] at hlt
    obtain ⟨w, h1, rfl⟩ := rank_surj _ _ hlt
    exact ⟨w, h1, by rw [← sel_get _ _ _ h h1, hj]⟩
  · rintro ⟨w, h1, h2⟩
    rw [← sel_get _ _ _ h h1] at h2
    exact List.mem_of_getElem? h2

theorem sel_pairwise {X : Type} {R : X → X → Prop} (flags : List Bool) (l : List X) (h : l.Pairwise R) :
    (sel flags l).Pairwise R := by
  have : (sel flags l).Sublist l := by
    clear h
    induction flags generalizing l with
    | nil => simp [sel]
    | cons k flags ih =>
      cases l with
      | nil => simp [sel]
      | cons x l =>
        rw [sel]
        split
        · exact (ih l).cons_cons x
        · exact (ih l).cons x
  exact h.sublist this

theorem gather_sel {X : Type} (flags : List Bool) (l : List X) (h : l.length = flags.length) :
    (sel flags (List.range flags.length)).mapM (fun k => l[k]?) = some (sel flags l) := by
  have hr : (List.range flags.length).length = flags.length := by simp
  refine mapM_some_of _ _ _ (by rw [sel_length _ _ h, sel_length _ _ hr]) ?_
  intro j x hj
  have hlt := (List.getElem?_eq_some_iff.mp hj).1
  rw [sel_length _ _ hr] at hlt
  obtain ⟨w, h1, rfl⟩ := rank_surj _ _ hlt
  rw [sel_get _ _ _ hr h1] at hj
  have hw := (List.getElem?_eq_some_iff.mp h1).1
  rw [List.getElem?_range hw] at hj
  obtain rfl := Option.some.inj hj
  rw [sel_get _ _ _ h h1]

section
variable {K : Type} [Field K] [LinearOrder K]

local notation "S" => WithBot K

/-- The arc ends above the cutoff of its sequence. -/
def Above (cut : List (K × S)) (x : Nat × Ai S) : Prop := ∃ c, cut[x.1]? = some c ∧ c.2 < x.2.fin

/-- The table has only arcs above the cutoff, under the keys of their destinations. -/
def TableOk (p : Args K) (cut : List (K × S)) (all : List (Nat × Ai S)) (m : List (Int × Nat)) : Prop :=
  ∀ k w, m.lookup k = some w → ∃ x, all[w]? = some x ∧ keyOf p x = k ∧ Above cut x

theorem insertAll_spec (p : Args K) (cut : List (K × S)) (all : List (Nat × Ai S))
    (hcut : ∀ x ∈ all, ∃ c, cut[x.1]? = some c) (order : List Nat) (ho : ∀ k ∈ order, k < all.length)
    (m : List (Int × Nat)) (hm : TableOk p cut all m) :
    ∃ m', insertAll p cut all order m = some m' ∧ TableOk p cut all m' ∧
      (∀ k w, m.lookup k = some w → m'.lookup k = some w) ∧
      ∀ k ∈ order, ∀ x, all[k]? = some x → Above cut x → ∃ w, m'.lookup (keyOf p x) = some w := by
  induction order generalizing m with
  | nil => exact ⟨m, rfl, hm, fun _ _ h => h, by simp⟩
  | cons k order ih =>
    have hk := ho k List.mem_cons_self
    have hx := List.getElem?_eq_getElem hk
    obtain ⟨c, hc⟩ := hcut _ (List.getElem_mem hk)
    have ho' : ∀ k ∈ order, k < all.length := fun k h => ho k (List.mem_cons_of_mem _ h)
    simp only [insertAll, hx, hc, Option.bind_eq_bind, Option.bind_some]
    split
    · rename_i h
      have hm' : TableOk p cut all ((keyOf p all[k], k) :: m) := by
        intro k' w hl
        rw [List.lookup_cons] at hl
        split at hl
        · rename_i he
          obtain rfl := Option.some.inj hl
          exact ⟨_, hx, (by simpa using he : k' = _).symm, c, hc, h.1⟩
        · exact hm k' w hl
      obtain ⟨m', h1, h2, h3, h4⟩ := ih ho' _ hm'
      have hk' : m'.lookup (keyOf p all[k]) = some k := h3 _ _ (by simp [List.lookup_cons])
      refine ⟨m', h1, h2, ?_, ?_⟩
      · intro k' w hl
        apply h3
        rw [List.lookup_cons]
        split
        · rename_i he
          have : k' = keyOf p all[k] := by simpa using he
          rw [this, h.2] at hl
          exact absurd hl (by simp)
        · exact hl
      · intro k' hk1 x hx1 ha
        rcases List.mem_cons.mp hk1 with rfl | h5
        · rw [hx] at hx1
          obtain rfl := Option.some.inj hx1
          exact ⟨_, hk'⟩
        · exact h4 k' h5 x hx1 ha
    · rename_i h
      obtain ⟨m', h1, h2, h3, h4⟩ := ih ho' _ hm
      refine ⟨m', h1, h2, h3, ?_⟩
      intro k' hk1 x hx1 ha
      rcases List.mem_cons.mp hk1 with rfl | h5
      · rw [hx] at hx1
        obtain rfl := Option.some.inj hx1
        obtain ⟨c', hc', hlt⟩ := ha
        rw [hc] at hc'
        obtain rfl := Option.some.inj hc'
        have : m.lookup (keyOf p all[k']) ≠ none := fun hn => h ⟨hlt, hn⟩
        obtain ⟨w, hw⟩ := Option.ne_none_iff_exists'.mp this
        exact ⟨w, h3 _ _ hw⟩
      · exact h4 k' h5 x hx1 ha

/-- The destinations of sequence `i` in the order of their numbers. -/
def dests (kept : List (Nat × Ai S)) (i : Nat) : List Int :=
  (kept.filter (fun x => x.1 = i)).map (fun x => x.2.dst)

/-- The number of new states of sequences before `i`. -/
def before (kept : List (Nat × Ai S)) (i : Nat) : Nat := kept.countP (fun x => x.1 < i)

/-- The insertions number the destinations above the cutoff, for every order. -/
theorem numbering (p : Args K) (cut : List (K × S)) (all : List (Nat × Ai S))
    (hs : all.Pairwise (fun x y => x.1 ≤ y.1)) (hcut : ∀ x ∈ all, ∃ c, cut[x.1]? = some c)
    (hkey : ∀ x ∈ all, ∀ y ∈ all, keyOf p x = keyOf p y → x.1 = y.1 ∧ x.2.dst = y.2.dst)
    (order : List Nat) (ho : order.Perm (List.range all.length)) :
    ∃ (m : List (Int × Nat)) (kept : List (Nat × Ai S)),
      insertAll p cut all order [] = some m ∧
      (new2old (keepFlags p all m)).bind (fun l => l.mapM (fun k => all[k]?)) = some kept ∧
      (∀ x ∈ kept, x ∈ all) ∧ kept.Pairwise (fun x y => x.1 ≤ y.1) ∧
      (∀ i, (dests kept i).Nodup) ∧
      (∀ i d, d ∈ dests kept i ↔ ∃ x ∈ all, x.1 = i ∧ x.2.dst = d ∧ Above cut x) ∧
      (∀ x ∈ all, destOf p m (keepFlags p all m) x =
        if x.2.dst ∈ dests kept x.1 then
          some (before kept x.1 + (dests kept x.1).idxOf x.2.dst) else none) ∧
      ∀ x ∈ all, ∀ g, destOf p m (keepFlags p all m) x = some g ↔
        ∃ y, kept[g]? = some y ∧ y.1 = x.1 ∧ y.2.dst = x.2.dst := by
  obtain ⟨m, h1, h2, -, h4⟩ := insertAll_spec p cut all hcut order
    (fun k hk => by simpa using ho.subset hk) [] (fun k w h => by simp at h)
  have hfl : all.length = (keepFlags p all m).length := by simp [keepFlags]
  have hflag : ∀ w x, all[w]? = some x →
      (keepFlags p all m)[w]? = some (m.lookup (keyOf p x) == some w) := by
    intro w x hx
    rw [keepFlags, List.getElem?_map, List.getElem?_zipIdx, hx]; simp
  have htrue : ∀ w x, all[w]? = some x →
      ((keepFlags p all m)[w]? = some true ↔ m.lookup (keyOf p x) = some w) := by
    intro w x hx
    rw [hflag w x hx]; simp
  refine ⟨m, sel (keepFlags p all m) all, h1, ?_, ?_, ?_, ?_, ?_, ?_, ?_⟩
  · rw [new2old_spec, Option.bind_some, gather_sel _ _ hfl]
  · intro x hx
    obtain ⟨w, -, h⟩ := (mem_sel _ _ hfl x).mp hx
    exact List.mem_of_getElem? h
  · exact sel_pairwise _ _ hs
  all_goals
    have hpos : ∀ g x, (sel (keepFlags p all m) all)[g]? = some x →
        ∃ w, m.lookup (keyOf p x) = some w ∧ g = rank (keepFlags p all m) w ∧ all[w]? = some x := by
      intro g x hg
      have hlt := (List.getElem?_eq_some_iff.mp hg).1
      rw [sel_length _ _ hfl] at hlt
      obtain ⟨w, h5, rfl⟩ := rank_surj _ _ hlt
      rw [sel_get _ _ _ hfl h5] at hg
      exact ⟨w, (htrue w x hg).mp h5, rfl, hg⟩
    have hnd : ∀ i, (dests (sel (keepFlags p all m) all) i).Nodup := by
      intro i
      rw [dests, List.nodup_iff_pairwise_ne, List.pairwise_map]
      have hp : (sel (keepFlags p all m) all).Pairwise (fun x y => keyOf p x ≠ keyOf p y) := by
        rw [List.pairwise_iff_getElem]
        intro g g' hg hg' hlt he
        obtain ⟨w, h5, h6, -⟩ := hpos g _ (List.getElem?_eq_getElem hg)
        obtain ⟨w', h5', h6', -⟩ := hpos g' _ (List.getElem?_eq_getElem hg')
        rw [he, h5'] at h5
        obtain rfl := Option.some.inj h5
        omega
      have hp' := hp.filter (fun x => decide (x.1 = i))
      refine hp'.imp_of_mem ?_
      intro x y hx hy hne he
      apply hne
      have e1 : x.1 = i := by simpa using (List.mem_filter.mp hx).2
      have e2 : y.1 = i := by simpa using (List.mem_filter.mp hy).2
      rw [keyOf, keyOf, e1, e2, he]
  · exact hnd
  · intro i d
    rw [dests, List.mem_map]
    constructor
    · rintro ⟨x, hx, rfl⟩
      obtain ⟨hx1, hx2⟩ := List.mem_filter.mp hx
      obtain ⟨w, h5, h6⟩ := (mem_sel _ _ hfl x).mp hx1
      obtain ⟨y, h7, h8, h9⟩ := h2 _ _ ((htrue w x h6).mp h5)
      rw [h6] at h7
      obtain rfl := Option.some.inj h7
      exact ⟨x, List.mem_of_getElem? h6, by simpa using hx2, rfl, h9⟩
    · rintro ⟨x, hx, rfl, rfl, ha⟩
      obtain ⟨k, hk⟩ := List.getElem?_of_mem hx
      have hk' : k ∈ order := by
        rw [ho.mem_iff]
        simpa using (List.getElem?_eq_some_iff.mp hk).1
      obtain ⟨w, hw⟩ := h4 k hk' x hk ha
      obtain ⟨y, h7, h8, h9⟩ := h2 _ _ hw
      obtain ⟨e1, e2⟩ := hkey y (List.mem_of_getElem? h7) x hx h8
      refine ⟨y, List.mem_filter.mpr ⟨?_, by simp [e1]⟩, e2⟩
      rw [mem_sel _ _ hfl]
      exact ⟨w, (htrue w y h7).mpr (by rw [h8, hw]), h7⟩
  · intro x hx
    unfold destOf
    cases hl : m.lookup (keyOf p x) with
    | none =>
      rw [if_neg]; · rfl
      intro hd
      rw [dests, List.mem_map] at hd
      obtain ⟨y, hy, he⟩ := hd
      obtain ⟨hy1, hy2⟩ := List.mem_filter.mp hy
      obtain ⟨w, h5, h6⟩ := (mem_sel _ _ hfl y).mp hy1
      have := (htrue w y h6).mp h5
      have hy3 : y.1 = x.1 := by simpa using hy2
      rw [show keyOf p y = keyOf p x by rw [keyOf, keyOf, hy3, he], hl] at this
      exact absurd this (by simp)
    | some w =>
      obtain ⟨y, h7, h8, h9⟩ := h2 _ _ hl
      obtain ⟨e1, e2⟩ := hkey y (List.mem_of_getElem? h7) x hx h8
      have hw : (keepFlags p all m)[w]? = some true := (htrue w y h7).mpr (by rw [h8, hl])
      have hwlt := (List.getElem?_eq_some_iff.mp hw).1
      have hg := sel_get _ _ _ hfl hw
      rw [h7] at hg
      rw [Option.bind_some, old2new_get _ _ (by omega)]
      have hm : (y, rank (keepFlags p all m) w) ∈
          ((sel (keepFlags p all m) all).zipIdx 0).filter (fun z => z.1.1 = x.1) := by
        rw [List.mem_filter, List.mem_zipIdx_iff_getElem?]
        exact ⟨hg, by simp [e1]⟩
      rw [sorted_filter (fun z : Nat × Ai S => z.1) x.1 _ 0 (sel_pairwise _ _ hs)] at hm
      rw [List.mk_mem_zipIdx_iff_le_and_getElem?_sub] at hm
      obtain ⟨hle, hget⟩ := hm
      rw [Nat.zero_add] at hle hget
      have hd : (dests (sel (keepFlags p all m) all) x.1)[rank (keepFlags p all m) w -
          before (sel (keepFlags p all m) all) x.1]? = some x.2.dst := by
        rw [dests, List.getElem?_map]
        unfold before
        rw [hget, ← e2]; rfl
      rw [if_pos (List.mem_of_getElem? hd)]
      obtain ⟨hlt, hge⟩ := List.getElem?_eq_some_iff.mp hd
      rw [← hge, List.Nodup.idxOf_getElem (hnd _)]
      congr 1
      unfold before at *
      omega
  · intro x hx g
    have hrank : ∀ w y, all[w]? = some y → (old2new (keepFlags p all m))[w]? =
        some (rank (keepFlags p all m) w) := by
      intro w y hy
      have := (List.getElem?_eq_some_iff.mp hy).1
      exact old2new_get _ _ (by omega)
    constructor
    · intro hd
      unfold destOf at hd
      obtain ⟨w, hl, hr⟩ := Option.bind_eq_some_iff.mp hd
      obtain ⟨y, h7, h8, h9⟩ := h2 _ _ hl
      obtain ⟨e1, e2⟩ := hkey y (List.mem_of_getElem? h7) x hx h8
      have hw : (keepFlags p all m)[w]? = some true := (htrue w y h7).mpr (by rw [h8, hl])
      rw [hrank w y h7] at hr
      obtain rfl := Option.some.inj hr
      exact ⟨y, by rw [sel_get _ _ _ hfl hw, h7], e1, e2⟩
    · rintro ⟨y, hg, e1, e2⟩
      obtain ⟨w, h5, h6, h7⟩ := hpos g y hg
      unfold destOf
      rw [show keyOf p x = keyOf p y by rw [keyOf, keyOf, e1, e2], h5, Option.bind_some, hrank w y h7, h6]

end

end Verif.Fsa.Dp
