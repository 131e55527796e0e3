import Verif.Fsa.Device.Model
import Verif.Fsa.Pruned.Number

/-!
# The numbers of the new states
-/

namespace Verif.Fsa.Idv
open Verif.Ragged Verif.Util Verif.Fsa.Dn Verif.Fsa.Dp

/-- The table has only keys that are not in the hash, with threads that insert them. -/
def TabOk (infos : List Info) (hash m : List (Nat × Nat)) : Prop :=
  ∀ k w : Nat, m.lookup k = some w → hash.lookup k = none ∧
    ∃ x, infos[w]? = some x ∧ x.enters = true ∧ x.key = k

theorem insertAll_eq (infos : List Info) (hash : List (Nat × Nat)) (order : List Nat)
    (ho : ∀ k ∈ order, k < infos.length) (m : List (Nat × Nat)) (hm : TabOk infos hash m) :
    ∃ m', insertAll infos hash order m = some m' ∧ TabOk infos hash m' ∧
      (∀ k w : Nat, m.lookup k = some w → m'.lookup k = some w) ∧
      ∀ k ∈ order, ∀ x, infos[k]? = some x → x.enters = true → hash.lookup x.key = none →
        ∃ w, m'.lookup x.key = some w := by
  induction order generalizing m with
  | nil => exact ⟨m, rfl, hm, fun _ _ h => h, by simp⟩
  | cons k order ih =>
    have hk := ho k List.mem_cons_self
    have hx := List.getElem?_eq_getElem hk
    have ho' : ∀ k ∈ order, k < infos.length := fun k h => ho k (List.mem_cons_of_mem _ h)
    simp only [insertAll, hx, Option.bind_some]
    split
    · rename_i h
      have hm' : TabOk infos hash ((infos[k].key, k) :: m) := by
        intro k' w hl
        rw [List.lookup_cons] at hl
        split at hl
        · rename_i he
          obtain rfl := Option.some.inj hl
          have he' : k' = infos[k].key := by simpa using he
          subst he'
          exact ⟨h.2.1, _, hx, h.1, rfl⟩
        · exact hm k' w hl
      obtain ⟨m', h1, h2, h3, h4⟩ := ih ho' _ hm'
      have hk' : m'.lookup infos[k].key = some k := h3 _ _ (by simp [List.lookup_cons])
      refine ⟨m', h1, h2, ?_, ?_⟩
      · intro k' w hl
        apply h3
        rw [List.lookup_cons]
        split
        · rename_i he
          have : k' = infos[k].key := by simpa using he
          rw [this, h.2.2] at hl
          exact absurd hl (by simp)
        · exact hl
      · intro k' hk1 x hx1 ha hb
        rcases List.mem_cons.mp hk1 with rfl | h5
        · rw [hx] at hx1
          obtain rfl := Option.some.inj hx1
          exact ⟨_, hk'⟩
        · exact h4 k' h5 x hx1 ha hb
    · rename_i h
      obtain ⟨m', h1, h2, h3, h4⟩ := ih ho' _ hm
      refine ⟨m', h1, h2, h3, ?_⟩
      intro k' hk1 x hx1 ha hb
      rcases List.mem_cons.mp hk1 with rfl | h5
      · rw [hx] at hx1
        obtain rfl := Option.some.inj hx1
        have : m.lookup infos[k'].key ≠ none := fun hn => h ⟨ha, hb, hn⟩
        obtain ⟨w, hw⟩ := Option.ne_none_iff_exists'.mp this
        exact ⟨w, h3 _ _ hw⟩
      · exact h4 k' h5 x hx1 ha hb

theorem sel_append {X : Type} (a b : List Bool) (l l' : List X) (h : l.length = a.length) :
    sel (a ++ b) (l ++ l') = sel a l ++ sel b l' := by
  induction a generalizing l with
  | nil =>
    have : l = [] := by simpa using h
    subst this
    simp [sel]
  | cons k a ih =>
    cases l with
    | nil => simp at h
    | cons x l =>
      rw [List.cons_append, List.cons_append, sel, sel, ih l (by simpa using h)]
      cases k <;> simp

theorem sel_map {X Y : Type} (a : List Bool) (l : List X) (f : X → Y) : sel a (l.map f) = (sel a l).map f := by
  induction a generalizing l with
  | nil => simp [sel]
  | cons k a ih =>
    cases l with
    | nil => simp [sel]
    | cons x l =>
      rw [List.map_cons, sel, sel, ih l]
      cases k <;> simp

theorem sel_all {X : Type} (a : List Bool) (l : List X) (h : l.length = a.length) (ht : ∀ k ∈ a, k = true) :
    sel a l = l := by
  induction a generalizing l with
  | nil =>
    have : l = [] := by simpa using h
    subst this
    rfl
  | cons k a ih =>
    cases l with
    | nil => simp at h
    | cons x l =>
      rw [sel, ih l (by simpa using h) (fun k hk => ht k (List.mem_cons_of_mem _ hk)),
        if_pos (ht k List.mem_cons_self)]

theorem renumber_eq {W : Type} (p : Args W) (infos : List Info) (news : List Bool) (hn : news.length = infos.length)
    (hk : p.sorted = true → ∀ x ∈ infos, x.keep = true) :
    renumber p infos news = some (sel (infos.map Info.keep) (List.range infos.length),
      sel news (List.range infos.length)) := by
  unfold renumber
  split
  · rename_i hp
    rw [new2old_spec, Option.map_some, hn, sel_all (infos.map Info.keep) _ (by simp) (by
      intro k hk'
      obtain ⟨x, hx, rfl⟩ := List.mem_map.mp hk'
      exact hk hp x hx)]
  · have hr : List.range (infos.map Info.keep ++ news).length =
        List.range infos.length ++ (List.range infos.length).map (fun i => infos.length + i) := by
      rw [List.length_append, List.length_map, hn, List.range_add]
    have e1 : (old2new (infos.map Info.keep ++ news))[infos.length]? =
        some (sel (infos.map Info.keep) (List.range infos.length)).length := by
      rw [old2new_get _ _ (by simp), sel_length _ _ (by simp), List.length_map]
      congr 1
      unfold rank
      rw [List.take_append_of_le_length (by simp)]
    simp only [e1, new2old_spec, Option.bind_eq_bind, Option.bind_some]
    rw [hr, sel_append _ _ _ _ (by simp), List.take_left, List.drop_left, sel_map, List.map_map]
    congr 2
    rw [show ((fun i => i - infos.length) ∘ fun i => infos.length + i) = id by funext i; simp, List.map_id]

/-- What the numbering of the new states achieves. -/
theorem numbering (infos : List Info) (hash : List (Nat × Nat)) (order : List Nat)
    (ho : order.Perm (List.range infos.length)) :
    ∃ m, insertAll infos hash order [] = some m ∧ (winners infos m).length = infos.length ∧
      (∀ w : Nat, (winners infos m)[w]? = some true → ∃ x, infos[w]? = some x ∧ x.enters = true ∧
        hash.lookup x.key = none) ∧
      (sel (winners infos m) (infos.map Info.key)).Nodup ∧
      ∀ x ∈ infos, x.enters = true → hash.lookup x.key = none →
        x.key ∈ sel (winners infos m) (infos.map Info.key) := by
  obtain ⟨m, h1, h2, -, h4⟩ := insertAll_eq infos hash order (fun k hk => by simpa using ho.subset hk) []
    (fun k w h => by simp at h)
  have hfl : (winners infos m).length = infos.length := by simp [winners]
  have htrue : ∀ (w : Nat) (x : Info), infos[w]? = some x →
      ((winners infos m)[w]? = some true ↔ x.enters = true ∧ m.lookup x.key = some w) := by
    intro w x hx
    rw [winners, List.getElem?_map, List.getElem?_zipIdx, hx]
    simp
  have hw : ∀ w : Nat, (winners infos m)[w]? = some true → ∃ x, infos[w]? = some x ∧ x.enters = true ∧
      m.lookup x.key = some w := by
    intro w hw
    have hlt := (List.getElem?_eq_some_iff.mp hw).1
    rw [hfl] at hlt
    have hx := List.getElem?_eq_getElem hlt
    exact ⟨_, hx, ((htrue w _ hx).mp hw).1, ((htrue w _ hx).mp hw).2⟩
  refine ⟨m, h1, hfl, ?_, ?_, ?_⟩
  · intro w h
    obtain ⟨x, e1, e2, e3⟩ := hw w h
    exact ⟨x, e1, e2, (h2 _ _ e3).1⟩
  · have hpos : ∀ g k : Nat, (sel (winners infos m) (infos.map Info.key))[g]? = some k →
        ∃ w, m.lookup k = some w ∧ g = rank (winners infos m) w := by
      intro g k hg
      have hlt := (List.getElem?_eq_some_iff.mp hg).1
      rw [sel_length _ _ (by simp [hfl])] at hlt
      obtain ⟨w, h5, rfl⟩ := rank_surj _ _ hlt
      rw [sel_get _ _ _ (by simp [hfl]) h5, List.getElem?_map] at hg
      obtain ⟨x, e1, e2, e3⟩ := hw w h5
      rw [e1] at hg
      obtain rfl := Option.some.inj hg
      exact ⟨w, e3, rfl⟩
    rw [List.Nodup, List.pairwise_iff_getElem]
    intro g g' hg hg' hlt he
    obtain ⟨w, h5, h6⟩ := hpos g _ (List.getElem?_eq_getElem hg)
    obtain ⟨w', h5', h6'⟩ := hpos g' _ (List.getElem?_eq_getElem hg')
    rw [he, h5'] at h5
    obtain rfl := Option.some.inj h5
    omega
  · intro x hx he hh
    obtain ⟨k, hk⟩ := List.getElem?_of_mem hx
    have hk' : k ∈ order := by
      rw [ho.mem_iff]
      simpa using (List.getElem?_eq_some_iff.mp hk).1
    obtain ⟨w, hl⟩ := h4 k hk' x hk he hh
    obtain ⟨-, y, e1, e2, e3⟩ := h2 _ _ hl
    rw [mem_sel _ _ (by simp [hfl])]
    refine ⟨w, (htrue w y e1).mpr ⟨e2, by rw [e3]; exact hl⟩, ?_⟩
    rw [List.getElem?_map, e1, Option.map_some, e3]

end Verif.Fsa.Idv
