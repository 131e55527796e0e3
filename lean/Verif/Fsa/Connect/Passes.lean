import Verif.Fsa.Connect.Bfs
import Verif.Fsa.Vec.Lemmas

/-!
The forward pass marks the states that can be reached in their own FSA, the backward pass those from
which the final state can be reached.
-/

namespace Verif.Fsa
open Verif.Ragged Verif.Util
variable {W : Type}

/-- An arc of the vector, between states numbered in the whole vector. -/
def VecArc (T : List (List (List (Arc W)))) (g d : Nat) : Prop :=
  ∃ (r : Nat) (f : List (List (Arc W))) (s : Nat) (row : List (Arc W)) (a : Arc W),
    T[r]? = some f ∧ f[s]? = some row ∧ a ∈ row ∧ g = off T r + s ∧ d = off T r + a.dst

theorem forwardWrites_ok (T : List (List (List (Arc W)))) (hT : VecOk T) (dest : List Nat)
    (hd : ∀ (r : Nat) (f : List (List (Arc W))) (s : Nat) (row : List (Arc W)) (k : Nat) (a : Arc W),
        T[r]? = some f → f[s]? = some row → row[k]? = some a →
        dest[apos T (off T r + s) + k]? = some (off T r + a.dst)) :
    WritesOk T.flatten.length (VecArc T) (forwardWrites (flat T).sp2 dest) := by
  intro m g hm hg hmg
  obtain ⟨r, f, s, hf, hs, rfl⟩ := state_pos T g hg
  have hrow := List.getElem?_eq_getElem hs
  have hgr := state_at T r s f hf hs
  rw [hrow] at hgr
  have hcell : ∀ (k : Nat) (a : Arc W), f[s][k]? = some a → ∃ b, m[off T r + a.dst]? = some b := by
    intro k a ha
    have := (hT.at hf hrow a (List.mem_of_getElem? ha)).2
    have h2 := off_lt T r a.dst f hf this
    exact ⟨_, List.getElem?_eq_getElem (by rw [hm]; exact h2)⟩
  have hval : (List.range' (apos T (off T r + s)) (f[s]).length).mapM (fun i => do
      let d ← dest[i]?
      let m' ← m[d]?
      some (if d = off T r + s ∨ m' = true then [] else [(d, true)])) =
      some (f[s].map (fun a => if off T r + a.dst = off T r + s ∨ m[off T r + a.dst]? = some true then []
        else [(off T r + a.dst, true)])) := by
    apply mapM_some_of _ _ _ (by simp)
    intro k b hb
    obtain ⟨hlt, hb⟩ := List.getElem?_eq_some_iff.mp hb
    rw [List.length_range'] at hlt
    rw [List.getElem_range', Nat.one_mul] at hb
    subst hb
    have ha := List.getElem?_eq_getElem hlt
    obtain ⟨b, hb⟩ := hcell k _ ha
    rw [List.getElem?_map, ha]
    simp only [hd r f s _ k _ hf hrow ha, hb, Option.bind_eq_bind, Option.bind_some, Option.map_some,
      Option.some.injEq]
  refine ⟨(f[s].map (fun a => if off T r + a.dst = off T r + s ∨ m[off T r + a.dst]? = some true then []
        else [(off T r + a.dst, true)])).flatten, ?_, ?_, ?_⟩
  · unfold forwardWrites
    rw [rowElems_flat T _ _ hgr]
    simp only [Option.bind_eq_bind] at hval
    simp only [hval, Option.bind_eq_bind, Option.bind_some]
  · intro d
    simp only [List.mem_flatten, List.mem_map]
    constructor
    · rintro ⟨l, ⟨a, ha, rfl⟩, hl⟩
      split at hl
      · simp at hl
      · rename_i hc
        simp only [List.mem_singleton, Prod.mk.injEq, and_true] at hl
        subst hl
        refine ⟨⟨r, f, s, _, a, hf, hrow, ha, rfl, rfl⟩, ?_⟩
        have := (hT.at hf hrow a ha).2
        have h2 := off_lt T r a.dst f hf this
        exact (bool_get m _ (by omega)).mpr (fun h => hc (Or.inr h))
    · rintro ⟨⟨r', f', s', row', a, hf', hs', ha, he, rfl⟩, hm'⟩
      have hs'l := (List.getElem?_eq_some_iff.mp hs').1
      obtain ⟨rfl, rfl⟩ := off_inj T r r' s s' f f' hf hf' hs hs'l he
      rw [hf] at hf'
      obtain rfl := Option.some.inj hf'
      rw [hrow] at hs'
      obtain rfl := Option.some.inj hs'
      refine ⟨_, ⟨a, ha, rfl⟩, ?_⟩
      rw [if_neg]
      · simp
      · rintro (h | h)
        · rw [h, hmg] at hm'; simp at hm'
        · rw [h] at hm'; simp at hm'
  · intro d
    simp only [List.mem_flatten, List.mem_map]
    rintro ⟨l, ⟨a, ha, rfl⟩, hl⟩
    split at hl <;> simp at hl

theorem backwardWrites_ok (T : List (List (List (Arc W)))) (hT : VecOk T) (dest : List Nat)
    (hdl : dest.length = T.flatten.flatten.length)
    (hd : ∀ (r : Nat) (f : List (List (Arc W))) (s : Nat) (row : List (Arc W)) (k : Nat) (a : Arc W),
        T[r]? = some f → f[s]? = some row → row[k]? = some a →
        dest[apos T (off T r + s) + k]? = some (off T r + a.dst)) :
    WritesOk T.flatten.length (fun g d => VecArc T d g)
      (backwardWrites (flat T) (psum ((buckets dest T.flatten.length).map List.length))
        (buckets dest T.flatten.length).flatten) := by
  intro m g hm hg hmg
  obtain ⟨r, f, s, hf, hs, rfl⟩ := state_pos T g hg
  have hB := buckets_get dest T.flatten.length (off T r + s) hg
  have hpos : ∀ j ∈ positions dest 0 (off T r + s), ∃ a, (flat T).arcs[j]? = some a ∧
      a.src < f.length ∧ VecArc T (off T r + a.src) (off T r + s) := by
    intro j hj
    have hj := (positions_mem dest _ j).mp hj
    have hlt := (List.getElem?_eq_some_iff.mp hj).1
    rw [hdl] at hlt
    obtain ⟨r', f', s', row, k, hf', hs', hk, rfl⟩ := arc_pos T j hlt
    have ha := List.getElem?_eq_getElem hk
    have hs'l := (List.getElem?_eq_some_iff.mp hs').1
    have h1 := hd r' f' s' row k _ hf' hs' ha
    have hj' : dest[apos T (off T r' + s') + k]? = some (off T r + s) := hj
    rw [h1] at hj'
    have hok := hT.at hf' hs' _ (List.getElem_mem hk)
    obtain ⟨rfl, h2⟩ := off_inj T r' r _ s f' f hf' hf hok.2 hs (Option.some.inj hj')
    rw [hf] at hf'
    obtain rfl := Option.some.inj hf'
    have hgg := state_at T r' s' f hf hs'l
    rw [hs'] at hgg
    refine ⟨row[k], ?_, by rw [hok.1]; exact hs'l, r', f, s', row, row[k], hf, hs', List.getElem_mem hk,
      by rw [hok.1], by rw [h2]⟩
    rw [← ha]
    exact flat_arc T _ k row hgg hk
  have hval : ∃ ws, (List.range' (((buckets dest T.flatten.length).map List.length).take
      (off T r + s)).sum (positions dest 0 (off T r + s)).length).mapM (fun i => do
      let j ← (buckets dest T.flatten.length).flatten[i]?
      let a ← (flat T).arcs[j]?
      let m' ← m[off T r + a.src]?
      some (if off T r + a.src = off T r + s ∨ m' = true then [(off T r + a.src, false)]
        else [(off T r + a.src, true)])) = some ws ∧
      ws = (positions dest 0 (off T r + s)).map (fun j => match (flat T).arcs[j]? with
        | none => []
        | some a => if off T r + a.src = off T r + s ∨ m[off T r + a.src]? = some true then
            [(off T r + a.src, false)] else [(off T r + a.src, true)]) := by
    refine ⟨_, ?_, rfl⟩
    apply mapM_some_of _ _ _ (by simp)
    intro k b hb
    obtain ⟨hlt, hb⟩ := List.getElem?_eq_some_iff.mp hb
    rw [List.length_range'] at hlt
    rw [List.getElem_range', Nat.one_mul] at hb
    subst hb
    have hj := List.getElem?_eq_getElem hlt
    have hrow := row_at (buckets dest T.flatten.length) (off T r + s) k _ hB hlt
    rw [hj] at hrow
    obtain ⟨a, ha, hasl, _⟩ := hpos _ (List.getElem_mem hlt)
    have hm' := List.getElem?_eq_getElem (show off T r + a.src < m.length by
      rw [hm]; exact off_lt T r a.src f hf hasl)
    rw [List.getElem?_map, hj]
    simp only [hrow, ha, hm', Option.bind_eq_bind, Option.bind_some, Option.map_some, Option.some.injEq]
  obtain ⟨ws, hws, hwe⟩ := hval
  have hsp : rowElems (psum ((buckets dest T.flatten.length).map List.length)) (off T r + s) =
      some (List.range' (((buckets dest T.flatten.length).map List.length).take (off T r + s)).sum
        (positions dest 0 (off T r + s)).length) := by
    have hl : ((buckets dest T.flatten.length).map List.length).length = T.flatten.length := by
      rw [List.length_map, buckets, List.length_map, List.length_range]
    unfold rowElems
    rw [psum_get _ _ (by omega), psum_get _ _ (by omega),
      take_succ_sum _ _ (positions dest 0 (off T r + s)).length (by rw [List.getElem?_map, hB]; rfl)]
    simp
  refine ⟨ws.flatten, ?_, ?_, ?_⟩
  · unfold backwardWrites
    have f1 := flat_id1 T r s f hf hs
    have f2 := flat_sp1 T r (Nat.le_of_lt (List.getElem?_eq_some_iff.mp hf).1)
    simp only [Option.bind_eq_bind] at hws
    simp only [hsp, f1, f2, hws, Option.bind_eq_bind, Option.bind_some]
  · intro d
    rw [hwe]
    simp only [List.mem_flatten, List.mem_map]
    constructor
    · rintro ⟨l, ⟨j, hj, rfl⟩, hl⟩
      obtain ⟨a, ha, hasl, harc⟩ := hpos j hj
      rw [ha] at hl
      simp only at hl
      split at hl
      · simp at hl
      · rename_i hc
        simp only [List.mem_singleton, Prod.mk.injEq, and_true] at hl
        subst hl
        refine ⟨harc, (bool_get m _ (by rw [hm]; exact off_lt T r a.src f hf hasl)).mpr
          (fun h => hc (Or.inr h))⟩
    · rintro ⟨⟨r', f', s', row', a, hf', hs', ha, rfl, he⟩, hm'⟩
      obtain ⟨k, hk⟩ := List.getElem?_of_mem ha
      have hkl := (List.getElem?_eq_some_iff.mp hk).1
      have hs'l := (List.getElem?_eq_some_iff.mp hs').1
      have hok := hT.at hf' hs' a ha
      have h1 := hd r' f' s' row' k a hf' hs' hk
      obtain ⟨rfl, h2⟩ := off_inj T r r' s _ f f' hf hf' hs hok.2 he
      rw [hf] at hf'
      obtain rfl := Option.some.inj hf'
      rw [← he] at h1
      have hgg := state_at T r s' f hf hs'l
      rw [hs'] at hgg
      have harc : (flat T).arcs[apos T (off T r + s') + k]? = some a := by
        rw [← hk]; exact flat_arc T _ k row' hgg hkl
      refine ⟨_, ⟨_, (positions_mem dest _ _).mpr h1, rfl⟩, ?_⟩
      rw [harc]
      simp only
      rw [hok.1, if_neg]
      · simp
      · rintro (h | h)
        · rw [h, hmg] at hm'; simp at hm'
        · rw [h] at hm'; simp at hm'
  · intro d
    rw [hwe]
    simp only [List.mem_flatten, List.mem_map]
    rintro ⟨l, ⟨j, hj, rfl⟩, hl⟩
    obtain ⟨a, ha, hasl, harc⟩ := hpos j hj
    rw [ha] at hl
    simp only at hl
    split at hl
    · rename_i hc
      simp only [List.mem_singleton, Prod.mk.injEq, and_true] at hl
      subst hl
      rcases hc with hc | hc
      · rw [hc]; exact hmg
      · exact hc
    · simp at hl

/-! ## Reachability in the vector and in one FSA -/

theorem mem_rows_arcs {f : List (List (Arc W))} (hf : RowsOk f) (a : Arc W) (ha : a ∈ f.flatten) :
    ∃ row, f[a.src]? = some row ∧ a ∈ row := by
  obtain ⟨row, hr, har⟩ := List.mem_flatten.mp ha
  obtain ⟨s, hs⟩ := List.getElem?_of_mem hr
  have := (hf s row hs a har).1
  subst this
  exact ⟨row, hs, har⟩

theorem startBatch_spec (T : List (List (List (Arc W)))) :
    ∃ l, startBatch (flat T).sp1 = some l ∧
      ∀ g, g ∈ l ↔ ∃ r f, T[r]? = some f ∧ 0 < f.length ∧ g = off T r := by
  have hm : (List.range ((flat T).sp1.length - 1)).mapM (fun i => do
      let b ← (flat T).sp1[i]?
      let e ← (flat T).sp1[i + 1]?
      some (if b < e then [b] else [])) =
      some (T.mapIdx (fun r f => if 0 < f.length then [off T r] else [])) := by
    apply mapM_some_of _ _ _ (by simp [flat_sp1_length])
    intro i b hb
    obtain ⟨hlt, hb⟩ := List.getElem?_eq_some_iff.mp hb
    rw [List.getElem_range] at hb; subst hb
    rw [List.length_range, flat_sp1_length] at hlt
    have hf := List.getElem?_eq_getElem (show i < T.length by omega)
    rw [List.getElem?_mapIdx, hf, flat_sp1 T i (by omega), flat_sp1_succ T i _ hf]
    simp
  refine ⟨_, by unfold startBatch; rw [hm]; rfl, ?_⟩
  intro g
  simp only [List.mem_flatten]
  constructor
  · rintro ⟨l, hl, hg⟩
    obtain ⟨r, hr⟩ := List.getElem?_of_mem hl
    rw [List.getElem?_mapIdx] at hr
    cases hf : T[r]? with
    | none => rw [hf] at hr; simp at hr
    | some f =>
      rw [hf] at hr
      obtain rfl := Option.some.inj hr
      simp only at hg
      split at hg
      · simp at hg; exact ⟨r, f, hf, by assumption, hg⟩
      · simp at hg
  · rintro ⟨r, f, hf, hl, rfl⟩
    refine ⟨[off T r], List.mem_of_getElem? (i := r) ?_, by simp⟩
    rw [List.getElem?_mapIdx, hf]; simp [hl]

theorem finalBatch_spec (T : List (List (List (Arc W)))) :
    ∃ l, finalBatch (flat T).sp1 = some l ∧
      ∀ g, g ∈ l ↔ ∃ r f, T[r]? = some f ∧ 0 < f.length ∧ g = off T r + (f.length - 1) := by
  have hm : (List.range ((flat T).sp1.length - 1)).mapM (fun i => do
      let b ← (flat T).sp1[i]?
      let e ← (flat T).sp1[i + 1]?
      some (if b < e then [e - 1] else [])) =
      some (T.mapIdx (fun r f => if 0 < f.length then [off T r + (f.length - 1)] else [])) := by
    apply mapM_some_of _ _ _ (by simp [flat_sp1_length])
    intro i b hb
    obtain ⟨hlt, hb⟩ := List.getElem?_eq_some_iff.mp hb
    rw [List.getElem_range] at hb; subst hb
    rw [List.length_range, flat_sp1_length] at hlt
    have hf := List.getElem?_eq_getElem (show i < T.length by omega)
    rw [List.getElem?_mapIdx, hf, flat_sp1 T i (by omega), flat_sp1_succ T i _ hf]
    simp only [Option.bind_eq_bind, Option.bind_some, Option.map_some, Option.some.injEq]
    by_cases h : 0 < (T[i]).length
    · rw [if_pos (by omega), if_pos h, Nat.add_sub_assoc h]
    · rw [if_neg (by omega), if_neg h]
  refine ⟨_, by unfold finalBatch; rw [hm]; rfl, ?_⟩
  intro g
  simp only [List.mem_flatten]
  constructor
  · rintro ⟨l, hl, hg⟩
    obtain ⟨r, hr⟩ := List.getElem?_of_mem hl
    rw [List.getElem?_mapIdx] at hr
    cases hf : T[r]? with
    | none => rw [hf] at hr; simp at hr
    | some f =>
      rw [hf] at hr
      obtain rfl := Option.some.inj hr
      simp only at hg
      split at hg
      · simp at hg; exact ⟨r, f, hf, by assumption, hg⟩
      · simp at hg
  · rintro ⟨r, f, hf, hl, rfl⟩
    refine ⟨[off T r + (f.length - 1)], List.mem_of_getElem? (i := r) ?_, by simp⟩
    rw [List.getElem?_mapIdx, hf]; simp [hl]

theorem reach_forward (T : List (List (List (Arc W)))) (hT : VecOk T) (starts : List Nat)
    (hst : ∀ g, g ∈ starts ↔ ∃ r f, T[r]? = some f ∧ 0 < f.length ∧ g = off T r)
    (r s : Nat) (f : List (List (Arc W))) (hf : T[r]? = some f) (hs : s < f.length) :
    Reach (VecArc T) starts (off T r + s) ↔ ∃ p, Path f.flatten 0 p s := by
  constructor
  · intro h
    generalize hg : off T r + s = g at h
    induction h generalizing r s f with
    | start h =>
      obtain ⟨r', f', hf', hl', he⟩ := (hst _).mp h
      obtain ⟨rfl, rfl⟩ := off_inj T r r' s 0 f f' hf hf' hs hl' (by omega)
      exact ⟨[], (path_nil _ _ _).mpr rfl⟩
    | step _ hd ih =>
      obtain ⟨r', f', s', row, a, hf', hs', ha, he1, he2⟩ := hd
      have hok := hT.at hf' hs' a ha
      obtain ⟨rfl, rfl⟩ := off_inj T r r' s a.dst f f' hf hf' hs hok.2 (by omega)
      rw [hf] at hf'
      obtain rfl := Option.some.inj hf'
      obtain ⟨p, hp⟩ := ih r s' f hf (List.getElem?_eq_some_iff.mp hs').1 he1.symm
      refine ⟨p ++ [a], (path_append _ _ _ _ _).mpr ⟨s', hp, ?_⟩⟩
      rw [path_cons, path_nil]
      exact ⟨List.mem_flatten.mpr ⟨row, List.mem_of_getElem? hs', ha⟩, hok.1, rfl⟩
  · rintro ⟨p, hp⟩
    have key : ∀ (p : List (Arc W)) (t : Nat), t < f.length → Reach (VecArc T) starts (off T r + t) →
        Path f.flatten t p s → Reach (VecArc T) starts (off T r + s) := by
      intro p
      induction p with
      | nil => intro t _ ht hp; rw [path_nil] at hp; subst hp; exact ht
      | cons a p ih =>
        intro t htl ht hp
        rw [path_cons] at hp
        obtain ⟨ha, rfl, hp⟩ := hp
        obtain ⟨row, hrow, har⟩ := mem_rows_arcs (hT f (List.mem_of_getElem? hf)) a ha
        have hok := hT.at hf hrow a har
        exact ih a.dst hok.2 (Reach.step ht ⟨r, f, a.src, row, a, hf, hrow, har, rfl, rfl⟩) hp
    exact key p 0 (by omega) (Reach.start ((hst _).mpr ⟨r, f, hf, by omega, by omega⟩)) hp

theorem reach_backward (T : List (List (List (Arc W)))) (hT : VecOk T) (starts : List Nat)
    (hst : ∀ g, g ∈ starts ↔ ∃ r f, T[r]? = some f ∧ 0 < f.length ∧ g = off T r + (f.length - 1))
    (r s : Nat) (f : List (List (Arc W))) (hf : T[r]? = some f) (hs : s < f.length) :
    Reach (fun g d => VecArc T d g) starts (off T r + s) ↔ ∃ p, Path f.flatten s p (f.length - 1) := by
  constructor
  · intro h
    generalize hg : off T r + s = g at h
    induction h generalizing r s f with
    | start h =>
      obtain ⟨r', f', hf', hl', he⟩ := (hst _).mp h
      obtain ⟨rfl, rfl⟩ := off_inj T r r' s (f'.length - 1) f f' hf hf' hs (by omega) (by omega)
      rw [hf] at hf'
      obtain rfl := Option.some.inj hf'
      exact ⟨[], (path_nil _ _ _).mpr rfl⟩
    | step _ hd ih =>
      obtain ⟨r', f', s', row, a, hf', hs', ha, he1, he2⟩ := hd
      have hok := hT.at hf' hs' a ha
      obtain ⟨rfl, rfl⟩ := off_inj T r r' s s' f f' hf hf' hs (List.getElem?_eq_some_iff.mp hs').1 (by omega)
      rw [hf] at hf'
      obtain rfl := Option.some.inj hf'
      obtain ⟨p, hp⟩ := ih r a.dst f hf hok.2 he2.symm
      refine ⟨a :: p, (path_cons _ _ _ _ _).mpr
        ⟨List.mem_flatten.mpr ⟨row, List.mem_of_getElem? hs', ha⟩, hok.1, hp⟩⟩
  · rintro ⟨p, hp⟩
    induction p generalizing s with
    | nil =>
      rw [path_nil] at hp
      exact Reach.start ((hst _).mpr ⟨r, f, hf, by omega, by omega⟩)
    | cons a p ih =>
      rw [path_cons] at hp
      obtain ⟨ha, rfl, hp⟩ := hp
      obtain ⟨row, hrow, har⟩ := mem_rows_arcs (hT f (List.mem_of_getElem? hf)) a ha
      have hok := hT.at hf hrow a har
      exact Reach.step (ih a.dst hok.2 hp) ⟨r, f, a.src, row, a, hf, hrow, har, rfl, rfl⟩

/-! ## The passes -/

open Classical in
/-- Which states can be reached from the start. -/
noncomputable def accFlags (f : List (List (Arc W))) : List Bool :=
  (List.range f.length).map (fun s => decide (∃ p, Path f.flatten 0 p s))

open Classical in
/-- From which states the final state can be reached. -/
noncomputable def coaccFlags (f : List (List (Arc W))) : List Bool :=
  (List.range f.length).map (fun s => decide (∃ p, Path f.flatten s p (f.length - 1)))

theorem flags_flatten (T : List (List (List (Arc W)))) (q : List (List (Arc W)) → List Bool)
    (hq : ∀ f, (q f).length = f.length) (out : List Bool) (hl : out.length = T.flatten.length)
    (h : ∀ (r s : Nat) (f : List (List (Arc W))), T[r]? = some f → s < f.length →
      (out[off T r + s]? = some true ↔ (q f)[s]? = some true)) : out = (T.map q).flatten := by
  have hlen : (T.map q).map List.length = T.map List.length := by
    rw [List.map_map]; apply List.map_congr_left; intro f _; exact hq f
  apply List.ext_getElem?
  intro g
  by_cases hg : g < T.flatten.length
  · obtain ⟨r, f, s, hf, hs, rfl⟩ := state_pos T g hg
    have h1 := row_at (T.map q) r s (q f) (by rw [List.getElem?_map, hf]; rfl) (by rw [hq]; exact hs)
    rw [hlen] at h1
    have h1' : (T.map q).flatten[off T r + s]? = (q f)[s]? := h1
    rw [h1']
    have h2 := h r s f hf hs
    rw [List.getElem?_eq_getElem (show off T r + s < out.length by omega)] at h2 ⊢
    rw [List.getElem?_eq_getElem (show s < (q f).length by rw [hq]; exact hs)] at h2 ⊢
    congr 1
    rw [Bool.eq_iff_iff]
    simpa using h2
  · rw [List.getElem?_eq_none (by omega), List.getElem?_eq_none]
    rw [List.length_flatten, hlen, ← List.length_flatten]; omega

theorem forwardPass_eq (T : List (List (List (Arc W)))) (hT : VecOk T) (dest : List Nat)
    (hd : ∀ (r : Nat) (f : List (List (Arc W))) (s : Nat) (row : List (Arc W)) (k : Nat) (a : Arc W),
        T[r]? = some f → f[s]? = some row → row[k]? = some a →
        dest[apos T (off T r + s) + k]? = some (off T r + a.dst)) :
    forwardPass (flat T) dest = some (T.map accFlags).flatten := by
  obtain ⟨l, hl, hmem⟩ := startBatch_spec T
  obtain ⟨out, ho, hol, hog⟩ := pass_spec T.flatten.length (VecArc T) l
    (by intro g hg
        obtain ⟨r, f, hf, hfl, rfl⟩ := (hmem g).mp hg
        exact off_lt T r 0 f hf hfl)
    (by rintro g _ d ⟨r, f, s, row, a, hf, hs, ha, _, rfl⟩
        exact off_lt T r _ f hf (hT.at hf hs a ha).2)
    _ (forwardWrites_ok T hT dest hd)
  unfold forwardPass
  simp only [hl, flat_id1_length, ho, Option.bind_eq_bind, Option.bind_some]
  congr 1
  apply flags_flatten T accFlags (fun f => by simp [accFlags]) out hol
  intro r s f hf hs
  rw [hog, reach_forward T hT l hmem r s f hf hs]
  simp [accFlags, hs]

theorem backwardPass_eq (T : List (List (List (Arc W)))) (hT : VecOk T) (dest : List Nat)
    (hdl : dest.length = T.flatten.flatten.length)
    (hd : ∀ (r : Nat) (f : List (List (Arc W))) (s : Nat) (row : List (Arc W)) (k : Nat) (a : Arc W),
        T[r]? = some f → f[s]? = some row → row[k]? = some a →
        dest[apos T (off T r + s) + k]? = some (off T r + a.dst)) :
    backwardPass (flat T) dest = some (T.map coaccFlags).flatten := by
  obtain ⟨l, hl, hmem⟩ := finalBatch_spec T
  obtain ⟨out, ho, hol, hog⟩ := pass_spec T.flatten.length (fun g d => VecArc T d g) l
    (by intro g hg
        obtain ⟨r, f, hf, hfl, rfl⟩ := (hmem g).mp hg
        exact off_lt T r _ f hf (by omega))
    (by rintro g _ d ⟨r, f, s, row, a, hf, hs, ha, rfl, _⟩
        exact off_lt T r _ f hf (List.getElem?_eq_some_iff.mp hs).1)
    _ (backwardWrites_ok T hT dest hdl hd)
  have hinc := incomingArcs_eq dest T.flatten.length (by
    intro v hv
    obtain ⟨j, hj⟩ := List.getElem?_of_mem hv
    have hlt := (List.getElem?_eq_some_iff.mp hj).1
    rw [hdl] at hlt
    obtain ⟨r, f, s, row, k, hf, hs, hk, rfl⟩ := arc_pos T j hlt
    have h1 := hd r f s row k _ hf hs (List.getElem?_eq_getElem hk)
    have hj' : dest[apos T (off T r + s) + k]? = some v := hj
    rw [h1] at hj'
    obtain rfl := Option.some.inj hj'
    exact off_lt T r _ f hf (hT.at hf hs _ (List.getElem_mem hk)).2)
  unfold backwardPass
  simp only [hl, flat_id1_length, hinc, ho, Option.bind_eq_bind, Option.bind_some]
  congr 1
  apply flags_flatten T coaccFlags (fun f => by simp [coaccFlags]) out hol
  intro r s f hf hs
  rw [hog, reach_backward T hT l hmem r s f hf hs]
  simp [coaccFlags, hs]

end Verif.Fsa
