import Verif.Fsa.Scores.Sweep
import Verif.Fsa.TopSort.Renumber

/-!
# The scores of a vector of FSAs
-/

namespace Verif.Fsa.Sco
open Verif.Ragged Verif.Util Verif.Fsa.Bat Verif.Fsa.Top
variable {W K X : Type}

/-! ## The batches -/

/-- State `g` is in batch `k` of its FSA. -/
def InBatch (B : List (List (List Nat))) (k g : Nat) : Prop :=
  ∃ (r : Nat) (bs : List (List Nat)) (b : List Nat), B[r]? = some bs ∧ bs[k]? = some b ∧ g ∈ b

section
variable {T : List (List (List (Arc W)))} {B C : List (List (List Nat))} (hB : BatchSchedule T B)
  (hC : Exchanged B C)
include hB

theorem inBatch_fsa {r : Nat} {bs : List (List Nat)} (hr : B[r]? = some bs) {k g : Nat} {b : List Nat}
    (hk : bs[k]? = some b) (hg : g ∈ b) :
    ∃ f s, T[r]? = some f ∧ s < f.length ∧ g = off T r + s := by
  have hrl : r < T.length := by have := (List.getElem?_eq_some_iff.mp hr).1; rw [hB.length] at this; exact this
  have hf := List.getElem?_eq_getElem hrl
  have := hB.part r _ bs hf hr
  have hm : g ∈ bs.flatten := List.mem_flatten.mpr ⟨b, List.mem_of_getElem? hk, hg⟩
  rw [this, List.mem_range'_1] at hm
  exact ⟨_, g - off T r, hf, by omega, by omega⟩

theorem flatten_pos_unique (bs : List (List Nat)) (hnd : bs.flatten.Nodup) (k k' g : Nat) (b b' : List Nat)
    (hk : bs[k]? = some b) (hk' : bs[k']? = some b') (hg : g ∈ b) (hg' : g ∈ b') : k = k' := by
  rw [List.nodup_flatten] at hnd
  obtain ⟨h1, e1⟩ := List.getElem?_eq_some_iff.mp hk
  obtain ⟨h2, e2⟩ := List.getElem?_eq_some_iff.mp hk'
  have hp := List.pairwise_iff_getElem.mp hnd.2
  rcases Nat.lt_trichotomy k k' with h | h | h
  · have := hp k k' h1 h2 h
    rw [e1, e2] at this
    exact absurd hg' (this hg)
  · exact h
  · have := hp k' k h2 h1 h
    rw [e1, e2] at this
    exact absurd hg (this hg')

theorem inBatch_unique {k k' g : Nat} (h : InBatch B k g) (h' : InBatch B k' g) : k = k' := by
  obtain ⟨r, bs, b, h1, h2, h3⟩ := h
  obtain ⟨r', bs', b', h4, h5, h6⟩ := h'
  obtain ⟨f, s, g1, g2, g3⟩ := inBatch_fsa hB h1 h2 h3
  obtain ⟨f', s', g4, g5, g6⟩ := inBatch_fsa hB h4 h5 h6
  obtain ⟨rfl, _⟩ := off_inj T r r' s s' f f' g1 g4 g2 g5 (by omega)
  rw [h1] at h4
  obtain rfl := Option.some.inj h4
  refine flatten_pos_unique hB bs ?_ k k' g b b' h2 h5 h3 h6
  rw [hB.part r f bs g1 h1]
  exact List.nodup_range' ..

theorem inBatch_exists (g : Nat) (hg : g < T.flatten.length) : ∃ k, InBatch B k g := by
  obtain ⟨r, f, s, hf, hs, rfl⟩ := state_pos T g hg
  have hrl : r < B.length := by
    have := (List.getElem?_eq_some_iff.mp hf).1; rw [hB.length]; exact this
  have hb := List.getElem?_eq_getElem hrl
  have := hB.part r f _ hf hb
  have hm : off T r + s ∈ (B[r]).flatten := by rw [this, List.mem_range'_1]; omega
  obtain ⟨b, hbm, hgb⟩ := List.mem_flatten.mp hm
  obtain ⟨k, hk⟩ := List.getElem?_of_mem hbm
  exact ⟨k, r, _, b, hb, hk, hgb⟩

theorem inBatch_lt {k g : Nat} (h : InBatch B k g) : g < T.flatten.length := by
  obtain ⟨r, bs, b, h1, h2, h3⟩ := h
  obtain ⟨f, s, g1, g2, rfl⟩ := inBatch_fsa hB h1 h2 h3
  exact off_lt T r s f g1 g2

omit hB in
include hC in
theorem mem_batch (k g : Nat) : g ∈ (C.map List.flatten).getD k [] ↔ InBatch B k g := by
  constructor
  · intro h
    rw [List.getD_eq_getElem?_getD, List.getElem?_map] at h
    cases hk : C[k]? with
    | none => rw [hk] at h; simp at h
    | some row =>
      rw [hk] at h
      obtain ⟨b, hb, hg⟩ := List.mem_flatten.mp h
      obtain ⟨r, hr⟩ := List.getElem?_of_mem hb
      have hw := hC.width row (List.mem_of_getElem? hk)
      have hrl : r < B.length := by have := (List.getElem?_eq_some_iff.mp hr).1; omega
      have hbs := List.getElem?_eq_getElem hrl
      have := hC.entry r k _ row hbs hk
      rw [hr] at this
      have hb' := Option.some.inj this
      cases hq : (B[r])[k]? with
      | none => rw [hq] at hb'; rw [hb'] at hg; simp at hg
      | some b' =>
        rw [hq] at hb'
        have : b = b' := hb'
        subst this
        exact ⟨r, _, b, hbs, hq, hg⟩
  · rintro ⟨r, bs, b, h1, h2, h3⟩
    have hkl := (List.getElem?_eq_some_iff.mp h2).1
    have := hC.all bs (List.mem_of_getElem? h1)
    have hkC : k < C.length := by omega
    have hk := List.getElem?_eq_getElem hkC
    have he := hC.entry r k bs _ h1 hk
    rw [h2] at he
    rw [List.getD_eq_getElem?_getD, List.getElem?_map, hk]
    exact List.mem_flatten.mpr ⟨b, List.mem_of_getElem? he, h3⟩

include hC in
theorem batch_nodup (k : Nat) : ((C.map List.flatten).getD k []).Nodup := by
  rw [List.getD_eq_getElem?_getD, List.getElem?_map]
  cases hk : C[k]? with
  | none => exact List.nodup_nil
  | some row =>
    show row.flatten.Nodup
    have hw := hC.width row (List.mem_of_getElem? hk)
    have hrow : ∀ (r : Nat) (b : List Nat), row[r]? = some b → b ≠ [] →
        ∃ bs, B[r]? = some bs ∧ bs[k]? = some b := by
      intro r b hr hne
      have hrl : r < B.length := by have := (List.getElem?_eq_some_iff.mp hr).1; omega
      have hbs := List.getElem?_eq_getElem hrl
      have := hC.entry r k _ row hbs hk
      rw [hr] at this
      have hb' := Option.some.inj this
      cases hq : (B[r])[k]? with
      | none => rw [hq] at hb'; exact absurd hb' hne
      | some b' =>
        rw [hq] at hb'
        have : b = b' := hb'
        subst this
        exact ⟨_, hbs, hq⟩
    rw [List.nodup_flatten]
    constructor
    · intro b hb
      obtain ⟨r, hr⟩ := List.getElem?_of_mem hb
      by_cases hne : b = []
      · rw [hne]; exact List.nodup_nil
      · obtain ⟨bs, h1, h2⟩ := hrow r b hr hne
        have hrl : r < T.length := by
          have := (List.getElem?_eq_some_iff.mp h1).1; rw [hB.length] at this; exact this
        have h3 := hB.part r _ bs (List.getElem?_eq_getElem hrl) h1
        have h4 : bs.flatten.Nodup := by rw [h3]; exact List.nodup_range' ..
        exact (List.nodup_flatten.mp h4).1 b (List.mem_of_getElem? h2)
    · rw [List.pairwise_iff_getElem]
      intro i j hi hj hij g hg1 hg2
      obtain ⟨bs, h1, h2⟩ := hrow i _ (List.getElem?_eq_getElem hi) (List.ne_nil_of_mem hg1)
      obtain ⟨bs', h3, h4⟩ := hrow j _ (List.getElem?_eq_getElem hj) (List.ne_nil_of_mem hg2)
      obtain ⟨f, s, g1, g2, g3⟩ := inBatch_fsa hB h1 h2 hg1
      obtain ⟨f', s', g4, g5, g6⟩ := inBatch_fsa hB h3 h4 hg2
      have := (off_inj T i j s s' f f' g1 g4 g2 g5 (by omega)).1
      omega

include hC in
theorem batches_nodup (is : List Nat) (his : is.Nodup) :
    (is.map (fun i => (C.map List.flatten).getD i [])).flatten.Nodup := by
  rw [List.nodup_flatten]
  constructor
  · intro b hb
    obtain ⟨i, _, rfl⟩ := List.mem_map.mp hb
    exact batch_nodup hB hC i
  · rw [List.pairwise_map]
    refine List.Pairwise.imp ?_ his
    intro a b hab g hg1 hg2
    exact hab (inBatch_unique hB ((mem_batch hC a g).mp hg1) ((mem_batch hC b g).mp hg2))

include hC in
theorem states_nodup : C.flatten.flatten.Nodup := by
  have h := batches_nodup hB hC (List.range C.length) List.nodup_range
  have he : (List.range C.length).map (fun i => (C.map List.flatten).getD i []) = C.map List.flatten := by
    apply List.ext_getElem?
    intro k
    by_cases hk : k < C.length
    · rw [List.getElem?_map, List.getElem?_range hk, List.getElem?_eq_getElem (by simpa using hk)]
      simp [hk]
    · rw [List.getElem?_eq_none (by simp; omega), List.getElem?_eq_none (by simp; omega)]
  rw [he, ← List.flatten_flatten] at h
  exact h

include hC in
theorem mem_states (g : Nat) : g ∈ C.flatten.flatten ↔ g < T.flatten.length := by
  constructor
  · intro h
    rw [List.flatten_flatten] at h
    obtain ⟨b, hb, hg⟩ := List.mem_flatten.mp h
    obtain ⟨k, hk⟩ := List.getElem?_of_mem hb
    refine inBatch_lt hB ((mem_batch hC k g).mp ?_)
    rw [List.getD_eq_getElem?_getD, hk]
    exact hg
  · intro h
    obtain ⟨k, hk⟩ := inBatch_exists hB g h
    have := (mem_batch hC k g).mpr hk
    rw [List.getD_eq_getElem?_getD] at this
    cases hq : (C.map List.flatten)[k]? with
    | none => rw [hq] at this; simp at this
    | some b =>
      rw [hq] at this
      rw [List.flatten_flatten]
      exact List.mem_flatten.mpr ⟨b, List.mem_of_getElem? hq, this⟩

include hC in
theorem states_perm : C.flatten.flatten.Perm (List.range T.flatten.length) :=
  (List.perm_ext_iff_of_nodup (states_nodup hB hC) List.nodup_range).mpr (fun g => by
    rw [mem_states hB hC, List.mem_range])

include hC in
theorem inBatch_lt_C {k g : Nat} (h : InBatch B k g) : k < C.length := by
  have := (mem_batch hC k g).mpr h
  by_contra hc
  rw [List.getD_eq_getElem?_getD, List.getElem?_eq_none (by simpa using hc)] at this
  simp at this
end

theorem rowsOf_perm (R : List (List Nat)) (states : List Nat) (h : states.Perm (List.range R.length)) :
    (rowsOf R states).flatten.length = R.flatten.length := by
  have h1 : (rowsOf R states).Perm (rowsOf R (List.range R.length)) := h.map _
  have h2 : rowsOf R (List.range R.length) = R := by
    apply List.ext_getElem?
    intro k
    by_cases hk : k < R.length
    · rw [rowsOf, List.getElem?_map, List.getElem?_range hk, getD_some R k hk]; rfl
    · rw [List.getElem?_eq_none (by simp [rowsOf]; omega), List.getElem?_eq_none (by omega)]
  rw [h2] at h1
  exact h1.flatten.length_eq

/-! ## Arcs of one FSA -/

/-- The number of arcs before FSA `r`. -/
def base (T : List (List (List X))) (r : Nat) : Nat := ((T.map (fun f => f.flatten.length)).take r).sum

/-- Arc `j` of FSA `r` is arc `base T r + j` of the vector. -/
theorem arc_local (T : List (List (List (Arc W)))) (hT : VecOk T) (dest : List Nat)
    (hde : destStates (flat T) = some dest) (r j : Nat) (f : List (List (Arc W))) (a : Arc W)
    (hf : T[r]? = some f) (ha : f.flatten[j]? = some a) :
    base T r + j < T.flatten.flatten.length ∧ T.flatten.flatten[base T r + j]? = some a ∧
      srcOf T (base T r + j) = off T r + a.src ∧ dest[base T r + j]? = some (off T r + a.dst) ∧
      a.src < f.length ∧ a.dst < f.length := by
  obtain ⟨dest', h1, h2, h3⟩ := destStates_spec T hT
  rw [hde] at h1
  obtain rfl := Option.some.inj h1
  have hjl := (List.getElem?_eq_some_iff.mp ha).1
  rw [List.length_flatten] at hjl
  obtain ⟨s, m, k, g1, g2, g3⟩ := ids_pos _ j hjl
  have hs : s < f.length := by have := (List.getElem?_eq_some_iff.mp g1).1; simpa using this
  have hrow := List.getElem?_eq_getElem hs
  generalize f[s] = row at hrow
  rw [List.getElem?_map, hrow, Option.map_some] at g1
  have g1' := Option.some.inj g1
  subst g1'
  have e1 := row_at f s k row hrow g2
  rw [← g3, ha] at e1
  have e2 := apos_local T r s f hf (by omega)
  have e3 : base T r + j = apos T (off T r + s) + k := by
    rw [e2, g3, base, lpos]; omega
  have hg := state_at T r s f hf hs
  rw [hrow] at hg
  have e4 := flat_arc T _ k row hg g2
  have hok := hT.at hf hrow a (List.mem_of_getElem? e1.symm)
  rw [← e1] at e4
  rw [e3]
  refine ⟨(List.getElem?_eq_some_iff.mp e4).1, e4, ?_, h3 r f s row k a hf hrow e1.symm, by omega, hok.2⟩
  rw [srcOf_apos T _ k row hg g2, hok.1]

theorem arc_global (T : List (List (List X))) (j : Nat) (hj : j < T.flatten.flatten.length) :
    ∃ (r : Nat) (f : List (List X)) (k : Nat) (a : X), T[r]? = some f ∧ f.flatten[k]? = some a ∧
      j = base T r + k := by
  rw [List.flatten_flatten, List.length_flatten] at hj
  obtain ⟨r, m, k, g1, g2, g3⟩ := ids_pos _ j hj
  have hr : r < T.length := by have := (List.getElem?_eq_some_iff.mp g1).1; simpa using this
  have hf := List.getElem?_eq_getElem hr
  rw [List.getElem?_map, List.getElem?_map, hf] at g1
  have g1' : T[r].flatten.length = m := Option.some.inj g1
  refine ⟨r, _, k, _, hf, List.getElem?_eq_getElem (by omega), ?_⟩
  rw [g3, base, List.map_map]
  rfl

theorem filter_range_map (A : List X) (p : X → Bool) (g : X → K) (h : Nat → K)
    (hh : ∀ (j : Nat) (a : X), A[j]? = some a → h j = g a) :
    ((List.range A.length).filter (fun j => (A[j]?.map p).getD false)).map h = (A.filter p).map g := by
  induction A using List.reverseRecOn with
  | nil => rfl
  | append_singleton A a ih =>
    have ih' := ih (fun j b hb => hh j b (by
      rw [List.getElem?_append_left (List.getElem?_eq_some_iff.mp hb).1, hb]))
    rw [List.length_append, List.length_singleton, List.range_succ, List.filter_append, List.map_append,
      List.filter_append, List.map_append, ← ih']
    congr 1
    · congr 1
      apply List.filter_congr
      intro j hj
      rw [List.getElem?_append_left (List.mem_range.mp hj)]
    · have e1 : (A ++ [a])[A.length]? = some a := by simp
      have e2 := hh A.length a e1
      simp only [List.filter_cons, List.filter_nil, e1, Option.map_some, Option.getD_some]
      cases p a <;> simp [e2]

/-- A set of arcs of the vector that consists of the arcs of an FSA with a property. -/
theorem arcs_perm (T : List (List (List (Arc W)))) (r : Nat) (f : List (List (Arc W))) (hf : T[r]? = some f)
    (row : List Nat) (hnd : row.Nodup) (p : Arc W → Bool)
    (hmem : ∀ j, j ∈ row ↔ ∃ k a, f.flatten[k]? = some a ∧ p a = true ∧ j = base T r + k) (h : Nat → K)
    (g : Arc W → K) (hh : ∀ (k : Nat) (a : Arc W), f.flatten[k]? = some a → h (base T r + k) = g a) :
    (row.map h).Perm ((f.flatten.filter p).map g) := by
  have e := filter_range_map f.flatten p g (fun k => h (base T r + k)) hh
  rw [← e]
  have e2 : ((List.range f.flatten.length).filter (fun j => (f.flatten[j]?.map p).getD false)).map
      (fun k => h (base T r + k)) =
      (((List.range f.flatten.length).filter (fun j => (f.flatten[j]?.map p).getD false)).map
        (base T r + ·)).map h := by rw [List.map_map]; rfl
  rw [e2]
  apply List.Perm.map
  refine (List.perm_ext_iff_of_nodup hnd ?_).mpr ?_
  · exact (List.Nodup.filter _ List.nodup_range).map (fun a b hab => by omega)
  · intro j
    rw [hmem, List.mem_map]
    constructor
    · rintro ⟨k, a, h1, h2, rfl⟩
      refine ⟨k, List.mem_filter.mpr ⟨List.mem_range.mpr (List.getElem?_eq_some_iff.mp h1).1, ?_⟩, rfl⟩
      rw [h1]; exact h2
    · rintro ⟨k, hk, rfl⟩
      obtain ⟨h1, h2⟩ := List.mem_filter.mp hk
      have h3 := List.getElem?_eq_getElem (List.mem_range.mp h1)
      rw [h3] at h2
      exact ⟨k, _, h3, h2, rfl⟩

theorem positions_nodup (vs : List Nat) (c : Nat) : (positions vs 0 c).Nodup := by
  unfold positions
  have h1 : ((vs.zipIdx 0).filter (fun p => p.1 == c)).map Prod.snd = _ := rfl
  refine List.Sublist.nodup (l₂ := (vs.zipIdx 0).map Prod.snd) (List.Sublist.map _ List.filter_sublist) ?_
  rw [List.zipIdx_map_snd]
  exact List.nodup_range' ..

end Verif.Fsa.Sco
