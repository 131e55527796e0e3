import Verif.Fsa.Shortest.Model
import Verif.Fsa.Scores.Fixed
import Mathlib.Order.BoundedOrder.Basic
import Mathlib.Order.Lattice

/-!
# The entering arcs are best arcs
-/

namespace Verif.Fsa.Best
open Verif.Ragged Verif.Util Verif.Fsa.Bat Verif.Fsa.Sco Verif.Fsa.Top
variable {W K : Type} [LinearOrder K] [OrderBot K]

theorem argMaxFrom_cases (l : List K) : ∀ (val : K) (idx : Option Nat) (k : Nat),
    (argMaxFrom val idx k l = idx ∧ ∀ x ∈ l, x < val) ∨
    ∃ i x, l[i]? = some x ∧ argMaxFrom val idx k l = some (k + i) ∧ val ≤ x ∧ ∀ y ∈ l, y ≤ x := by
  induction l with
  | nil => intro val idx k; left; exact ⟨rfl, by simp⟩
  | cons x l ih =>
    intro val idx k
    rw [argMaxFrom]
    split
    · next h0 =>
      right
      rcases ih x (some k) (k + 1) with ⟨h1, h2⟩ | ⟨i, y, h1, h2, h3, h4⟩
      · refine ⟨0, x, rfl, by rw [h1]; rfl, h0, ?_⟩
        intro y hy
        rcases List.mem_cons.mp hy with rfl | hy
        · exact le_refl _
        · exact le_of_lt (h2 y hy)
      · refine ⟨i + 1, y, by simpa using h1, by rw [h2]; congr 1; omega, le_trans h0 h3, ?_⟩
        intro z hz
        rcases List.mem_cons.mp hz with rfl | hz
        · exact h3
        · exact h4 z hz
    · next h0 =>
      have h0 := lt_of_not_ge h0
      rcases ih val idx (k + 1) with ⟨h1, h2⟩ | ⟨i, y, h1, h2, h3, h4⟩
      · left
        refine ⟨h1, ?_⟩
        intro y hy
        rcases List.mem_cons.mp hy with rfl | hy
        · exact h0
        · exact h2 y hy
      · right
        refine ⟨i + 1, y, by simpa using h1, by rw [h2]; congr 1; omega, h3, ?_⟩
        intro z hz
        rcases List.mem_cons.mp hz with rfl | hz
        · exact le_of_lt (lt_of_lt_of_le h0 h3)
        · exact h4 z hz

theorem reduceRow_max_le (l : List K) : ∀ b : K, b ≤ l.foldl (fun val elem => max elem val) b ∧
    (∀ x ∈ l, x ≤ l.foldl (fun val elem => max elem val) b) ∧
    (l.foldl (fun val elem => max elem val) b = b ∨ l.foldl (fun val elem => max elem val) b ∈ l) := by
  induction l with
  | nil => intro b; exact ⟨le_refl _, by simp, Or.inl rfl⟩
  | cons a l ih =>
    intro b
    rw [List.foldl_cons]
    obtain ⟨h1, h2, h3⟩ := ih (max a b)
    refine ⟨le_trans (le_max_right _ _) h1, ?_, ?_⟩
    · intro x hx
      rcases List.mem_cons.mp hx with rfl | hx
      · exact le_trans (le_max_left _ _) h1
      · exact h2 x hx
    · rcases h3 with h3 | h3
      · rw [h3]
        rcases le_total a b with h | h
        · left; exact max_eq_right h
        · right; rw [max_eq_left h]; exact List.mem_cons_self
      · right; exact List.mem_cons_of_mem _ h3

theorem reduceRow_max_perm (l l' : List K) (h : l.Perm l') : reduceRow max ⊥ l = reduceRow max (⊥ : K) l' := by
  unfold reduceRow
  obtain ⟨_, h2, h3⟩ := reduceRow_max_le l (⊥ : K)
  obtain ⟨_, g2, g3⟩ := reduceRow_max_le l' (⊥ : K)
  apply le_antisymm
  · rcases h3 with h3 | h3
    · rw [h3]; exact bot_le
    · exact g2 _ (h.mem_iff.mp h3)
  · rcases g3 with g3 | g3
    · rw [g3]; exact bot_le
    · exact h2 _ (h.mem_iff.mpr g3)

theorem reduceRow_max_eq (l : List K) (x : K) (hx : x ∈ l) (hm : ∀ y ∈ l, y ≤ x) : reduceRow max ⊥ l = x := by
  unfold reduceRow
  obtain ⟨_, h2, h3⟩ := reduceRow_max_le l (⊥ : K)
  apply le_antisymm
  · rcases h3 with h3 | h3
    · rw [h3]; exact bot_le
    · exact hm _ h3
  · exact h2 x hx

/-- `e` is an arc of `row` of the greatest value. -/
def ArgOk (row : List Nat) (val : Nat → K) (e : Option Nat) : Prop :=
  (e = none → row = []) ∧ ∀ j, e = some j → j ∈ row ∧ ∀ j' ∈ row, val j' ≤ val j

theorem ArgOk.congr {row : List Nat} {val val' : Nat → K} {e : Option Nat} (h : ArgOk row val e)
    (hv : ∀ j ∈ row, val j = val' j) : ArgOk row val' e := by
  refine ⟨h.1, fun j hj => ?_⟩
  obtain ⟨h1, h2⟩ := h.2 j hj
  refine ⟨h1, fun j' hj' => ?_⟩
  rw [← hv j h1, ← hv j' hj']
  exact h2 j' hj'

theorem batchBest_eq (R : List (List Nat)) (pre b post : List Nat) (val : Nat → K) :
    ∃ ee : Nat → Option Nat, (∀ s ∈ b, ArgOk (R.getD s []) val (ee s)) ∧
    batchBest ⊥ (pre ++ (b ++ post)) (psum ((rowsOf R (pre ++ (b ++ post))).map List.length))
      (rowsOf R (pre ++ (b ++ post))).flatten
      pre.length (pre ++ b).length ((rowsOf R pre).flatten.length) (((rowsOf R b).flatten).map val) =
      some (b.map (fun s => (s, ee s, reduceRow max ⊥ ((R.getD s []).map val)))) := by
  have hsplit : ∀ p ≤ b.length, localSplit (psum ((rowsOf R (pre ++ (b ++ post))).map List.length))
      pre.length ((rowsOf R pre).flatten.length) p = some ((((rowsOf R b).map List.length).take p).sum) := by
    intro p hp
    unfold localSplit
    split
    · next h0 => subst h0; simp
    · next h0 =>
      have e1 := psum_get ((rowsOf R (pre ++ (b ++ post))).map List.length) (pre.length + p) (by
        simp [rowsOf]; omega)
      rw [e1]
      simp only [Option.bind_eq_bind, Option.bind_some]
      congr 1
      have e2 : (rowsOf R (pre ++ (b ++ post))).map List.length =
          (rowsOf R pre).map List.length ++ ((rowsOf R b).map List.length ++ (rowsOf R post).map List.length) := by
        simp [rowsOf]
      have e3 : pre.length = ((rowsOf R pre).map List.length).length := by simp [rowsOf]
      rw [e2, e3, List.take_length_add_append, List.take_append_of_le_length (by simp [rowsOf]; omega),
        List.sum_append, List.length_flatten, Nat.add_sub_cancel_left]
  have hrows : rowsOf R (pre ++ (b ++ post)) = rowsOf R pre ++ (rowsOf R b ++ rowsOf R post) := by
    simp [rowsOf]
  -- the best arc of a row: the last one of the greatest value
  refine ⟨fun s => (argMaxFrom ⊥ none 0 ((R.getD s []).map val)).bind (fun i => (R.getD s [])[i]?), ?_, ?_⟩
  · intro s _
    show ArgOk (R.getD s []) val ((argMaxFrom ⊥ none 0 ((R.getD s []).map val)).bind (fun i => (R.getD s [])[i]?))
    rcases argMaxFrom_cases ((R.getD s []).map val) ⊥ none 0 with ⟨h1, h2⟩ | ⟨i, x, h1, h2, _, h4⟩
    · have hnil : R.getD s [] = [] := by
        rw [List.eq_nil_iff_forall_not_mem]
        intro j hj
        exact not_lt_bot (h2 (val j) (List.mem_map.mpr ⟨j, hj, rfl⟩))
      rw [h1]
      exact ⟨fun _ => hnil, fun j hj => by simp at hj⟩
    · rw [h2, Nat.zero_add]
      rw [List.getElem?_map] at h1
      cases hi : (R.getD s [])[i]? with
      | none => rw [hi] at h1; simp at h1
      | some j =>
        rw [hi] at h1
        have h1 : val j = x := Option.some.inj h1
        simp only [Option.bind_some, hi]
        refine ⟨fun h => by simp at h, fun j' hj' => ?_⟩
        obtain rfl := Option.some.inj hj'
        refine ⟨List.mem_of_getElem? hi, fun k hk => ?_⟩
        rw [h1]
        exact h4 _ (List.mem_map.mpr ⟨k, hk, rfl⟩)
  unfold batchBest
  apply mapM_some_of
  · simp
  · intro i p hp
    obtain ⟨hlt, hp⟩ := List.getElem?_eq_some_iff.mp hp
    rw [List.getElem_range] at hp; subst hp
    rw [List.length_range, List.length_append, Nat.add_sub_cancel_left] at hlt
    have e1 := hsplit i (by omega)
    have e2 := hsplit (i + 1) (by omega)
    have hb := List.getElem?_eq_getElem hlt
    generalize b[i] = s at hb
    have hQ : (rowsOf R b)[i]? = some (R.getD s []) := by rw [rowsOf, List.getElem?_map, hb]; rfl
    have e3 : (pre ++ (b ++ post))[pre.length + i]? = some s := by
      rw [List.getElem?_append_right (by omega), Nat.add_sub_cancel_left, List.getElem?_append_left hlt, hb]
    rw [take_succ_sum ((rowsOf R b).map List.length) i (R.getD s []).length (by
      rw [List.getElem?_map, hQ]; rfl)] at e2
    simp only [e1, e2, e3, Option.bind_eq_bind, Option.bind_some, Nat.add_sub_cancel_left]
    have hslice := row_slice _ _ _ hQ
    generalize (((rowsOf R b).map List.length).take i).sum = lo at hslice
    rw [List.getElem?_map, hb, ← List.map_drop, ← List.map_take, hslice, Option.map_some]
    -- the same row with indexes from lo
    rcases argMaxFrom_cases ((R.getD s []).map val) ⊥ none 0 with ⟨h1, h2⟩ | ⟨k, x, h1, h2, _, h4⟩
    · have hnil : R.getD s [] = [] := by
        rw [List.eq_nil_iff_forall_not_mem]
        intro j hj
        exact not_lt_bot (h2 (val j) (List.mem_map.mpr ⟨j, hj, rfl⟩))
      rw [hnil]
      rfl
    · have hshift : ∀ (l : List K) (v0 : K) (idx : Option Nat) (k0 : Nat),
          argMaxFrom v0 (idx.map (lo + ·)) (lo + k0) l = (argMaxFrom v0 idx k0 l).map (lo + ·) := by
        intro l
        induction l with
        | nil => intro v0 idx k0; rfl
        | cons y l ih =>
          intro v0 idx k0
          rw [argMaxFrom, argMaxFrom]
          split
          · exact ih y (some k0) (k0 + 1)
          · exact ih v0 idx (k0 + 1)
      have e4 := hshift ((R.getD s []).map val) ⊥ none 0
      rw [h2, Nat.zero_add, Option.map_none, Option.map_some, Nat.add_zero] at e4
      have hk0 : k < (R.getD s []).length := by
        have := (List.getElem?_eq_some_iff.mp h1).1
        rwa [List.length_map] at this
      have hj := List.getElem?_eq_getElem hk0
      have hx : val (R.getD s [])[k] = x := by
        rw [List.getElem?_map, hj] at h1
        exact Option.some.inj h1
      have hrow : (rowsOf R b).flatten[lo + k]? = some (R.getD s [])[k] := by
        rw [← hj]
        conv_rhs => rw [← hslice]
        rw [List.getElem?_take_of_lt hk0, List.getElem?_drop]
      have hloc : lo + k < (rowsOf R b).flatten.length := (List.getElem?_eq_some_iff.mp hrow).1
      have e5 : (rowsOf R (pre ++ (b ++ post))).flatten[(rowsOf R pre).flatten.length + (lo + k)]? =
          some (R.getD s [])[k] := by
        rw [hrows, List.flatten_append, List.flatten_append, List.getElem?_append_right (by omega),
          Nat.add_sub_cancel_left, List.getElem?_append_left hloc, hrow]
      have e6 : ((rowsOf R b).flatten.map val)[lo + k]? = some x := by
        rw [List.getElem?_map, hrow, Option.map_some, hx]
      rw [e4, h2, Nat.zero_add]
      simp only [bestArc, e5, e6, Option.bind_eq_bind, Option.bind_some, Option.map_some]
      rw [hj, reduceRow_max_eq _ x (List.mem_map.mpr ⟨_, List.getElem_mem hk0, hx⟩) h4]

section
variable (v : FsaVec W) (mul : K → W → K) (other : Nat → Option Nat) (keep : Nat → Option Bool)

/-- One batch: scores as in `sweepBatch` with the maximum, and best arcs. -/
theorem sweepBest_eq (R : List (List Nat)) (C : List (List (List Nat))) (i : Nat) (b : List Nat)
    (hb : (C.map List.flatten)[i]? = some b) (hbn : b.Nodup) (cur : List K) (ent : List (Option Nat))
    (kp : Nat → Bool) (hel : ent.length = cur.length)
    (hlt : ∀ g ∈ b, g < cur.length) (hkeep : ∀ g ∈ b, keep g = some (kp g))
    (val : Nat → K)
    (hval : ∀ g ∈ b, ∀ j ∈ R.getD g [], arcValue v mul other cur j = some (val j)) :
    ∃ out ent', sweepBest v mul ⊥ other keep (fullLayers 2 (C : List (Nest Nat 2))) C.flatten.flatten
        (psum ((rowsOf R C.flatten.flatten).map List.length), (rowsOf R C.flatten.flatten).flatten) (cur, ent) i =
        some (out, ent') ∧
      sweepBatch v mul max ⊥ other keep (fullLayers 2 (C : List (Nest Nat 2))) C.flatten.flatten
        (psum ((rowsOf R C.flatten.flatten).map List.length), (rowsOf R C.flatten.flatten).flatten) cur i =
        some out ∧ ent'.length = ent.length ∧
      (∀ g ∈ b, ∃ e, ent'[g]? = some e ∧ ArgOk (R.getD g []) val e) ∧
      ∀ g, g ∉ b → ent'[g]? = ent[g]? := by
  obtain ⟨pre, post, hC, e1⟩ := batchValues_eq v mul other R C i b hb cur val hval
  obtain ⟨out, h1, _⟩ := copyScores_eq ⊥ keep b hbn cur kp hlt hkeep
    (fun g => reduceRow max ⊥ ((R.getD g []).map val))
  obtain ⟨ee, g1, g2⟩ := batchBest_eq R pre b post val
  have hfst : (b.map (fun s => (s, ee s))).map Prod.fst = b := by
    rw [List.map_map]
    exact List.map_id b
  obtain ⟨ent', k1, k2, k3, k4⟩ := writeAll_eq ent (b.map (fun s => (s, ee s))) (by rw [hfst]; exact hbn) (by
    intro w hw
    obtain ⟨s, hs, rfl⟩ := List.mem_map.mp hw
    rw [hel]
    exact hlt s hs)
  refine ⟨out, ent', ?_, ?_, k2, ?_, ?_⟩
  · unfold sweepBest
    simp only [e1, Option.bind_eq_bind, Option.bind_some]
    rw [hC, g2]
    simp only [Option.bind_some, List.map_map]
    have e7 : b.map ((fun x : Nat × Option Nat × K => (x.1, x.2.1)) ∘
        (fun s => (s, ee s, reduceRow max ⊥ ((R.getD s []).map val)))) = b.map (fun s => (s, ee s)) := rfl
    have e8 : b.map ((fun x : Nat × Option Nat × K => (x.1, x.2.2)) ∘
        (fun s => (s, ee s, reduceRow max ⊥ ((R.getD s []).map val)))) =
        b.map (fun s => (s, reduceRow max ⊥ ((R.getD s []).map val))) := rfl
    rw [e7, e8, k1, h1]
    rfl
  · unfold sweepBatch
    rw [e1]
    have e6 := batchScores_eq max ⊥ R pre b post val
    rw [hC]
    simp only [Option.bind_eq_bind, Option.bind_some, e6]
    exact h1
  · intro g hg
    exact ⟨ee g, k3 g _ (List.mem_map.mpr ⟨g, hg, rfl⟩), g1 g hg⟩
  · intro g hg
    exact k4 g (by rw [hfst]; exact hg)

/-- All batches. -/
theorem sweepBest_all (R : List (List Nat)) (C : List (List (List Nat))) (n : Nat) (oth : Nat → Nat)
    (m : K → Nat → K) (kp : Nat → Bool) (hkeep : ∀ g < n, keep g = some (kp g))
    (harc : ∀ g < n, ∀ j ∈ R.getD g [], ∃ a, v.arcs[j]? = some a ∧ (∀ x, mul x a.score = m x j) ∧
      other j = some (oth j) ∧ oth j < n) :
    ∀ (is : List Nat) (P : List Nat) (cur : List K) (ent : List (Option Nat)),
      (∀ i ∈ is, i < C.length) →
      (P ++ (is.map (fun i => (C.map List.flatten).getD i [])).flatten).Nodup →
      (∀ g ∈ (is.map (fun i => (C.map List.flatten).getD i [])).flatten, g < n) →
      (∀ (is1 is2 : List Nat) (i : Nat), is = is1 ++ i :: is2 → ∀ g ∈ (C.map List.flatten).getD i [],
        ∀ j ∈ R.getD g [], oth j ∈ P ++ (is1.map (fun i => (C.map List.flatten).getD i [])).flatten) →
      cur.length = n → ent.length = n →
      (∀ g ∈ P, ∃ e, ent[g]? = some e ∧ ArgOk (R.getD g []) (fun j => m (cur.getD (oth j) ⊥) j) e) →
      (∀ g ∈ P, ∀ j ∈ R.getD g [], oth j ∈ P) →
      ∃ out ent', is.foldlM (fun st i => sweepBest v mul ⊥ other keep (fullLayers 2 (C : List (Nest Nat 2)))
          C.flatten.flatten (psum ((rowsOf R C.flatten.flatten).map List.length),
            (rowsOf R C.flatten.flatten).flatten) st i) (cur, ent) = some (out, ent') ∧
        is.foldlM (fun cur i => sweepBatch v mul max ⊥ other keep (fullLayers 2 (C : List (Nest Nat 2)))
          C.flatten.flatten (psum ((rowsOf R C.flatten.flatten).map List.length),
            (rowsOf R C.flatten.flatten).flatten) cur i) cur = some out ∧ ent'.length = n ∧
        (∀ g ∈ P ++ (is.map (fun i => (C.map List.flatten).getD i [])).flatten,
          ∃ e, ent'[g]? = some e ∧ ArgOk (R.getD g []) (fun j => m (out.getD (oth j) ⊥) j) e) := by
  intro is
  induction is with
  | nil =>
    intro P cur ent _ _ _ _ _ hel hP _
    exact ⟨cur, ent, rfl, rfl, hel, by simpa using hP⟩
  | cons i is ih =>
    intro P cur ent hi hnd hlt hdep hlen hel hP hcl
    have hil := hi i List.mem_cons_self
    have hb : (C.map List.flatten)[i]? = some ((C.map List.flatten).getD i []) := by
      rw [List.getD_eq_getElem?_getD, List.getElem?_eq_getElem (by simpa using hil)]; rfl
    generalize hbe : (C.map List.flatten).getD i [] = b at hb
    rw [List.map_cons, List.flatten_cons, hbe, ← List.append_assoc] at hnd
    have hPb := (List.nodup_append.mp hnd).1
    obtain ⟨_, hbn, hdis⟩ := List.nodup_append.mp hPb
    have hbl : ∀ g ∈ b, g < n := fun g hg => hlt g (by
      rw [List.map_cons, List.flatten_cons, hbe]; exact List.mem_append_left _ hg)
    have hsrc : ∀ g ∈ b, ∀ j ∈ R.getD g [], oth j ∈ P := by
      intro g hg j hj
      have := hdep [] is i rfl g (by rw [hbe]; exact hg) j hj
      simpa using this
    have hval : ∀ g ∈ b, ∀ j ∈ R.getD g [], arcValue v mul other cur j =
        some ((fun j => m (cur.getD (oth j) ⊥) j) j) := by
      intro g hg j hj
      obtain ⟨a, e1, e2, e3, e4⟩ := harc g (hbl g hg) j hj
      have e5 : cur[oth j]? = some (cur.getD (oth j) ⊥) := by
        rw [List.getD_eq_getElem?_getD, List.getElem?_eq_getElem (by omega)]; rfl
      unfold arcValue
      simp only [e1, e2, e3, e5, Option.bind_eq_bind, Option.bind_some]
    obtain ⟨out, ent1, h1, h2, h3, h4, h5⟩ := sweepBest_eq v mul other keep R C i b hb hbn cur ent kp
      (by omega) (by rw [hlen]; exact hbl) (fun g hg => hkeep g (hbl g hg)) _ hval
    obtain ⟨out', i1, i2, i3, i4⟩ := sweepBatch_eq v mul max ⊥ other keep R C i b hb hbn cur kp
      (by rw [hlen]; exact hbl) (fun g hg => hkeep g (hbl g hg)) _ hval
    rw [h2] at i1
    obtain rfl := Option.some.inj i1
    have hsame : ∀ g, g ∉ b → out.getD g ⊥ = cur.getD g ⊥ := by
      intro g hg
      rw [List.getD_eq_getElem?_getD, List.getD_eq_getElem?_getD, i4 g hg]
    have hPnb : ∀ g ∈ P, g ∉ b := fun g hg hc => hdis g hg g hc rfl
    obtain ⟨fin, entf, g1, g2, g3, g4⟩ := ih (P ++ b) out ent1 (fun i' hi' => hi i' (List.mem_cons_of_mem _ hi')) hnd
      (fun g hg => hlt g (by
        rw [List.map_cons, List.flatten_cons]; exact List.mem_append_right _ hg))
      (by
        intro is1 is2 i' he g hg j hj
        have := hdep (i :: is1) is2 i' (by rw [he]; rfl) g hg j hj
        rw [List.map_cons, List.flatten_cons, hbe, ← List.append_assoc] at this
        exact this)
      (by omega) (by omega)
      (by
        intro g hg
        rcases List.mem_append.mp hg with hg | hg
        · obtain ⟨e, k1, k2⟩ := hP g hg
          refine ⟨e, by rw [h5 g (hPnb g hg)]; exact k1, k2.congr ?_⟩
          intro j hj
          rw [hsame _ (hPnb _ (hcl g hg j hj))]
        · obtain ⟨e, k1, k2⟩ := h4 g hg
          refine ⟨e, k1, k2.congr ?_⟩
          intro j hj
          rw [hsame _ (hPnb _ (hsrc g hg j hj))])
      (by
        intro g hg j hj
        rcases List.mem_append.mp hg with hg | hg
        · exact List.mem_append_left _ (hcl g hg j hj)
        · exact List.mem_append_left _ (hsrc g hg j hj))
    refine ⟨fin, entf, ?_, ?_, g3, ?_⟩
    · rw [List.foldlM_cons, h1]
      exact g1
    · rw [List.foldlM_cons, h2]
      exact g2
    · intro g hg
      apply g4
      rw [List.map_cons, List.flatten_cons, hbe, ← List.append_assoc] at hg
      exact hg
end

end Verif.Fsa.Best
