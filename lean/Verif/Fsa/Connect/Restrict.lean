import Verif.Fsa.Connect.Model
import Verif.Fsa.Vec.Lemmas

/-!
Restricting a vector of FSAs to some of its states, FSA by FSA.
-/

namespace Verif.Fsa
open Verif.Ragged Verif.Util
variable {W X Y : Type}

/-! ## The result for one FSA -/

/-- State `s` is kept. -/
def kept (k : List Bool) (s : Nat) : Bool := k.getD s false

/-- Both ends of the arc are kept. -/
def arcKept (k : List Bool) (a : Arc W) : Bool := kept k a.src && kept k a.dst

/-- The arc between the new numbers of its states. -/
def renArc (k : List Bool) (a : Arc W) : Arc W := ⟨rank k a.src, rank k a.dst, a.label, a.score⟩

/-- The arcs of one state after the restriction. -/
def restrictRow (k : List Bool) (row : List (Arc W)) : List (Arc W) :=
  (row.filter (arcKept k)).map (renArc k)

/-- An FSA restricted to the states with flag `true`. -/
def restrictFsa (k : List Bool) (f : List (List (Arc W))) : List (List (Arc W)) :=
  sel k (f.map (restrictRow k))

/-- Which arcs of an FSA are kept. -/
def arcFlagsOf (k : List Bool) (f : List (List (Arc W))) : List (List Bool) :=
  f.map (fun row => row.map (arcKept k))

/-! ## Lemmas on flags -/

theorem sel_length_filter (k : List Bool) (l : List X) (h : k.length = l.length) :
    (sel k l).length = (k.filter id).length := by
  induction k generalizing l with
  | nil => simp [sel]
  | cons b k ih =>
    cases l with
    | nil => simp at h
    | cons x l =>
      have := ih l (by simpa using h)
      cases b <;> simp [sel, this]

theorem mapM_sel (keep : List Bool) (idx : List Nat) (out : List X) (g : Nat → Option X)
    (h1 : idx.length = keep.length) (h2 : out.length = keep.length)
    (h : ∀ (i j : Nat), keep[i]? = some true → idx[i]? = some j → g j = out[i]?) :
    (sel keep idx).mapM g = some (sel keep out) := by
  induction keep generalizing idx out with
  | nil => simp [sel]
  | cons b keep ih =>
    cases idx with
    | nil => simp at h1
    | cons j idx =>
      cases out with
      | nil => simp at h2
      | cons y out =>
        have := ih idx out (by simpa using h1) (by simpa using h2) (fun i j' h3 h4 => by
          have := h (i + 1) j' (by simpa using h3) (by simpa using h4)
          simpa using this)
        cases b with
        | false => simpa [sel] using this
        | true =>
          have h0 := h 0 j rfl rfl
          simp only [List.getElem?_cons_zero] at h0
          simp [sel, this, h0]

theorem rank_append (k l : List Bool) (i : Nat) :
    rank (k ++ l) (k.length + i) = (k.filter id).length + rank l i := by
  unfold rank
  rw [List.take_append, List.take_of_length_le (by omega), Nat.add_sub_cancel_left, List.map_append,
    List.sum_append]
  congr 1
  induction k with
  | nil => rfl
  | cons b k ih => cases b <;> simp [ih] <;> omega

theorem rank_append_lt (k l : List Bool) (i : Nat) (h : i ≤ k.length) : rank (k ++ l) i = rank k i := by
  unfold rank
  rw [List.take_append_of_le_length h]

theorem rank_lt (k : List Bool) (i : Nat) (h : k[i]? = some true) : rank k i < (k.filter id).length := by
  have h1 := sel_length k (List.range k.length) (by simp)
  rw [sel_length_filter _ _ (by simp)] at h1
  have h2 := sel_get k (List.range k.length) i (by simp) h
  have hi := (List.getElem?_eq_some_iff.mp h).1
  rw [List.getElem?_range hi] at h2
  have := (List.getElem?_eq_some_iff.mp h2).1
  rw [sel_length_filter _ _ (by simp)] at this
  exact this

theorem kept_iff (k : List Bool) (s : Nat) : kept k s = true ↔ k[s]? = some true := by
  unfold kept
  rw [List.getD_eq_getElem?_getD]
  cases h : k[s]? with
  | none => simp
  | some b => simp

/-! ## The vector -/

section
variable (P : List (List Bool × List (List (Arc W))))

/-- The new FSAs. -/
def newVec : List (List (List (Arc W))) := P.map (fun p => restrictFsa p.1 p.2)

theorem keep_at (hl : ∀ p ∈ P, p.1.length = p.2.length) (r s : Nat) (p : List Bool × List (List (Arc W)))
    (hp : P[r]? = some p) (hs : s < p.2.length) :
    (P.map Prod.fst).flatten[off (P.map Prod.snd) r + s]? = p.1[s]? := by
  have hlen : (P.map Prod.fst).map List.length = (P.map Prod.snd).map List.length := by
    rw [List.map_map, List.map_map]; apply List.map_congr_left; intro q hq; exact hl q hq
  have := row_at (P.map Prod.fst) r s p.1 (by rw [List.getElem?_map, hp]; rfl)
    (by rw [hl p (List.mem_of_getElem? hp)]; exact hs)
  rw [hlen] at this
  exact this

theorem rank_at (hl : ∀ p ∈ P, p.1.length = p.2.length) (r s : Nat) (p : List Bool × List (List (Arc W)))
    (hp : P[r]? = some p) (hs : s < p.2.length) :
    rank (P.map Prod.fst).flatten (off (P.map Prod.snd) r + s) = off (newVec P) r + rank p.1 s := by
  induction P generalizing r with
  | nil => simp at hp
  | cons q P ih =>
    have hq := hl q (List.mem_cons_self ..)
    cases r with
    | zero =>
      simp only [List.getElem?_cons_zero, Option.some.injEq] at hp
      subst hp
      simp only [off, List.take_zero, List.sum_nil, Nat.zero_add, List.map_cons, List.flatten_cons]
      rw [rank_append_lt _ _ _ (by omega)]
    | succ r =>
      rw [List.getElem?_cons_succ] at hp
      have := ih (fun p hp => hl p (List.mem_cons_of_mem _ hp)) r hp
      have h1 : off ((q :: P).map Prod.snd) (r + 1) = q.1.length + off (P.map Prod.snd) r := by
        simp [off, hq]
      have h2 : off (newVec (q :: P)) (r + 1) = (q.1.filter id).length + off (newVec P) r := by
        simp only [off, newVec, List.map_cons, List.take_succ_cons, List.sum_cons]
        rw [restrictFsa, sel_length_filter _ _ (by rw [List.length_map]; exact hq)]
      rw [h1, h2, List.map_cons, List.flatten_cons, Nat.add_assoc, rank_append, this]
      omega

theorem keepArcs_eq (hl : ∀ p ∈ P, p.1.length = p.2.length) (hT : VecOk (P.map Prod.snd)) :
    keepArcs (flat (P.map Prod.snd)) (P.map Prod.fst).flatten =
      some (P.map (fun p => arcFlagsOf p.1 p.2)).flatten.flatten := by
  have hlen : (P.map (fun p => arcFlagsOf p.1 p.2)).flatten.map List.length =
      (P.map Prod.snd).flatten.map List.length := by
    rw [List.map_flatten, List.map_flatten, List.map_map, List.map_map]
    congr 1
    apply List.map_congr_left
    intro p _
    simp [arcFlagsOf]
  unfold keepArcs
  apply mapM_some_of
  · rw [List.length_range, List.length_flatten, hlen, ← List.length_flatten]; rfl
  intro i b hb
  obtain ⟨hlt, hb⟩ := List.getElem?_eq_some_iff.mp hb
  rw [List.getElem_range] at hb; subst hb; rw [List.length_range] at hlt
  obtain ⟨r, f, s, row, k, hf, hs, hk, rfl⟩ := arc_pos _ i hlt
  have hp : ∃ p, P[r]? = some p ∧ p.2 = f := by
    rw [List.getElem?_map] at hf
    cases h : P[r]? with
    | none => rw [h] at hf; simp at hf
    | some p => rw [h] at hf; exact ⟨p, rfl, Option.some.inj hf⟩
  obtain ⟨p, hp, rfl⟩ := hp
  have hsl := (List.getElem?_eq_some_iff.mp hs).1
  have hg := state_at _ r s _ hf hsl
  rw [hs] at hg
  have ha := List.getElem?_eq_getElem hk
  have hok := hT.at hf hs _ (List.getElem_mem hk)
  have f1 : (flat (P.map Prod.snd)).arcs[apos (P.map Prod.snd) (off (P.map Prod.snd) r + s) + k]? = some row[k] := by
    rw [← ha]; exact flat_arc _ _ k row hg hk
  have f2 := flat_id2 _ _ k row hg hk
  have f3 := keep_at P hl r s p hp hsl
  have f4 := keep_at P hl r _ p hp hok.2
  have hpl := hl p (List.mem_of_getElem? hp)
  have f5 : row[k].dst + (off (P.map Prod.snd) r + s - s) = off (P.map Prod.snd) r + row[k].dst := by
    omega
  have hR : (P.map (fun p => arcFlagsOf p.1 p.2)).flatten.flatten[apos (P.map Prod.snd)
      (off (P.map Prod.snd) r + s) + k]? = some (arcKept p.1 row[k]) := by
    have hoff : off (P.map (fun p => arcFlagsOf p.1 p.2)) r = off (P.map Prod.snd) r := by
      unfold off
      congr 2
      rw [List.map_map, List.map_map]; apply List.map_congr_left; intro q _; simp [arcFlagsOf]
    have hapos : ∀ g, apos (P.map (fun p => arcFlagsOf p.1 p.2)) g = apos (P.map Prod.snd) g := by
      intro g; unfold apos; rw [hlen]
    have hg' := state_at (P.map (fun p => arcFlagsOf p.1 p.2)) r s (arcFlagsOf p.1 p.2)
      (by rw [List.getElem?_map, hp]; rfl) (by simp [arcFlagsOf]; exact hsl)
    rw [hoff, arcFlagsOf, List.getElem?_map, hs] at hg'
    have := flat_arc _ _ k _ hg' (by rw [List.length_map]; exact hk)
    rw [hapos] at this
    rw [this, List.getElem?_map, ha]; rfl
  show (do
    let a ← (flat (P.map Prod.snd)).arcs[apos (P.map Prod.snd) (off (P.map Prod.snd) r + s) + k]?
    let s ← (flat (P.map Prod.snd)).id2[apos (P.map Prod.snd) (off (P.map Prod.snd) r + s) + k]?
    let k1 ← (P.map Prod.fst).flatten[s]?
    let k2 ← (P.map Prod.fst).flatten[a.dst + (s - a.src)]?
    some (k1 && k2)) = (P.map (fun p => arcFlagsOf p.1 p.2)).flatten.flatten[apos (P.map Prod.snd)
      (off (P.map Prod.snd) r + s) + k]?
  rw [List.getElem?_eq_getElem (show s < p.1.length by omega)] at f3
  rw [List.getElem?_eq_getElem (show row[k].dst < p.1.length by rw [hpl]; exact hok.2)] at f4
  simp only [f1, f2, hok.1, f5, f3, f4, Option.bind_eq_bind, Option.bind_some, hR, Option.some.injEq, arcKept,
    kept]
  rw [List.getD_eq_getElem?_getD, List.getD_eq_getElem?_getD,
    List.getElem?_eq_getElem (show s < p.1.length by omega),
    List.getElem?_eq_getElem (show row[k].dst < p.1.length by rw [hpl]; exact hok.2)]
  rfl

/-- The rows of all states, kept or not, after the restriction of the arcs. -/
def allRows : List (List (Arc W)) := (P.map (fun p => p.2.map (restrictRow p.1))).flatten

theorem newVec_flatten (hl : ∀ p ∈ P, p.1.length = p.2.length) :
    (newVec P).flatten = sel (P.map Prod.fst).flatten (allRows P) := by
  unfold allRows newVec
  rw [sel_flatten_rows]
  · congr 1
    rw [List.zipWith_map]
    induction P with
    | nil => rfl
    | cons p P ih =>
      rw [List.map_cons, List.zipWith_cons_cons, ih (fun p hp => hl p (List.mem_cons_of_mem _ hp))]
      rfl
  · rw [List.map_map, List.map_map]; apply List.map_congr_left; intro q hq
    simpa using hl q hq

theorem allRows_unkept (hl : ∀ p ∈ P, p.1.length = p.2.length) (hT : VecOk (P.map Prod.snd)) (g : Nat)
    (hg : (P.map Prod.fst).flatten[g]? = some false) : (allRows P)[g]? = some [] := by
  have hlen : (P.map Prod.fst).flatten.length = (P.map Prod.snd).flatten.length := by
    rw [List.length_flatten, List.length_flatten, List.map_map, List.map_map]
    congr 1; apply List.map_congr_left; intro q hq; exact hl q hq
  have hlt := (List.getElem?_eq_some_iff.mp hg).1
  rw [hlen] at hlt
  obtain ⟨r, f, s, hf, hs, rfl⟩ := state_pos _ g hlt
  have hp : ∃ p, P[r]? = some p ∧ p.2 = f := by
    rw [List.getElem?_map] at hf
    cases h : P[r]? with
    | none => rw [h] at hf; simp at hf
    | some p => rw [h] at hf; exact ⟨p, rfl, Option.some.inj hf⟩
  obtain ⟨p, hp, rfl⟩ := hp
  have h1 := keep_at P hl r s p hp hs
  rw [hg] at h1
  have hoff : off (P.map (fun p => p.2.map (restrictRow p.1))) r = off (P.map Prod.snd) r := by
    unfold off
    congr 2
    rw [List.map_map, List.map_map]; apply List.map_congr_left; intro q _; simp
  have hg' := state_at (P.map (fun p => p.2.map (restrictRow p.1))) r s (p.2.map (restrictRow p.1))
    (by rw [List.getElem?_map, hp]; rfl) (by rw [List.length_map]; exact hs)
  rw [hoff, List.getElem?_map, List.getElem?_eq_getElem hs] at hg'
  unfold allRows
  rw [hg', Option.map_some, Option.some.injEq, restrictRow, List.map_eq_nil_iff, List.filter_eq_nil_iff]
  intro a ha
  have hok := hT.at hf (List.getElem?_eq_getElem hs) a ha
  simp only [arcKept, hok.1]
  have : kept p.1 s = false := by
    rw [← Bool.not_eq_true, kept_iff, ← h1]; simp
  simp [this]

theorem allRows_lengths :
    (allRows P).map List.length =
      ((P.map (fun p => arcFlagsOf p.1 p.2)).flatten.map (List.filter id)).map List.length := by
  unfold allRows
  rw [List.map_flatten, List.map_flatten, List.map_flatten, List.map_map, List.map_map, List.map_map]
  congr 1
  apply List.map_congr_left
  intro p _
  simp only [Function.comp_apply, arcFlagsOf, List.map_map]
  apply List.map_congr_left
  intro row _
  simp only [Function.comp_apply, restrictRow, List.length_map, List.filter_map, Function.id_comp]

theorem allRows_flatten :
    (allRows P).flatten = sel (P.map (fun p => arcFlagsOf p.1 p.2)).flatten.flatten
      (P.map (fun p => p.2.map (fun row => row.map (renArc p.1)))).flatten.flatten := by
  unfold allRows
  induction P with
  | nil => rfl
  | cons p P ih =>
    simp only [List.map_cons, List.flatten_cons, List.flatten_append]
    rw [sel_append _ _ _ _ (by
      rw [List.length_flatten, List.length_flatten]; congr 1
      simp only [arcFlagsOf, List.map_map]
      apply List.map_congr_left; intro row _; simp), ih]
    congr 1
    unfold arcFlagsOf
    induction p.2 with
    | nil => rfl
    | cons row f ih2 =>
      simp only [List.map_cons, List.flatten_cons]
      rw [sel_append _ _ _ _ (by simp), ih2, ← sel_map, sel_filter]
      rfl

theorem renumberArc_at (hl : ∀ p ∈ P, p.1.length = p.2.length) (hT : VecOk (P.map Prod.snd))
    (r s k : Nat) (p : List Bool × List (List (Arc W))) (row : List (Arc W)) (a : Arc W)
    (hp : P[r]? = some p) (hs : p.2[s]? = some row) (ha : row[k]? = some a) (hk : arcKept p.1 a = true) :
    renumberArc (flat (P.map Prod.snd)) (old2new (P.map Prod.fst).flatten) (flat (newVec P)).id1
      (flat (newVec P)).sp1 (apos (P.map Prod.snd) (off (P.map Prod.snd) r + s) + k) =
    some (renArc p.1 a) := by
  have hf : (P.map Prod.snd)[r]? = some p.2 := by rw [List.getElem?_map, hp]; rfl
  have hsl := (List.getElem?_eq_some_iff.mp hs).1
  have hkl := (List.getElem?_eq_some_iff.mp ha).1
  have hg := state_at _ r s _ hf hsl
  rw [hs] at hg
  have hok := hT.at hf hs a (List.mem_of_getElem? ha)
  have hlen : (P.map Prod.fst).flatten.length = (P.map Prod.snd).flatten.length := by
    rw [List.length_flatten, List.length_flatten, List.map_map, List.map_map]
    congr 1; apply List.map_congr_left; intro q hq; exact hl q hq
  have hpl := hl p (List.mem_of_getElem? hp)
  have hnew : (newVec P)[r]? = some (restrictFsa p.1 p.2) := by
    unfold newVec; rw [List.getElem?_map, hp]; rfl
  have hrl := (List.getElem?_eq_some_iff.mp hp).1
  simp only [arcKept, Bool.and_eq_true, kept_iff, hok.1] at hk
  have hnl : (restrictFsa p.1 p.2).length = (p.1.filter id).length := by
    rw [restrictFsa, sel_length_filter _ _ (by rw [List.length_map]; exact hpl)]
  have f1 : (flat (P.map Prod.snd)).arcs[apos (P.map Prod.snd) (off (P.map Prod.snd) r + s) + k]? = some a := by
    rw [← ha]; exact flat_arc _ _ k row hg hkl
  have f2 := flat_id2 _ _ k row hg hkl
  have f3 := flat_id1 _ r s p.2 hf hsl
  have f4 := flat_sp1 (P.map Prod.snd) r (by rw [List.length_map]; omega)
  have f5 : (old2new (P.map Prod.fst).flatten)[off (P.map Prod.snd) r + s]? =
      some (off (newVec P) r + rank p.1 s) := by
    rw [old2new_get _ _ (by rw [hlen]; exact Nat.le_of_lt (off_lt _ r s p.2 hf hsl)), rank_at P hl r s p hp hsl]
  have f6 : (old2new (P.map Prod.fst).flatten)[off (P.map Prod.snd) r + a.dst]? =
      some (off (newVec P) r + rank p.1 a.dst) := by
    rw [old2new_get _ _ (by rw [hlen]; exact Nat.le_of_lt (off_lt _ r _ p.2 hf hok.2)),
      rank_at P hl r _ p hp hok.2]
  have f7 := flat_id1 (newVec P) r (rank p.1 s) _ hnew (by rw [hnl]; exact rank_lt _ _ hk.1)
  have f8 := flat_id1 (newVec P) r (rank p.1 a.dst) _ hnew (by rw [hnl]; exact rank_lt _ _ hk.2)
  have f9 := flat_sp1 (newVec P) r (by unfold newVec; rw [List.length_map]; omega)
  unfold renumberArc
  simp only [f1, f2, f3, f4, hok.1, f5, f6, f7, f8, f9, Option.bind_eq_bind, Option.bind_some,
    Nat.add_sub_cancel_left, renArc]

/-- The vector restricted to the states with flag `true`, and the arc map. -/
theorem restrictVec_eq (hl : ∀ p ∈ P, p.1.length = p.2.length) (hT : VecOk (P.map Prod.snd)) :
    restrictVec (flat (P.map Prod.snd)) (P.map Prod.fst).flatten =
      some (flat (newVec P), sel (P.map (fun p => arcFlagsOf p.1 p.2)).flatten.flatten
        (List.range (P.map Prod.snd).flatten.flatten.length)) := by
  have hlenK : (P.map Prod.fst).map List.length = (P.map Prod.snd).map List.length := by
    rw [List.map_map, List.map_map]; apply List.map_congr_left; intro q hq; exact hl q hq
  have hlen : (P.map Prod.fst).flatten.length = (P.map Prod.snd).flatten.length := by
    rw [List.length_flatten, List.length_flatten, hlenK]
  have hlenM : (P.map (fun p => arcFlagsOf p.1 p.2)).flatten.map List.length =
      (P.map Prod.snd).flatten.map List.length := by
    rw [List.map_flatten, List.map_flatten, List.map_map, List.map_map]
    congr 1; apply List.map_congr_left; intro p _; simp [arcFlagsOf]
  have hlenA : (P.map (fun p => arcFlagsOf p.1 p.2)).flatten.flatten.length =
      (P.map Prod.snd).flatten.flatten.length := by
    rw [List.length_flatten, hlenM, ← List.length_flatten]
  -- states
  have s1 := new2old_spec (P.map Prod.fst).flatten
  have hnewlen : (newVec P).map List.length = ((P.map Prod.fst).map (List.filter id)).map List.length := by
    unfold newVec
    rw [List.map_map, List.map_map, List.map_map]
    apply List.map_congr_left
    intro q hq
    simp only [Function.comp_apply, restrictFsa]
    rw [sel_length_filter _ _ (by rw [List.length_map]; exact hl q hq)]
  have s2 : gather (flat (P.map Prod.snd)).id1 (sel (P.map Prod.fst).flatten
      (List.range (P.map Prod.fst).flatten.length)) = some (flat (newVec P)).id1 := by
    rw [gather_sel _ _ (by rw [flat_id1_length, hlen])]
    have := sel_ids id (P.map Prod.fst) 0
    rw [List.map_id, hlenK] at this
    show some (sel _ (idsFrom 0 _)) = some (idsFrom 0 _)
    rw [this, hnewlen]
  have s3 : rowIdsToRowSplits (flat (newVec P)).id1 ((flat (P.map Prod.snd)).sp1.length - 1) =
      some (flat (newVec P)).sp1 := by
    have := rowIdsToRowSplits_idsFrom ((newVec P).map List.length)
    have hd : ((newVec P).map List.length).length = (flat (P.map Prod.snd)).sp1.length - 1 := by
      rw [flat_sp1_length]; simp [newVec]
    rw [hd] at this
    exact this
  -- arcs
  have s4 := keepArcs_eq P hl hT
  have s5 := new2old_spec (P.map (fun p => arcFlagsOf p.1 p.2)).flatten.flatten
  rw [hlenA] at s5
  have s6 : gather (flat (P.map Prod.snd)).id2 (sel (P.map (fun p => arcFlagsOf p.1 p.2)).flatten.flatten
      (List.range (P.map Prod.snd).flatten.flatten.length)) =
      some (idsFrom 0 ((allRows P).map List.length)) := by
    rw [← hlenA, gather_sel _ _ (by rw [hlenA]; simp [flat])]
    have := sel_ids id (P.map (fun p => arcFlagsOf p.1 p.2)).flatten 0
    rw [List.map_id, hlenM, ← allRows_lengths] at this
    exact congrArg some this
  have hrows : (allRows P).length = (P.map Prod.fst).flatten.length := by
    rw [← List.length_map (f := List.length), allRows_lengths, List.length_map, List.length_map,
      ← List.length_map (f := List.length), hlenM, List.length_map, hlen]
  have s7 : gather (old2new (P.map Prod.fst).flatten) (idsFrom 0 ((allRows P).map List.length)) =
      some (flat (newVec P)).id2 := by
    rw [gather_ids_sel _ _ (P.map Prod.fst).flatten 0 0 (by rw [List.length_map, hrows])]
    · show some (idsFrom 0 _) = some (idsFrom 0 _)
      rw [newVec_flatten P hl, sel_map]
    · intro i hi
      rw [List.getElem?_map, allRows_unkept P hl hT i hi]; rfl
    · intro i hi
      rw [List.length_map, hrows] at hi
      rw [Nat.zero_add, old2new_get _ _ (by omega), Nat.zero_add]
  have s8 : rowIdsToRowSplits (flat (newVec P)).id2 (sel (P.map Prod.fst).flatten
      (List.range (P.map Prod.fst).flatten.length)).length = some (flat (newVec P)).sp2 := by
    have := rowIdsToRowSplits_idsFrom ((newVec P).flatten.map List.length)
    have hd : ((newVec P).flatten.map List.length).length = (sel (P.map Prod.fst).flatten
      (List.range (P.map Prod.fst).flatten.length)).length := by
      rw [List.length_map, newVec_flatten P hl, sel_length_filter _ _ hrows.symm,
        sel_length_filter _ _ (by simp)]
    rw [hd] at this
    exact this
  have s9 : (sel (P.map (fun p => arcFlagsOf p.1 p.2)).flatten.flatten
      (List.range (P.map Prod.snd).flatten.flatten.length)).mapM
      (renumberArc (flat (P.map Prod.snd)) (old2new (P.map Prod.fst).flatten) (flat (newVec P)).id1
        (flat (newVec P)).sp1) = some (flat (newVec P)).arcs := by
    have hlenR : (P.map (fun p => p.2.map (fun row => row.map (renArc p.1)))).flatten.map List.length =
        (P.map Prod.snd).flatten.map List.length := by
      rw [List.map_flatten, List.map_flatten, List.map_map, List.map_map]
      congr 1; apply List.map_congr_left; intro p _; simp
    rw [mapM_sel _ _ (P.map (fun p => p.2.map (fun row => row.map (renArc p.1)))).flatten.flatten]
    · show some _ = some (newVec P).flatten.flatten
      rw [newVec_flatten P hl, sel_flatten _ _ hrows (allRows_unkept P hl hT), allRows_flatten]
    · rw [List.length_range, hlenA]
    · rw [hlenA, List.length_flatten, hlenR, ← List.length_flatten]
    · intro i j hi hj
      have hlt := (List.getElem?_eq_some_iff.mp hi).1
      rw [hlenA] at hlt
      rw [List.getElem?_range hlt] at hj
      obtain rfl := Option.some.inj hj
      obtain ⟨r, f, s, row, k, hf, hs, hk, rfl⟩ := arc_pos _ i hlt
      have hp : ∃ p, P[r]? = some p ∧ p.2 = f := by
        rw [List.getElem?_map] at hf
        cases h : P[r]? with
        | none => rw [h] at hf; simp at hf
        | some p => rw [h] at hf; exact ⟨p, rfl, Option.some.inj hf⟩
      obtain ⟨p, hp, rfl⟩ := hp
      have hsl := (List.getElem?_eq_some_iff.mp hs).1
      have ha := List.getElem?_eq_getElem hk
      have hA : ∀ (Y : Type) (q : List Bool → Arc W → Y),
          (P.map (fun p => p.2.map (fun row => row.map (q p.1)))).flatten.flatten[apos (P.map Prod.snd)
            (off (P.map Prod.snd) r + s) + k]? = some (q p.1 row[k]) := by
        intro Y q
        have hlenQ : (P.map (fun p => p.2.map (fun row => row.map (q p.1)))).flatten.map List.length =
            (P.map Prod.snd).flatten.map List.length := by
          rw [List.map_flatten, List.map_flatten, List.map_map, List.map_map]
          congr 1; apply List.map_congr_left; intro p _; simp
        have hoff : off (P.map (fun p => p.2.map (fun row => row.map (q p.1)))) r = off (P.map Prod.snd) r := by
          unfold off
          congr 2
          rw [List.map_map, List.map_map]; apply List.map_congr_left; intro q _; simp
        have hapos : ∀ g, apos (P.map (fun p => p.2.map (fun row => row.map (q p.1)))) g =
            apos (P.map Prod.snd) g := by
          intro g; unfold apos; rw [hlenQ]
        have hg' := state_at (P.map (fun p => p.2.map (fun row => row.map (q p.1)))) r s
          (p.2.map (fun row => row.map (q p.1)))
          (by rw [List.getElem?_map, hp]; rfl) (by rw [List.length_map]; exact hsl)
        rw [hoff, List.getElem?_map, hs] at hg'
        have := flat_arc _ _ k _ hg' (by rw [List.length_map]; exact hk)
        rw [hapos] at this
        rw [this, List.getElem?_map, ha]; rfl
      have h1 := hA Bool arcKept
      have h2 := hA (Arc W) renArc
      have hkept : arcKept p.1 row[k] = true := by
        have hi' : (P.map (fun p => p.2.map (fun row => row.map (arcKept p.1)))).flatten.flatten[apos
          (P.map Prod.snd) (off (P.map Prod.snd) r + s) + k]? = some true := hi
        rw [h1] at hi'
        exact Option.some.inj hi'
      have h3 := renumberArc_at P hl hT r s k p row row[k] hp hs ha hkept
      exact h3.trans h2.symm
  unfold restrictVec
  simp only [s1, s2, s3, s4, s5, s6, s7, s8, s9, Option.bind_eq_bind, Option.bind_some]

end

end Verif.Fsa
