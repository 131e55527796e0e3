import Verif.Ragged.UniqueModel
import Verif.Ragged.RemoveEmptyProps
import Verif.Util.MapM
import Mathlib.Data.List.Nodup

/-!
Lemmas for `UniqueSequences`: the sequences kept from one sorted sub-list, and the sizes of the
groups they stand for.
-/

namespace Verif.Ragged
open Verif.Util
variable {X : Type}

/-- Which elements differ from the one before, `p` being before the first one. -/
def keepFrom (p : Int) : List Int → List Bool
  | [] => []
  | x :: xs => (x != p) :: keepFrom x xs

/-- The flags of one sub-list: the first element and those that differ from the one before. -/
def keepRow : List Int → List Bool
  | [] => []
  | x :: xs => true :: keepFrom x xs

@[simp] theorem keepFrom_length (p : Int) (l : List Int) : (keepFrom p l).length = l.length := by
  induction l generalizing p with
  | nil => rfl
  | cons x l ih => simp [keepFrom, ih]

@[simp] theorem keepRow_length (l : List Int) : (keepRow l).length = l.length := by
  cases l <;> simp [keepRow]

theorem keepFrom_get (p : Int) (l : List Int) (i : Nat) (h : i < l.length) :
    (keepFrom p l)[i]? = some (l.getD i 0 != (p :: l).getD i 0) := by
  induction l generalizing p i with
  | nil => simp at h
  | cons x l ih =>
    cases i with
    | zero => simp [keepFrom]
    | succ i =>
      have := ih x i (by simpa using h)
      simpa [keepFrom] using this

theorem keepRow_get (l : List Int) (i : Nat) (h : i < l.length) :
    (keepRow l)[i]? = some (if i = 0 then true else (l.getD i 0 != l.getD (i - 1) 0)) := by
  cases l with
  | nil => simp at h
  | cons x l =>
    cases i with
    | zero => simp [keepRow]
    | succ i =>
      have := keepFrom_get x l i (by simpa using h)
      simpa [keepRow] using this

/-- The number of leading `false`. -/
def leadFalse : List Bool → Nat
  | false :: ks => leadFalse ks + 1
  | _ => 0

/-- The distances between the kept positions. -/
def gaps : List Bool → List Nat
  | [] => []
  | true :: ks => (1 + leadFalse ks) :: gaps ks
  | false :: ks => gaps ks

theorem leadFalse_append (a b : List Bool) (h : b = [] ∨ b.head? = some true) :
    leadFalse (a ++ b) = leadFalse a := by
  induction a with
  | nil =>
    rcases h with rfl | h
    · rfl
    · cases b with
      | nil => rfl
      | cons k b => simp at h; subst h; rfl
  | cons k a ih => cases k <;> simp [leadFalse, ih]

theorem gaps_append (a b : List Bool) (h : b = [] ∨ b.head? = some true) :
    gaps (a ++ b) = gaps a ++ gaps b := by
  induction a with
  | nil => rfl
  | cons k a ih => cases k <;> simp [gaps, ih, leadFalse_append a b h]

theorem keepRow_head (l : List Int) : keepRow l = [] ∨ (keepRow l).head? = some true := by
  cases l <;> simp [keepRow]

theorem flatten_keepRow_head (L : List (List Int)) :
    (L.map keepRow).flatten = [] ∨ (L.map keepRow).flatten.head? = some true := by
  induction L with
  | nil => simp
  | cons l L ih =>
    rw [List.map_cons, List.flatten_cons]
    cases l with
    | nil => simpa [keepRow] using ih
    | cons x l => right; simp [keepRow]

theorem gaps_flatten (L : List (List Int)) :
    gaps (L.map keepRow).flatten = (L.map (fun l => gaps (keepRow l))).flatten := by
  induction L with
  | nil => rfl
  | cons l L ih =>
    rw [List.map_cons, List.flatten_cons, gaps_append _ _ (flatten_keepRow_head L), ih]
    rfl

theorem gaps_length (keep : List Bool) (l : List X) (h : l.length = keep.length) :
    (gaps keep).length = (sel keep l).length := by
  induction keep generalizing l with
  | nil =>
    obtain rfl : l = [] := List.eq_nil_of_length_eq_zero (by simpa using h)
    rfl
  | cons k keep ih =>
    cases l with
    | nil => simp at h
    | cons x l =>
      have := ih l (by simpa using h)
      cases k <;> simp [gaps, sel, this]

/-- The kept positions, then the distances between them. -/
theorem sel_head (keep : List Bool) (s : Nat) :
    (sel keep (List.range' s keep.length)).headD (s + keep.length) = s + leadFalse keep := by
  induction keep generalizing s with
  | nil => rfl
  | cons k keep ih =>
    rw [List.length_cons, List.range'_succ]
    cases k
    · rw [sel, leadFalse]
      have := ih (s + 1)
      simp only [Bool.false_eq_true, if_false]
      rw [show s + (keep.length + 1) = s + 1 + keep.length by omega, this]; omega
    · simp [sel, leadFalse]

theorem numRepeats_eq (keep : List Bool) (s : Nat) :
    numRepeats (sel keep (List.range' s keep.length)) (s + keep.length) = some (gaps keep) := by
  induction keep generalizing s with
  | nil => rfl
  | cons k keep ih =>
    have ih := ih (s + 1)
    rw [List.length_cons, List.range'_succ, show s + (keep.length + 1) = s + 1 + keep.length by omega]
    cases k
    · simpa [sel, gaps] using ih
    · have hs := sel_head keep (s + 1)
      simp only [sel, if_true, gaps]
      generalize hP : sel keep (List.range' (s + 1) keep.length) = P at *
      unfold numRepeats at *
      have hg := mapM_get ih
      apply mapM_some_of
      · have := hg.1; simp at this ⊢; exact this
      · intro i x hx
        obtain ⟨hb, hx⟩ := List.getElem?_eq_some_iff.mp hx
        rw [List.getElem_range] at hx
        subst hx
        rw [List.length_range, List.length_cons] at hb
        cases i with
        | zero =>
          cases P with
          | nil => simp at hs; simp; omega
          | cons q P => simp at hs; simp; omega
        | succ i =>
          have hi : i < P.length := by omega
          have := hg.2 i i (by simp [hi])
          simp only [List.getElem?_cons_succ, List.length_cons]
          rw [this]
          cases ha : P[i]? with
          | none => simp
          | some a =>
            simp only [Option.bind_eq_bind, Option.bind_some]
            have e : (i + 1 < P.length + 1 - 1) ↔ (i < P.length - 1) := by omega
            by_cases h1 : i < P.length - 1
            · rw [if_pos h1, if_pos (e.mpr h1)]
            · rw [if_neg h1, if_neg (fun h => h1 (e.mp h))]

theorem sel_sublist (keep : List Bool) (l : List X) : (sel keep l).Sublist l := by
  induction keep generalizing l with
  | nil => simp [sel]
  | cons k keep ih =>
    cases l with
    | nil => simp [sel]
    | cons x l =>
      cases k
      · simpa [sel] using (ih l).cons x
      · simpa [sel] using ih l

theorem keepFrom_lead (p : Int) (xs : List Int) (hs : xs.Pairwise (· ≤ ·)) (hp : ∀ x ∈ xs, p ≤ x) :
    leadFalse (keepFrom p xs) = xs.count p := by
  induction xs generalizing p with
  | nil => rfl
  | cons x xs ih =>
    rw [List.pairwise_cons] at hs
    have h0 := hp x (by simp)
    by_cases h : x = p
    · subst h
      have := ih x hs.2 hs.1
      simp [keepFrom, leadFalse, this]
    · have h1 : (x != p) = true := by simpa using h
      have : (x :: xs).count p = 0 := by
        rw [List.count_eq_zero]
        intro hm
        rcases List.mem_cons.mp hm with rfl | hm
        · exact h rfl
        · have := hs.1 p hm; omega
      rw [this, keepFrom, h1]
      rfl

theorem keepFrom_sel (p : Int) (xs : List Int) (hs : xs.Pairwise (· ≤ ·)) (hp : ∀ x ∈ xs, p ≤ x) :
    (∀ x ∈ sel (keepFrom p xs) xs, p < x) ∧ (sel (keepFrom p xs) xs).Pairwise (· < ·) ∧
      (∀ x ∈ xs, x = p ∨ x ∈ sel (keepFrom p xs) xs) ∧
      (sel (keepFrom p xs) xs).map (fun k => xs.count k) = gaps (keepFrom p xs) := by
  induction xs generalizing p with
  | nil => simp [sel, keepFrom, gaps]
  | cons x xs ih =>
    rw [List.pairwise_cons] at hs
    have h0 := hp x (by simp)
    obtain ⟨i1, i2, i3, i4⟩ := ih x hs.2 hs.1
    have hcount : (sel (keepFrom x xs) xs).map (fun k => (x :: xs).count k) =
        gaps (keepFrom x xs) := by
      rw [← i4]
      apply List.map_congr_left
      intro k hk
      rw [List.count_cons_of_ne]
      have := i1 k hk; omega
    by_cases h : x = p
    · subst h
      have e : keepFrom x (x :: xs) = false :: keepFrom x xs := by simp [keepFrom]
      rw [e]
      simp only [sel, Bool.false_eq_true, if_false, gaps]
      refine ⟨i1, i2, ?_, hcount⟩
      intro y hy
      rcases List.mem_cons.mp hy with rfl | hy
      · exact Or.inl rfl
      · exact i3 y hy
    · have e : keepFrom p (x :: xs) = true :: keepFrom x xs := by
        rw [keepFrom]; congr 1; simpa using h
      rw [e]
      simp only [sel, if_true, gaps, List.map_cons, List.cons.injEq]
      refine ⟨?_, ?_, ?_, ?_, hcount⟩
      · intro y hy
        rcases List.mem_cons.mp hy with rfl | hy
        · omega
        · have := i1 y hy; omega
      · rw [List.pairwise_cons]; exact ⟨i1, i2⟩
      · intro y hy
        right
        rcases List.mem_cons.mp hy with rfl | hy
        · simp
        · rcases i3 y hy with rfl | h1
          · simp
          · exact List.mem_cons_of_mem _ h1
      · rw [keepFrom_lead x xs hs.2 hs.1, List.count_cons_self]; omega

/-- What the flags of a sorted sub-list select: one element per value, with the number of elements
of that value. -/
theorem keepRow_sel (xs : List Int) (hs : xs.Pairwise (· ≤ ·)) :
    (sel (keepRow xs) xs).Pairwise (· < ·) ∧ (∀ x ∈ xs, x ∈ sel (keepRow xs) xs) ∧
      (sel (keepRow xs) xs).map (fun k => xs.count k) = gaps (keepRow xs) := by
  cases xs with
  | nil => simp [sel, keepRow, gaps]
  | cons x xs =>
    rw [List.pairwise_cons] at hs
    obtain ⟨i1, i2, i3, i4⟩ := keepFrom_sel x xs hs.2 hs.1
    simp only [sel, keepRow, if_true, gaps, List.map_cons, List.cons.injEq]
    refine ⟨?_, ?_, ?_, ?_⟩
    · rw [List.pairwise_cons]; exact ⟨i1, i2⟩
    · intro y hy
      rcases List.mem_cons.mp hy with rfl | hy
      · simp
      · rcases i3 y hy with rfl | h1
        · simp
        · exact List.mem_cons_of_mem _ h1
    · rw [keepFrom_lead x xs hs.2 hs.1, List.count_cons_self]; omega
    · rw [← i4]
      apply List.map_congr_left
      intro k hk
      rw [List.count_cons_of_ne]
      have := i1 k hk; omega

/-! ## One sub-list -/

variable (hash : List Int → Int)

/-- A sub-list sorted by hash. -/
def sortRow (t : List (List Int)) : List (List Int) :=
  t.mergeSort (fun a b => notLess (hash a) (hash b))

/-- The flags of a sub-list. -/
def flagsRow (t : List (List Int)) : List Bool := keepRow ((sortRow hash t).map hash)

/-- The sequences kept from a sub-list. -/
def uniqRow (t : List (List Int)) : List (List Int) := sel (flagsRow hash t) (sortRow hash t)

theorem sortRow_perm (t : List (List Int)) : (sortRow hash t).Perm t := List.mergeSort_perm _ _

theorem sortRow_length (t : List (List Int)) : (sortRow hash t).length = t.length :=
  (sortRow_perm hash t).length_eq

@[simp] theorem flagsRow_length (t : List (List Int)) : (flagsRow hash t).length = t.length := by
  rw [flagsRow, keepRow_length, List.length_map, sortRow_length]

theorem sortRow_sorted (t : List (List Int)) : ((sortRow hash t).map hash).Pairwise (· ≤ ·) := by
  rw [List.pairwise_map]
  have h := List.pairwise_mergeSort (le := fun a b => notLess (hash a) (hash b))
    (fun a b c => by simp only [notLess, Bool.not_eq_true', decide_eq_false_iff_not]; omega)
    (fun a b => by simp only [notLess, Bool.or_eq_true, Bool.not_eq_true', decide_eq_false_iff_not]; omega) t
  refine h.imp ?_
  intro a b
  simp only [notLess, Bool.not_eq_true', decide_eq_false_iff_not]; omega

theorem uniqRow_map (t : List (List Int)) :
    (uniqRow hash t).map hash = sel (keepRow ((sortRow hash t).map hash)) ((sortRow hash t).map hash) := by
  rw [uniqRow, sel_map]; rfl

/-- For any hash function: the hashes of the kept sequences strictly increase, every sequence of the
sub-list has the hash of a kept one, and the repeats count the sequences with the same hash. -/
theorem uniqRow_spec (t : List (List Int)) :
    ((uniqRow hash t).map hash).Pairwise (· < ·) ∧ (∀ s ∈ uniqRow hash t, s ∈ t) ∧
      (∀ s ∈ t, ∃ u ∈ uniqRow hash t, hash u = hash s) ∧
      gaps (flagsRow hash t) = (uniqRow hash t).map (fun u => t.countP (fun s => hash s == hash u)) := by
  obtain ⟨h1, h2, h3⟩ := keepRow_sel _ (sortRow_sorted hash t)
  rw [← uniqRow_map] at h1 h2 h3
  refine ⟨h1, ?_, ?_, ?_⟩
  · intro s hs
    exact (sortRow_perm hash t).mem_iff.mp ((sel_sublist _ _).mem hs)
  · intro s hs
    have := h2 (hash s) (List.mem_map.mpr ⟨s, (sortRow_perm hash t).mem_iff.mpr hs, rfl⟩)
    obtain ⟨u, hu, he⟩ := List.mem_map.mp this
    exact ⟨u, hu, he⟩
  · rw [flagsRow, ← h3, List.map_map]
    apply List.map_congr_left
    intro u _
    show List.count (hash u) ((sortRow hash t).map hash) = _
    rw [((sortRow_perm hash t).map hash).count_eq, List.count, List.countP_map]
    rfl

/-- If the hash separates the sequences of the sub-list, the kept sequences are those of the sub-list,
each once, and the repeats are the numbers of occurrences. -/
theorem uniqRow_inj (t : List (List Int)) (hinj : ∀ a ∈ t, ∀ b ∈ t, hash a = hash b → a = b) :
    (uniqRow hash t).Nodup ∧ (∀ s, s ∈ uniqRow hash t ↔ s ∈ t) ∧
      gaps (flagsRow hash t) = (uniqRow hash t).map (fun u => t.count u) := by
  obtain ⟨h1, h2, h3, h4⟩ := uniqRow_spec hash t
  refine ⟨?_, ?_, ?_⟩
  · apply List.Nodup.of_map hash
    exact h1.imp (fun h => by omega)
  · intro s
    refine ⟨h2 s, fun hs => ?_⟩
    obtain ⟨u, hu, he⟩ := h3 s hs
    rwa [← hinj u (h2 u hu) s hs he]
  · rw [h4]
    apply List.map_congr_left
    intro u hu
    rw [List.count]
    apply List.countP_congr
    intro s hs
    simp only [beq_iff_eq]
    exact ⟨hinj s hs u (h2 u hu), fun h => by rw [h]⟩

end Verif.Ragged
