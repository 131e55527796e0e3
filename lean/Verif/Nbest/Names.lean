import Verif.Nbest.Order
import Verif.Nbest.Radix

/-!
# The names of triples
-/

namespace Verif.Nbest

theorem write_some {α : Type} (b : List α) (i : Nat) (v : α) (h : i < b.length) : write b i v = some (b.set i v) := if_pos h

/-- Writes to different places. -/
theorem writeAll_spec {α : Type} (b : List α) (ws : List (Nat × α)) (h : ∀ w ∈ ws, w.1 < b.length)
    (nd : (ws.map Prod.fst).Nodup) : ∃ b', writeAll b ws = some b' ∧ b'.length = b.length ∧
      (∀ w ∈ ws, b'[w.1]? = some w.2) ∧ ∀ q, q ∉ ws.map Prod.fst → b'[q]? = b[q]? := by
  induction ws generalizing b with
  | nil => exact ⟨b, rfl, rfl, by simp, by simp⟩
  | cons w ws ih =>
    have hw := h w List.mem_cons_self
    rw [List.map_cons, List.nodup_cons] at nd
    obtain ⟨b', h1, h2, h3, h4⟩ := ih (b.set w.1 w.2) (fun v hv => by
      rw [List.length_set]; exact h v (List.mem_cons_of_mem _ hv)) nd.2
    refine ⟨b', ?_, by simpa using h2, ?_, ?_⟩
    · rw [writeAll, write_some _ _ _ hw]; exact h1
    · intro v hv
      rcases List.mem_cons.mp hv with rfl | hv
      · rw [h4 _ nd.1, List.getElem?_set_self hw]
      · exact h3 v hv
    · intro q hq
      rw [List.map_cons, List.mem_cons, not_or] at hq
      rw [h4 q hq.2, List.getElem?_set_ne (Ne.symm hq.1)]

/-- Writes that make up the list `t`. -/
theorem writeAll_target {α : Type} (b t : List α) (ws : List (Nat × α)) (hl : t.length = b.length)
    (h : ∀ w ∈ ws, t[w.1]? = some w.2) (hc : ∀ q, q < b.length → (∃ v, (q, v) ∈ ws) ∨ b[q]? = t[q]?) :
    writeAll b ws = some t := by
  induction ws generalizing b with
  | nil =>
    rw [writeAll]
    congr 1
    apply List.ext_getElem?
    intro q
    by_cases hq : q < b.length
    · rcases hc q hq with ⟨v, hv⟩ | hv
      · simp at hv
      · exact hv
    · rw [List.getElem?_eq_none (by omega), List.getElem?_eq_none (by omega)]
  | cons w ws ih =>
    have hw := h w List.mem_cons_self
    have hlt := (List.getElem?_eq_some_iff.mp hw).1
    rw [writeAll, write_some _ _ _ (by omega)]
    apply ih
    · simpa using hl
    · exact fun v hv => h v (List.mem_cons_of_mem _ hv)
    · intro q hq
      rw [List.length_set] at hq
      by_cases hqw : w.1 = q
      · subst hqw
        right
        rw [List.getElem?_set_self (by omega), hw]
      · rcases hc q hq with ⟨v, hv⟩ | hv
        · rcases List.mem_cons.mp hv with rfl | hv
          · exact absurd rfl hqw
          · exact .inl ⟨v, hv⟩
        · right
          rw [List.getElem?_set_ne hqw]; exact hv

/-- The triples at `i` and `j` are equal. -/
def TEq (x : Nat → Nat) (i j : Nat) : Prop := x i = x j ∧ x (i + 1) = x (j + 1) ∧ x (i + 2) = x (j + 2)

/-- The triple at `i` is less than that at `j`. -/
def TLt (x : Nat → Nat) (i j : Nat) : Prop :=
  x i < x j ∨ x i = x j ∧ (x (i + 1) < x (j + 1) ∨ x (i + 1) = x (j + 1) ∧ x (i + 2) < x (j + 2))

/-- The triple at `s`. -/
def tr (x : Nat → Nat) (s : Nat) : Nat × Nat × Nat := (x s, x (s + 1), x (s + 2))

theorem tr_eq (x : Nat → Nat) (i j : Nat) : tr x i = tr x j ↔ TEq x i j := by
  simp [tr, TEq]

/-- The names given by the loop. -/
def namesOf (x : Nat → Nat) : List Nat → Nat → Option (Nat × Nat × Nat) → List (Nat × Nat)
  | [], _, _ => []
  | s :: l, name, last =>
    (s, if last = some (tr x s) then name else name + 1) ::
      namesOf x l (if last = some (tr x s) then name else name + 1) (some (tr x s))

/-- The last name. -/
def lastName (x : Nat → Nat) : List Nat → Nat → Option (Nat × Nat × Nat) → Nat
  | [], name, _ => name
  | s :: l, name, last => lastName x l (if last = some (tr x s) then name else name + 1) (some (tr x s))

/-- The place of position `i` in the sample. -/
def idx (n0 i : Nat) : Nat := if i % 3 = 1 then i / 3 else i / 3 + n0

theorem nameLoop_eq (text : List Nat) (x : Nat → Nat) (n n0 : Nat) (ht : ∀ i, i < n + 3 → text[i]? = some (x i))
    (l : List Nat) (hl : ∀ s ∈ l, s ≤ n) (name : Nat) (last : Option (Nat × Nat × Nat)) (R : List Nat) :
    nameLoop text n0 l name last R =
      (writeAll R ((namesOf x l name last).map (fun w => (idx n0 w.1, w.2)))).map
        (fun R => (lastName x l name last, R)) := by
  induction l generalizing name last R with
  | nil => rfl
  | cons s l ih =>
    have hs := hl s List.mem_cons_self
    rw [nameLoop, namesOf, List.map_cons, writeAll, lastName]
    simp only [ht s (by omega), ht (s + 1) (by omega), ht (s + 2) (by omega), Option.bind_eq_bind, Option.bind_some]
    change (write R (idx n0 s) (if last = some (tr x s) then name else name + 1)).bind
      (fun R => nameLoop text n0 l (if last = some (tr x s) then name else name + 1) (some (tr x s)) R) = _
    generalize (if last = some (tr x s) then name else name + 1) = m
    cases write R (idx n0 s) m with
    | none => rfl
    | some R' => exact ih (fun t htm => hl t (List.mem_cons_of_mem _ htm)) _ _ _

theorem namesOf_fst (x : Nat → Nat) (l : List Nat) (name : Nat) (last : Option (Nat × Nat × Nat)) :
    (namesOf x l name last).map Prod.fst = l := by
  induction l generalizing name last with
  | nil => rfl
  | cons s l ih => rw [namesOf, List.map_cons, ih]

/-- The list is sorted by triples. -/
def TSorted (x : Nat → Nat) (l : List Nat) : Prop := l.Pairwise (fun i j => TLt x i j ∨ TEq x i j)

theorem names_after (x : Nat → Nat) (l : List Nat) (hl : TSorted x l) (s name : Nat)
    (hs : ∀ t ∈ l, TLt x s t ∨ TEq x s t) :
    (∀ w ∈ namesOf x l name (some (tr x s)), (w.2 = name ∧ TEq x s w.1) ∨ (name < w.2 ∧ TLt x s w.1)) := by
  induction l generalizing s name with
  | nil => intro w hw; simp [namesOf] at hw
  | cons t l ih =>
    have hl' := List.pairwise_cons.mp hl
    intro w hw
    rw [namesOf] at hw
    by_cases he : TEq x s t
    · have he' : (some (tr x s) = some (tr x t)) := by rw [(tr_eq x s t).mpr he]
      simp only [if_pos he'] at hw
      rcases List.mem_cons.mp hw with rfl | hw
      · exact .inl ⟨rfl, he⟩
      · rcases ih hl'.2 t name hl'.1 w hw with ⟨h1, h2⟩ | ⟨h1, h2⟩
        · left; refine ⟨h1, ?_⟩; unfold TEq at *; omega
        · right; refine ⟨h1, ?_⟩; unfold TEq TLt at *; omega
    · have he' : ¬ (some (tr x s) = some (tr x t)) := by
        intro h; exact he ((tr_eq x s t).mp (Option.some.inj h))
      have hlt : TLt x s t := (hs t List.mem_cons_self).resolve_right he
      simp only [if_neg he'] at hw
      rcases List.mem_cons.mp hw with rfl | hw
      · exact .inr ⟨by simp, hlt⟩
      · rcases ih hl'.2 t (name + 1) hl'.1 w hw with ⟨h1, h2⟩ | ⟨h1, h2⟩
        · right; refine ⟨by omega, ?_⟩; unfold TEq TLt at *; omega
        · right; refine ⟨by omega, ?_⟩; unfold TLt at *; omega

/-- Names are in the order of the triples. -/
theorem names_sorted (x : Nat → Nat) (l : List Nat) (hl : TSorted x l) (name : Nat)
    (last : Option (Nat × Nat × Nat)) :
    (namesOf x l name last).Pairwise (fun w v => (w.2 = v.2 ∧ TEq x w.1 v.1) ∨ (w.2 < v.2 ∧ TLt x w.1 v.1)) := by
  induction l generalizing name last with
  | nil => simp [namesOf]
  | cons s l ih =>
    have hl' := List.pairwise_cons.mp hl
    rw [namesOf, List.pairwise_cons]
    refine ⟨?_, ih hl'.2 _ _⟩
    intro v hv
    rcases names_after x l hl'.2 s _ hl'.1 v hv with ⟨h1, h2⟩ | ⟨h1, h2⟩
    · exact .inl ⟨h1.symm, h2⟩
    · exact .inr ⟨h1, h2⟩

theorem names_ge (x : Nat → Nat) (l : List Nat) (name : Nat) (last : Option (Nat × Nat × Nat)) :
    (∀ w ∈ namesOf x l name last, name ≤ w.2 ∧ w.2 ≤ lastName x l name last) ∧ name ≤ lastName x l name last ∧
      lastName x l name last ≤ name + l.length := by
  induction l generalizing name last with
  | nil => simp [namesOf, lastName]
  | cons s l ih =>
    rw [namesOf, lastName]
    obtain ⟨h1, h2, h3⟩ := ih (if last = some (tr x s) then name else name + 1) (some (tr x s))
    have h4 : name ≤ (if last = some (tr x s) then name else name + 1) ∧
        (if last = some (tr x s) then name else name + 1) ≤ name + 1 := by split <;> omega
    refine ⟨?_, by omega, by rw [List.length_cons]; omega⟩
    intro w hw
    rcases List.mem_cons.mp hw with rfl | hw
    · exact ⟨h4.1, h2⟩
    · have := h1 w hw; omega

theorem names_pos (x : Nat → Nat) (l : List Nat) (name : Nat) :
    ∀ w ∈ namesOf x l name none, name < w.2 := by
  cases l with
  | nil => simp [namesOf]
  | cons s l =>
    rw [namesOf, if_neg (by simp)]
    intro w hw
    rcases List.mem_cons.mp hw with rfl | hw
    · simp
    · have := (names_ge x l (name + 1) (some (tr x s))).1 w hw
      omega

/-- If all names differ, they are the places in the list. -/
theorem names_all (x : Nat → Nat) (l : List Nat) (name : Nat) (last : Option (Nat × Nat × Nat))
    (h : lastName x l name last = name + l.length) :
    namesOf x l name last = l.zipIdx.map (fun w => (w.1, name + w.2 + 1)) := by
  suffices hs : ∀ k base, name = base + k → namesOf x l name last = (l.zipIdx k).map (fun w => (w.1, base + w.2 + 1)) by
    exact hs 0 name (by omega)
  intro k base hk
  induction l generalizing name last k with
  | nil => rfl
  | cons s l ih =>
    have h4 := (names_ge x l (if last = some (tr x s) then name else name + 1) (some (tr x s))).2.2
    rw [lastName] at h
    rw [List.length_cons] at h
    have h5 : (if last = some (tr x s) then name else name + 1) = name + 1 := by split at h4 <;> split <;> simp_all <;> omega
    rw [namesOf, h5, List.zipIdx_cons, List.map_cons, ih (name + 1) (some (tr x s)) (by rw [h5] at h; omega) (k + 1)
      (by omega)]
    simp only [List.cons.injEq, Prod.mk.injEq, true_and, and_true]
    omega

end Verif.Nbest
