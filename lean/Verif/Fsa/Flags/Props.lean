import Verif.Fsa.Flags.Lemmas
import Verif.Fsa.Core

/-!
# C14, C15: what the property bits mean
-/

namespace Verif.Fsa
open Verif.Ragged Verif.Util
variable {W : Type}

/-! ## Specification -/

/-- The label is an `int32_t`. -/
def Int32 (x : Int) : Prop := -2147483648 ≤ x ∧ x < 2147483648

/-- `Arc::operator<=`: by label read as an unsigned number, then by destination. -/
def leArc (b a : RArc W) : Prop :=
  u32 b.label < u32 a.label ∨ (b.label = a.label ∧ b.dst ≤ a.dst)

/-- kFsaPropertiesValid as the code checks it. -/
def SpecValid (f : List (List (RArc W))) : Prop :=
  ∀ (s : Nat) (row : List (RArc W)), f[s]? = some row → ∀ a ∈ row,
    a.src = s ∧ 0 ≤ a.dst ∧ a.dst < f.length ∧ -1 ≤ a.label ∧ (a.label = -1 ↔ a.dst = (f.length : Int) - 1)

/-- kFsaPropertiesMaybeAccessible. -/
def SpecAccessible (f : List (List (RArc W))) : Prop :=
  f = [] ∨ (f.flatten ≠ [] ∧ ∀ s : Nat, s < f.length → s = 0 ∨ ∃ a ∈ f.flatten, a.dst = s ∧ a.src ≠ a.dst)

/-- kFsaPropertiesMaybeCoaccessible. -/
def SpecCoaccessible (f : List (List (RArc W))) : Prop :=
  f = [] ∨ (f.flatten ≠ [] ∧ ∀ (s : Nat) (row : List (RArc W)), f[s]? = some row →
    s = f.length - 1 ∨ ∃ a ∈ row, a.src ≠ a.dst)

/-! ## Lemmas -/

theorem foldl_and_field (π : Flags → Bool) (h : ∀ a b, π (Flags.and a b) = (π a && π b))
    (l : List Flags) (p : Flags) : π (l.foldl Flags.and p) = (π p && l.all π) := by
  induction l generalizing p with
  | nil => simp
  | cons x l ih => rw [List.foldl_cons, ih, h, List.all_cons, Bool.and_assoc]

theorem foldl_and_bool (l : List Bool) (p : Bool) : l.foldl (· && ·) p = (p && l.all id) := by
  induction l generalizing p with
  | nil => simp
  | cons x l ih => rw [List.foldl_cons, ih, List.all_cons, Bool.and_assoc]; rfl

theorem all_arcs (f : List (List (RArc W))) (π : Flags → Bool) :
    (arcsFlags f).flatten.all π = true ↔
      ∀ (s : Nat) (row : List (RArc W)) (k : Nat) (a : RArc W), f[s]? = some row → row[k]? = some a →
        π (arcFlags (f.length : Int) s (if k ≠ 0 then row[k - 1]? else none) a) = true := by
  rw [List.all_eq_true]
  constructor
  · intro h s row k a hs ha
    apply h
    refine List.mem_flatten.mpr ⟨rowFlags (f.length : Int) s row, ?_, ?_⟩
    · apply List.mem_of_getElem? (i := s)
      rw [arcsFlags, List.getElem?_mapIdx, hs]; rfl
    · apply List.mem_of_getElem? (i := k)
      unfold rowFlags
      rw [List.getElem?_mapIdx, ha]; rfl
  · intro h x hx
    obtain ⟨l, hl, hx⟩ := List.mem_flatten.mp hx
    obtain ⟨s, hs⟩ := List.getElem?_of_mem hl
    rw [arcsFlags, List.getElem?_mapIdx] at hs
    cases hrow : f[s]? with
    | none => rw [hrow] at hs; simp at hs
    | some row =>
      rw [hrow] at hs
      obtain rfl := Option.some.inj hs
      obtain ⟨k, hk⟩ := List.getElem?_of_mem (show x ∈ row.mapIdx (fun k a =>
        arcFlags (f.length : Int) s (if k ≠ 0 then row[k - 1]? else none) a) from hx)
      rw [List.getElem?_mapIdx] at hk
      cases ha : row[k]? with
      | none => rw [ha] at hk; simp at hk
      | some a =>
        rw [ha] at hk
        obtain rfl := Option.some.inj hk
        exact h s row k a hrow ha

/-- A list whose neighbours are related by a transitive relation. -/
theorem pairwise_of_adjacent {X : Type} (R : X → X → Prop) (htr : ∀ a b c, R a b → R b c → R a c)
    (l : List X) : l.Pairwise R ↔
      ∀ (k : Nat) (b a : X), l[k]? = some b → l[k + 1]? = some a → R b a := by
  constructor
  · intro h k b a hb ha
    rw [List.pairwise_iff_getElem] at h
    obtain ⟨h1, rfl⟩ := List.getElem?_eq_some_iff.mp hb
    obtain ⟨h2, rfl⟩ := List.getElem?_eq_some_iff.mp ha
    exact h k (k + 1) h1 h2 (by omega)
  · induction l with
    | nil => intro _; exact List.Pairwise.nil
    | cons x l ih =>
      intro h
      have h' := ih (fun k b a hb ha => h (k + 1) b a (by simpa using hb) (by simpa using ha))
      refine List.pairwise_cons.mpr ⟨?_, h'⟩
      cases l with
      | nil => simp
      | cons y l =>
        have hxy := h 0 x y rfl rfl
        intro z hz
        rcases List.mem_cons.mp hz with rfl | hz
        · exact hxy
        · exact htr _ _ _ hxy ((List.pairwise_cons.mp h').1 z hz)

/-! ## C14 -/

/-- **C14**, Valid. -/
theorem valid_iff (f : List (List (RArc W))) : (flagsOf f).valid = true ↔ SpecValid f := by
  have h := foldl_and_field Flags.valid (fun _ _ => rfl) (arcsFlags f).flatten Flags.all
  show (List.foldl Flags.and Flags.all (arcsFlags f).flatten).valid = true ↔ _
  rw [h]
  simp only [Flags.all, Bool.true_and]
  rw [all_arcs]
  simp only [arcFlags, Bool.not_eq_true', Bool.or_eq_false_iff, decide_eq_false_iff_not]
  constructor
  · intro h s row hs a ha
    obtain ⟨k, hk⟩ := List.getElem?_of_mem ha
    have := h s row k a hs hk
    omega
  · intro h s row k a hs hk
    have := h s row hs a (List.mem_of_getElem? hk)
    omega

/-- **C14**, Nonempty. -/
theorem nonempty_iff (f : List (List (RArc W))) : (flagsOf f).nonempty = true ↔ f.flatten ≠ [] := by
  have h := foldl_and_field Flags.nonempty (fun _ _ => rfl) (arcsFlags f).flatten Flags.all
  show ((List.foldl Flags.and Flags.all (arcsFlags f).flatten).nonempty &&
    !decide (f.flatten.length = 0)) = true ↔ _
  have h2 : (arcsFlags f).flatten.all Flags.nonempty = true := by
    rw [all_arcs]; intros; rfl
  rw [h, h2]
  simp only [Flags.all, Bool.and_self, Bool.true_and, Bool.not_eq_true', decide_eq_false_iff_not,
    List.length_eq_zero_iff, ne_eq]

/-- **C14**, TopSorted. -/
theorem topSorted_iff (f : List (List (RArc W))) :
    (flagsOf f).topSorted = true ↔ ∀ a ∈ f.flatten, a.src ≤ a.dst := by
  have h := foldl_and_field Flags.topSorted (fun _ _ => rfl) (arcsFlags f).flatten Flags.all
  show (List.foldl Flags.and Flags.all (arcsFlags f).flatten).topSorted = true ↔ _
  rw [h]
  simp only [Flags.all, Bool.true_and]
  rw [all_arcs]
  simp only [arcFlags, Bool.not_eq_true', decide_eq_false_iff_not, Int.not_lt]
  constructor
  · intro h a ha
    obtain ⟨row, hr, ha⟩ := List.mem_flatten.mp ha
    obtain ⟨s, hs⟩ := List.getElem?_of_mem hr
    obtain ⟨k, hk⟩ := List.getElem?_of_mem ha
    exact h s row k a hs hk
  · intro h s row k a hs hk
    exact h a (List.mem_flatten.mpr ⟨row, List.mem_of_getElem? hs, List.mem_of_getElem? hk⟩)

/-- **C14**, TopSortedAndAcyclic. -/
theorem acyclic_iff (f : List (List (RArc W))) :
    (flagsOf f).acyclic = true ↔ ∀ a ∈ f.flatten, a.src < a.dst := by
  have h := foldl_and_field Flags.acyclic (fun _ _ => rfl) (arcsFlags f).flatten Flags.all
  show (List.foldl Flags.and Flags.all (arcsFlags f).flatten).acyclic = true ↔ _
  rw [h]
  simp only [Flags.all, Bool.true_and]
  rw [all_arcs]
  simp only [arcFlags, Bool.not_eq_true', decide_eq_false_iff_not, Int.not_le]
  constructor
  · intro h a ha
    obtain ⟨row, hr, ha⟩ := List.mem_flatten.mp ha
    obtain ⟨s, hs⟩ := List.getElem?_of_mem hr
    obtain ⟨k, hk⟩ := List.getElem?_of_mem ha
    exact h s row k a hs hk
  · intro h s row k a hs hk
    exact h a (List.mem_flatten.mpr ⟨row, List.mem_of_getElem? hs, List.mem_of_getElem? hk⟩)

/-- **C14**, EpsilonFree. -/
theorem epsilonFree_iff (f : List (List (RArc W))) :
    (flagsOf f).epsilonFree = true ↔ ∀ a ∈ f.flatten, a.label ≠ 0 := by
  have h := foldl_and_field Flags.epsilonFree (fun _ _ => rfl) (arcsFlags f).flatten Flags.all
  show (List.foldl Flags.and Flags.all (arcsFlags f).flatten).epsilonFree = true ↔ _
  rw [h]
  simp only [Flags.all, Bool.true_and]
  rw [all_arcs]
  simp only [arcFlags, Bool.not_eq_true', decide_eq_false_iff_not]
  constructor
  · intro h a ha
    obtain ⟨row, hr, ha⟩ := List.mem_flatten.mp ha
    obtain ⟨s, hs⟩ := List.getElem?_of_mem hr
    obtain ⟨k, hk⟩ := List.getElem?_of_mem ha
    exact h s row k a hs hk
  · intro h s row k a hs hk
    exact h a (List.mem_flatten.mpr ⟨row, List.mem_of_getElem? hs, List.mem_of_getElem? hk⟩)

theorem u32_inj (x y : Int) (hx : Int32 x) (hy : Int32 y) (h : u32 x = u32 y) : x = y := by
  unfold u32 Int32 at *; omega

/-- **C14**, ArcSorted: every two arcs leaving a state are in order, although only neighbours are
compared. -/
theorem arcSorted_iff (f : List (List (RArc W))) (hl : ∀ a ∈ f.flatten, Int32 a.label) :
    (flagsOf f).arcSorted = true ↔ ∀ row ∈ f, row.Pairwise leArc := by
  have h := foldl_and_field Flags.arcSorted (fun _ _ => rfl) (arcsFlags f).flatten Flags.all
  show (List.foldl Flags.and Flags.all (arcsFlags f).flatten).arcSorted = true ↔ _
  rw [h]
  simp only [Flags.all, Bool.true_and]
  rw [all_arcs]
  have htr : ∀ a b c : RArc W, leArc a b → leArc b c → leArc a c := by
    intro a b c h1 h2
    unfold leArc at *
    rcases h1 with h1 | ⟨h1, h1'⟩ <;> rcases h2 with h2 | ⟨h2, h2'⟩
    · left; omega
    · left; rw [← h2]; exact h1
    · left; rw [h1]; exact h2
    · right; omega
  constructor
  · intro h row hr
    obtain ⟨s, hs⟩ := List.getElem?_of_mem hr
    rw [pairwise_of_adjacent leArc htr]
    intro k b a hb ha
    have h1 := h s row (k + 1) a hs ha
    have hba := hl b (List.mem_flatten.mpr ⟨row, hr, List.mem_of_getElem? hb⟩)
    have haa := hl a (List.mem_flatten.mpr ⟨row, hr, List.mem_of_getElem? ha⟩)
    rw [if_pos (by omega), Nat.add_sub_cancel, hb] at h1
    simp only [arcFlags, Bool.not_eq_true', Bool.or_eq_false_iff, decide_eq_false_iff_not] at h1
    unfold leArc
    by_cases he : u32 b.label = u32 a.label
    · have := u32_inj _ _ hba haa he
      right; omega
    · left; omega
  · intro h s row k a hs ha
    cases k with
    | zero => rfl
    | succ k =>
      rw [if_pos (by omega), Nat.add_sub_cancel]
      have hk := (List.getElem?_eq_some_iff.mp ha).1
      have hb := List.getElem?_eq_getElem (show k < row.length by omega)
      have h1 := (pairwise_of_adjacent leArc htr row).mp (h row (List.mem_of_getElem? hs)) k _ a hb ha
      rw [hb]
      simp only [arcFlags, Bool.not_eq_true', Bool.or_eq_false_iff, decide_eq_false_iff_not]
      rcases h1 with h1 | ⟨h1, h2⟩
      · refine ⟨by omega, fun h3 => ?_⟩
        rw [h3.1] at h1; omega
      · rw [h1]; omega

/-- **C14**, ArcSortedAndDeterministic. -/
theorem deterministic_iff (f : List (List (RArc W))) :
    (flagsOf f).deterministic = true ↔
      ∀ row ∈ f, row.Pairwise (fun b a => u32 b.label < u32 a.label) := by
  have h := foldl_and_field Flags.deterministic (fun _ _ => rfl) (arcsFlags f).flatten Flags.all
  show (List.foldl Flags.and Flags.all (arcsFlags f).flatten).deterministic = true ↔ _
  rw [h]
  simp only [Flags.all, Bool.true_and]
  rw [all_arcs]
  have htr : ∀ a b c : RArc W, u32 a.label < u32 b.label → u32 b.label < u32 c.label →
      u32 a.label < u32 c.label := fun a b c h1 h2 => by omega
  constructor
  · intro h row hr
    obtain ⟨s, hs⟩ := List.getElem?_of_mem hr
    rw [pairwise_of_adjacent _ htr]
    intro k b a hb ha
    have h1 := h s row (k + 1) a hs ha
    rw [if_pos (by omega), Nat.add_sub_cancel, hb] at h1
    simp only [arcFlags, Bool.not_eq_true', decide_eq_false_iff_not] at h1
    omega
  · intro h s row k a hs ha
    cases k with
    | zero => rfl
    | succ k =>
      rw [if_pos (by omega), Nat.add_sub_cancel]
      have hk := (List.getElem?_eq_some_iff.mp ha).1
      have hb := List.getElem?_eq_getElem (show k < row.length by omega)
      have h1 := (pairwise_of_adjacent _ htr row).mp (h row (List.mem_of_getElem? hs)) k _ a hb ha
      rw [hb]
      simp only [arcFlags, Bool.not_eq_true', decide_eq_false_iff_not]
      omega

/-- **C14**, MaybeAccessible. -/
theorem accessible_iff (f : List (List (RArc W))) :
    (flagsOf f).accessible = true ↔ SpecAccessible f := by
  have h := foldl_and_field Flags.accessible (fun _ _ => rfl) (arcsFlags f).flatten Flags.all
  show ((List.foldl Flags.and Flags.all (arcsFlags f).flatten).accessible &&
    ((List.range f.length).map (reachOf f)).foldl (· && ·) true) = true ↔ _
  have h2 : (arcsFlags f).flatten.all Flags.accessible = true := by
    rw [all_arcs]; intros; rfl
  rw [h, h2, foldl_and_bool]
  simp only [Flags.all, Bool.true_and, List.all_map, List.all_eq_true, List.mem_range,
    Function.comp_apply, id, SpecAccessible]
  constructor
  · intro h
    by_cases hf : f = []
    · exact Or.inl hf
    · have hne : f.flatten ≠ [] := by
        have h0 := h 0 (List.length_pos_of_ne_nil hf)
        simp only [reachOf, Bool.or_eq_true, decide_eq_true_eq, Bool.and_eq_true] at h0
        rcases h0 with ⟨a, ha, _⟩ | h0
        · intro hc; rw [hc] at ha; simp at ha
        · exact h0.1
      refine Or.inr ⟨hne, fun s hs => ?_⟩
      have := h s hs
      simp only [reachOf, Bool.or_eq_true, decide_eq_true_eq, Bool.and_eq_true, beq_iff_eq] at this
      rcases this with ⟨a, ha, h1, h2⟩ | ⟨_, h1⟩
      · exact Or.inr ⟨a, ha, h2, fun h => h1 h.symm⟩
      · exact Or.inl h1
  · rintro (rfl | ⟨hne, h⟩) s hs
    · simp at hs
    · simp only [reachOf, Bool.or_eq_true, decide_eq_true_eq, Bool.and_eq_true, beq_iff_eq]
      rcases h s hs with rfl | ⟨a, ha, h1, h2⟩
      · exact Or.inr ⟨hne, rfl⟩
      · exact Or.inl ⟨a, ha, fun h => h2 h.symm, h1⟩

/-- **C14**, MaybeCoaccessible. -/
theorem coaccessible_iff (f : List (List (RArc W))) :
    (flagsOf f).coaccessible = true ↔ SpecCoaccessible f := by
  have h := foldl_and_field Flags.coaccessible (fun _ _ => rfl) (arcsFlags f).flatten Flags.all
  show ((List.foldl Flags.and Flags.all (arcsFlags f).flatten).coaccessible &&
    ((List.range f.length).map (coreachOf f)).foldl (· && ·) true) = true ↔ _
  have h2 : (arcsFlags f).flatten.all Flags.coaccessible = true := by
    rw [all_arcs]; intros; rfl
  rw [h, h2, foldl_and_bool]
  simp only [Flags.all, Bool.true_and, List.all_map, List.all_eq_true, List.mem_range,
    Function.comp_apply, id, SpecCoaccessible]
  constructor
  · intro h
    by_cases hf : f = []
    · exact Or.inl hf
    · have hlen := List.length_pos_of_ne_nil hf
      have hne : f.flatten ≠ [] := by
        have h0 := h 0 hlen
        simp only [coreachOf, Bool.or_eq_true, decide_eq_true_eq, Bool.and_eq_true] at h0
        rcases h0 with ⟨a, ha, _⟩ | h0
        · intro hc
          rw [List.getElem?_eq_getElem hlen, Option.getD_some] at ha
          have : a ∈ f.flatten := List.mem_flatten.mpr ⟨f[0], List.getElem_mem hlen, ha⟩
          rw [hc] at this; simp at this
        · exact h0.1
      refine Or.inr ⟨hne, fun s row hs => ?_⟩
      have := h s (List.getElem?_eq_some_iff.mp hs).1
      simp only [coreachOf, Bool.or_eq_true, decide_eq_true_eq, Bool.and_eq_true, beq_iff_eq] at this
      rcases this with ⟨a, ha, h1⟩ | ⟨_, h1⟩
      · rw [hs] at ha
        exact Or.inr ⟨a, ha, fun h => h1 h.symm⟩
      · exact Or.inl h1
  · rintro (rfl | ⟨hne, h⟩) s hs
    · simp at hs
    · simp only [coreachOf, Bool.or_eq_true, decide_eq_true_eq, Bool.and_eq_true, beq_iff_eq]
      rcases h s _ (List.getElem?_eq_getElem hs) with h1 | ⟨a, ha, h1⟩
      · exact Or.inr ⟨hne, h1⟩
      · refine Or.inl ⟨a, ?_, fun h => h1 h.symm⟩
        rw [List.getElem?_eq_getElem hs]; exact ha

/-- The properties of a vector of FSAs are those that all its FSAs have. -/
theorem totProperties_eq (l : List Flags) :
    totProperties l = ⟨l.all Flags.valid, l.all Flags.nonempty, l.all Flags.topSorted,
      l.all Flags.acyclic, l.all Flags.arcSorted, l.all Flags.deterministic, l.all Flags.epsilonFree,
      l.all Flags.accessible, l.all Flags.coaccessible⟩ := by
  have h : ∀ (π : Flags → Bool), (∀ a b, π (Flags.and a b) = (π a && π b)) → π Flags.all = true →
      π (totProperties l) = l.all π := by
    intro π h1 h2
    rw [totProperties, foldl_and_field π h1, h2, Bool.true_and]
  rw [← h Flags.valid (fun _ _ => rfl) rfl, ← h Flags.nonempty (fun _ _ => rfl) rfl,
    ← h Flags.topSorted (fun _ _ => rfl) rfl, ← h Flags.acyclic (fun _ _ => rfl) rfl,
    ← h Flags.arcSorted (fun _ _ => rfl) rfl, ← h Flags.deterministic (fun _ _ => rfl) rfl,
    ← h Flags.epsilonFree (fun _ _ => rfl) rfl, ← h Flags.accessible (fun _ _ => rfl) rfl,
    ← h Flags.coaccessible (fun _ _ => rfl) rfl]

/-- **C14.** The property bits that `GetFsaVecBasicProperties` computes for the FSAs of a vector, from
the flat arrays of the vector, mean what they should. -/
theorem properties_spec (T : List (List (List (RArc W))))
    (hl : ∀ a ∈ T.flatten.flatten, Int32 a.label) :
    ∃ l, fsaVecProperties (psum (T.map List.length)) (idsFrom 0 (T.map List.length))
      (psum (T.flatten.map List.length)) (idsFrom 0 (T.flatten.map List.length)) T.flatten.flatten =
      some l ∧ l.length = T.length ∧
    ∀ (i : Nat) (f : List (List (RArc W))) (p : Flags), T[i]? = some f → l[i]? = some p →
      (p.valid = true ↔ SpecValid f) ∧
      (p.nonempty = true ↔ f.flatten ≠ []) ∧
      (p.topSorted = true ↔ ∀ a ∈ f.flatten, a.src ≤ a.dst) ∧
      (p.acyclic = true ↔ ∀ a ∈ f.flatten, a.src < a.dst) ∧
      (p.arcSorted = true ↔ ∀ row ∈ f, row.Pairwise leArc) ∧
      (p.deterministic = true ↔ ∀ row ∈ f, row.Pairwise (fun b a => u32 b.label < u32 a.label)) ∧
      (p.epsilonFree = true ↔ ∀ a ∈ f.flatten, a.label ≠ 0) ∧
      (p.accessible = true ↔ SpecAccessible f) ∧
      (p.coaccessible = true ↔ SpecCoaccessible f) := by
  refine ⟨T.map flagsOf, fsaVecProperties_eq T, by simp, ?_⟩
  intro i f p hf hp
  rw [List.getElem?_map, hf] at hp
  obtain rfl := Option.some.inj hp
  have hl' : ∀ a ∈ f.flatten, Int32 a.label := by
    intro a ha
    obtain ⟨row, hr, ha⟩ := List.mem_flatten.mp ha
    exact hl a (List.mem_flatten.mpr ⟨row, List.mem_flatten.mpr ⟨f, List.mem_of_getElem? hf, hr⟩, ha⟩)
  exact ⟨valid_iff f, nonempty_iff f, topSorted_iff f, acyclic_iff f, arcSorted_iff f hl',
    deterministic_iff f, epsilonFree_iff f, accessible_iff f, coaccessible_iff f⟩

/-- A concrete case: two FSAs; the second one has a self-loop and a state that nothing enters. -/
example : fsaVecProperties [0, 2, 5] [0, 0, 1, 1, 1] [0, 1, 1, 3, 4, 4] [0, 2, 2, 3]
    ([⟨0, 1, -1, 0⟩, ⟨0, 0, 3, 0⟩, ⟨0, 2, -1, 0⟩, ⟨1, 2, -1, 0⟩] : List (RArc Nat)) =
    some [⟨true, true, true, true, true, true, true, true, true⟩,
      ⟨true, true, true, false, true, true, true, false, true⟩] := by decide +kernel

end Verif.Fsa
