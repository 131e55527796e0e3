import Verif.Fsa.Lev.Model
import Verif.Fsa.Lev.Spec
import Mathlib.Tactic.Linarith
import Mathlib.Tactic.Ring
import Mathlib.Algebra.Order.Field.Rat
import Mathlib.Tactic.Push

/-! Pairs of paths with equal labels in two Levenshtein graphs. -/

namespace Verif.Fsa.Lev
open Verif.Fsa Verif.Lev

def levArcs (s : ℚ) (xs : List Int) : List (Arc Tag) :=
  (List.range (xs.length + 2)).flatMap (levRow s xs)

theorem levRow_src (s : ℚ) (xs : List Int) (i : Nat) (a : Arc Tag) (h : a ∈ levRow s xs i) :
    a.src = i := by
  unfold levRow at h
  split at h
  · simp only [List.mem_cons, List.not_mem_nil, or_false] at h
    rcases h with rfl | rfl | rfl <;> rfl
  · split at h
    · simp only [List.mem_cons, List.not_mem_nil, or_false] at h
      rcases h with rfl | rfl <;> rfl
    · simp at h

/-- The arcs leaving state `i`. -/
theorem levArcs_from (s : ℚ) (xs : List Int) (i : Nat) (a : Arc Tag) :
    (a ∈ levArcs s xs ∧ a.src = i) ↔ i ≤ xs.length ∧ (a = loopArc s i ∨
      (∃ x, xs[i]? = some x ∧ (a = blankArc i x ∨ a = symArc i x)) ∨
      (i = xs.length ∧ a = finalArc i)) := by
  have h1 : (a ∈ levArcs s xs ∧ a.src = i) ↔ i < xs.length + 2 ∧ a ∈ levRow s xs i := by
    unfold levArcs
    rw [List.mem_flatMap]
    constructor
    · rintro ⟨⟨j, hj, ha⟩, hs⟩
      have := levRow_src s xs j a ha
      rw [hs] at this
      subst this
      exact ⟨List.mem_range.mp hj, ha⟩
    · rintro ⟨hi, ha⟩
      exact ⟨⟨i, List.mem_range.mpr hi, ha⟩, levRow_src s xs i a ha⟩
  rw [h1]
  unfold levRow
  by_cases hi : i < xs.length
  · rw [List.getElem?_eq_getElem hi]
    simp only [List.mem_cons, List.not_mem_nil, or_false]
    constructor
    · rintro ⟨_, h | h | h⟩
      · exact ⟨by omega, Or.inl h⟩
      · exact ⟨by omega, Or.inr (Or.inl ⟨_, rfl, Or.inl h⟩)⟩
      · exact ⟨by omega, Or.inr (Or.inl ⟨_, rfl, Or.inr h⟩)⟩
    · rintro ⟨_, h | ⟨x, hx, h | h⟩ | ⟨h, _⟩⟩
      · exact ⟨by omega, Or.inl h⟩
      · obtain rfl := Option.some.inj hx
        exact ⟨by omega, Or.inr (Or.inl h)⟩
      · obtain rfl := Option.some.inj hx
        exact ⟨by omega, Or.inr (Or.inr h)⟩
      · omega
  · rw [List.getElem?_eq_none (by omega)]
    simp only
    by_cases he : i = xs.length
    · rw [if_pos he]
      simp only [List.mem_cons, List.not_mem_nil, or_false]
      constructor
      · rintro ⟨_, h | h⟩
        · exact ⟨by omega, Or.inl h⟩
        · exact ⟨by omega, Or.inr (Or.inr ⟨he, h⟩)⟩
      · rintro ⟨_, h | ⟨x, hx, _⟩ | ⟨_, h⟩⟩
        · exact ⟨by omega, Or.inl h⟩
        · simp at hx
        · exact ⟨by omega, Or.inr h⟩
    · rw [if_neg he]
      simp only [List.not_mem_nil, and_false, false_iff, not_and]
      intro h; omega

def sc (p : List (Arc Tag)) : ℚ := (p.map (fun a => a.score.1)).sum
def off (p : List (Arc Tag)) : ℚ := (p.map (fun a => a.score.2.2)).sum

@[simp] theorem sc_nil : sc [] = 0 := rfl
@[simp] theorem off_nil : off [] = 0 := rfl
@[simp] theorem sc_cons (a : Arc Tag) (p : List (Arc Tag)) : sc (a :: p) = a.score.1 + sc p := by
  simp [sc]
@[simp] theorem off_cons (a : Arc Tag) (p : List (Arc Tag)) :
    off (a :: p) = a.score.2.2 + off p := by simp [off]

/-- The score of an alignment before the offset is taken away: every edit costs 1 and every
insertion or deletion a further `-s - 1/2`. -/
def rawScore (s : ℚ) (l : List Op) : ℚ := -(edits l : ℚ) + (gaps l : ℚ) * (s + 1/2)

/-- What one step of the lattice shows: common label, reference symbol, hypothesis symbol. -/
def Op.shown : Op → Int × Int × Int
  | .mat x => (x, x, x) | .sub x y => (0, x, y) | .ins y => (0, 0, y) | .del x => (0, x, 0)

/-- Label and both aux labels along a pair of paths. -/
def shown (p q : List (Arc Tag)) : List (Int × Int × Int) :=
  List.zipWith (fun a b => (a.label, a.score.2.1, b.score.2.1)) p q

/-- A pair of self-loops, which `remove_epsilon_self_loops` removes. -/
def idle : Int × Int × Int := (0, 0, 0)

/-- A pair of accepting paths with equal labels: a path of the lattice. -/
def Joint (s : ℚ) (xs ys : List Int) (i j : Nat) (p q : List (Arc Tag)) : Prop :=
  Path (levArcs s xs) i p (xs.length + 1) ∧ Path (levArcs s ys) j q (ys.length + 1) ∧
    labels p = labels q

theorem path_from_final (s : ℚ) (xs : List Int) (p : List (Arc Tag))
    (h : Path (levArcs s xs) (xs.length + 1) p (xs.length + 1)) : p = [] := by
  cases p with
  | nil => rfl
  | cons a p =>
    rw [path_cons] at h
    have := (levArcs_from s xs _ a).mp ⟨h.1, h.2.1⟩
    omega

theorem drop_cons {xs : List Int} {i : Nat} {x : Int} (h : xs[i]? = some x) :
    xs.drop i = x :: xs.drop (i + 1) := by
  obtain ⟨hi, rfl⟩ := List.getElem?_eq_some_iff.mp h
  exact List.drop_eq_getElem_cons hi

theorem joint_sound (s : ℚ) (xs ys : List Int) (hx0 : (0 : Int) ∉ xs) (hx1 : (-1 : Int) ∉ xs)
    (hy0 : (0 : Int) ∉ ys) (hy1 : (-1 : Int) ∉ ys) (p : List (Arc Tag)) :
    ∀ (q : List (Arc Tag)) (i j : Nat), i ≤ xs.length → j ≤ ys.length → Joint s xs ys i j p q →
      ∃ (l : List Op) (k : Nat), Aligns l (xs.drop i) (ys.drop j) ∧
        sc p + sc q = rawScore s l + (k : ℚ) * (2 * s) ∧
        off p + off q = (gaps l : ℚ) * (s + 1/2) + (k : ℚ) * (2 * s + 1) ∧
        (shown p q).filter (· ≠ idle) = l.map Op.shown ++ [(-1, -1, -1)] ∧
        (shown p q).count idle = k := by
  induction p with
  | nil =>
    rintro q i j hi hj ⟨h1, _, _⟩
    rw [path_nil] at h1; omega
  | cons a p ih =>
    rintro q i j hi hj ⟨h1, h2, h3⟩
    cases q with
    | nil => rw [path_nil] at h2; omega
    | cons b q =>
      rw [path_cons] at h1 h2
      rw [labels_cons, labels_cons, List.cons.injEq] at h3
      obtain ⟨hlab, h3⟩ := h3
      have ca := (levArcs_from s xs i a).mp ⟨h1.1, h1.2.1⟩
      have cb := (levArcs_from s ys j b).mp ⟨h2.1, h2.2.1⟩
      have p1 := h1.2.2
      have p2 := h2.2.2
      have nx : ∀ x, xs[i]? = some x → x ≠ 0 ∧ x ≠ -1 ∧ i < xs.length := by
        intro x hx
        have hm := List.mem_of_getElem? hx
        exact ⟨fun h => hx0 (h ▸ hm), fun h => hx1 (h ▸ hm), (List.getElem?_eq_some_iff.mp hx).1⟩
      have ny : ∀ x, ys[j]? = some x → x ≠ 0 ∧ x ≠ -1 ∧ j < ys.length := by
        intro x hx
        have hm := List.mem_of_getElem? hx
        exact ⟨fun h => hy0 (h ▸ hm), fun h => hy1 (h ▸ hm), (List.getElem?_eq_some_iff.mp hx).1⟩
      rcases ca.2 with rfl | ⟨x, hx, rfl | rfl⟩ | ⟨hie, rfl⟩ <;>
        rcases cb.2 with rfl | ⟨y, hy, rfl | rfl⟩ | ⟨hje, rfl⟩ <;>
        simp only [loopArc, blankArc, symArc, finalArc] at hlab p1 p2
      · -- both stay
        obtain ⟨l, k, e1, e2, e3, e4, e5⟩ := ih q i j hi hj ⟨p1, p2, h3⟩
        refine ⟨l, k + 1, e1, ?_, ?_, ?_, ?_⟩
        · simp only [sc_cons, loopArc]; push_cast; linarith
        · simp only [off_cons, loopArc]; push_cast; linarith
        · rw [shown, List.zipWith_cons_cons, List.filter_cons, if_neg (by simp [loopArc, idle])]; exact e4
        · rw [shown, List.zipWith_cons_cons, show ((loopArc s i).label, (loopArc s i).score.2.1,
            (loopArc s j).score.2.1) = idle from rfl, List.count_cons_self]
          exact congrArg (· + 1) e5
      · -- insertion
        obtain ⟨n0, n1, n2⟩ := ny y hy
        obtain ⟨l, k, e1, e2, e3, e4, e5⟩ := ih q i (j + 1) hi n2 ⟨p1, p2, h3⟩
        have hne : ((loopArc s i).label, (loopArc s i).score.2.1,
            (blankArc j y).score.2.1) ≠ idle := by
          simp [loopArc, blankArc, idle, n0]
        refine ⟨.ins y :: l, k, ⟨by simp [Op.ref, e1.1], ?_⟩, ?_, ?_, ?_, ?_⟩
        · rw [hypOf_cons, e1.2, drop_cons hy]; rfl
        · simp only [sc_cons, loopArc, blankArc, rawScore, edits_cons, gaps_cons, Op.edit,
            Op.gap] at e2 ⊢
          push_cast; linarith
        · simp only [off_cons, loopArc, blankArc, gaps_cons, Op.gap]; push_cast; linarith
        · rw [shown, List.zipWith_cons_cons, List.filter_cons, if_pos (by simpa using hne)]
          rw [List.map_cons, List.cons_append, ← e4]; rfl
        · rw [shown, List.zipWith_cons_cons, List.count_cons_of_ne hne]
          exact e5
      · exact absurd hlab.symm (ny y hy).1
      · omega
      · -- deletion
        obtain ⟨n0, n1, n2⟩ := nx x hx
        obtain ⟨l, k, e1, e2, e3, e4, e5⟩ := ih q (i + 1) j n2 hj ⟨p1, p2, h3⟩
        have hne : ((blankArc i x).label, (blankArc i x).score.2.1,
            (loopArc s j).score.2.1) ≠ idle := by
          simp [loopArc, blankArc, idle, n0]
        refine ⟨.del x :: l, k, ⟨?_, by simp [Op.hyp, e1.2]⟩, ?_, ?_, ?_, ?_⟩
        · rw [refOf_cons, e1.1, drop_cons hx]; rfl
        · simp only [sc_cons, loopArc, blankArc, rawScore, edits_cons, gaps_cons, Op.edit,
            Op.gap] at e2 ⊢
          push_cast; linarith
        · simp only [off_cons, loopArc, blankArc, gaps_cons, Op.gap]; push_cast; linarith
        · rw [shown, List.zipWith_cons_cons, List.filter_cons, if_pos (by simpa using hne)]
          rw [List.map_cons, List.cons_append, ← e4]; rfl
        · rw [shown, List.zipWith_cons_cons, List.count_cons_of_ne hne]
          exact e5
      · -- substitution
        obtain ⟨n0, n1, n2⟩ := nx x hx
        obtain ⟨m0, m1, m2⟩ := ny y hy
        obtain ⟨l, k, e1, e2, e3, e4, e5⟩ := ih q (i + 1) (j + 1) n2 m2 ⟨p1, p2, h3⟩
        have hne : ((blankArc i x).label, (blankArc i x).score.2.1,
            (blankArc j y).score.2.1) ≠ idle := by
          simp [blankArc, idle, n0]
        refine ⟨.sub x y :: l, k, ⟨?_, ?_⟩, ?_, ?_, ?_, ?_⟩
        · rw [refOf_cons, e1.1, drop_cons hx]; rfl
        · rw [hypOf_cons, e1.2, drop_cons hy]; rfl
        · simp only [sc_cons, blankArc, rawScore, edits_cons, gaps_cons, Op.edit, Op.gap] at e2 ⊢
          push_cast; linarith
        · simp only [off_cons, blankArc, gaps_cons, Op.gap]; push_cast; linarith
        · rw [shown, List.zipWith_cons_cons, List.filter_cons, if_pos (by simpa using hne)]
          rw [List.map_cons, List.cons_append, ← e4]; rfl
        · rw [shown, List.zipWith_cons_cons, List.count_cons_of_ne hne]
          exact e5
      · exact absurd hlab.symm (ny y hy).1
      · omega
      · exact absurd hlab (nx x hx).1
      · exact absurd hlab (nx x hx).1
      · -- match
        subst hlab
        obtain ⟨n0, n1, n2⟩ := nx x hx
        obtain ⟨m0, m1, m2⟩ := ny x hy
        obtain ⟨l, k, e1, e2, e3, e4, e5⟩ := ih q (i + 1) (j + 1) n2 m2 ⟨p1, p2, h3⟩
        have hne : ((symArc i x).label, (symArc i x).score.2.1,
            (symArc j x).score.2.1) ≠ idle := by
          simp [symArc, idle, n0]
        refine ⟨.mat x :: l, k, ⟨?_, ?_⟩, ?_, ?_, ?_, ?_⟩
        · rw [refOf_cons, e1.1, drop_cons hx]; rfl
        · rw [hypOf_cons, e1.2, drop_cons hy]; rfl
        · simp only [sc_cons, symArc, rawScore, edits_cons, gaps_cons, Op.edit, Op.gap] at e2 ⊢
          push_cast; linarith
        · simp only [off_cons, symArc, gaps_cons, Op.gap]; push_cast; linarith
        · rw [shown, List.zipWith_cons_cons, List.filter_cons, if_pos (by simpa using hne)]
          rw [List.map_cons, List.cons_append, ← e4]; rfl
        · rw [shown, List.zipWith_cons_cons, List.count_cons_of_ne hne]
          exact e5
      · exact absurd hlab (nx x hx).2.1
      · omega
      · omega
      · exact absurd hlab.symm (ny y hy).2.1
      · -- end
        subst hie hje
        have := path_from_final s xs p p1
        subst this
        have := path_from_final s ys q p2
        subst this
        refine ⟨[], 0, ⟨by simp, by simp⟩, ?_, ?_, ?_, ?_⟩
        · simp [finalArc, rawScore]
        · simp [finalArc]
        · rfl
        · rfl

theorem joint_complete (s : ℚ) (xs ys : List Int) (l : List Op) :
    ∀ (i j : Nat), i ≤ xs.length → j ≤ ys.length → Aligns l (xs.drop i) (ys.drop j) →
      ∃ p q, Joint s xs ys i j p q ∧ sc p + sc q = rawScore s l ∧
        off p + off q = (gaps l : ℚ) * (s + 1/2) ∧
        shown p q = l.map Op.shown ++ [(-1, -1, -1)] := by
  have step : ∀ (zs : List Int) (i : Nat) (x : Int) (t : List Int), i ≤ zs.length →
      x :: t = zs.drop i → zs[i]? = some x ∧ t = zs.drop (i + 1) ∧ i + 1 ≤ zs.length := by
    intro zs i x t _ h
    have hi : i < zs.length := by
      rcases Nat.lt_or_ge i zs.length with h1 | h1
      · exact h1
      · rw [List.drop_of_length_le h1] at h; simp at h
    rw [List.drop_eq_getElem_cons hi, List.cons.injEq] at h
    exact ⟨by rw [List.getElem?_eq_getElem hi, h.1], h.2, hi⟩
  induction l with
  | nil =>
    rintro i j hi hj ⟨h1, h2⟩
    have hi' : i = xs.length := by
      have := congrArg List.length h1; simp at this; omega
    have hj' : j = ys.length := by
      have := congrArg List.length h2; simp at this; omega
    subst hi' hj'
    refine ⟨[finalArc xs.length], [finalArc ys.length], ⟨?_, ?_, rfl⟩, ?_, ?_, rfl⟩
    · obtain ⟨m1, m2⟩ := (levArcs_from s xs xs.length _).mpr
        ⟨Nat.le_refl _, Or.inr (Or.inr ⟨rfl, rfl⟩)⟩
      rw [path_cons, path_nil]; exact ⟨m1, m2, rfl⟩
    · obtain ⟨m1, m2⟩ := (levArcs_from s ys ys.length _).mpr
        ⟨Nat.le_refl _, Or.inr (Or.inr ⟨rfl, rfl⟩)⟩
      rw [path_cons, path_nil]; exact ⟨m1, m2, rfl⟩
    · simp [finalArc, rawScore]
    · simp [finalArc]
  | cons o l ih =>
    rintro i j hi hj ⟨h1, h2⟩
    rw [refOf_cons] at h1
    rw [hypOf_cons] at h2
    cases o with
    | mat x =>
      obtain ⟨a1, a2, a3⟩ := step xs i x _ hi h1
      obtain ⟨b1, b2, b3⟩ := step ys j x _ hj h2
      obtain ⟨p, q, ⟨c1, c2, c3⟩, c4, c5, c6⟩ := ih (i + 1) (j + 1) a3 b3 ⟨a2, b2⟩
      obtain ⟨m1, m2⟩ := (levArcs_from s xs i _).mpr ⟨hi, Or.inr (Or.inl ⟨x, a1, Or.inr rfl⟩)⟩
      obtain ⟨n1, n2⟩ := (levArcs_from s ys j _).mpr ⟨hj, Or.inr (Or.inl ⟨x, b1, Or.inr rfl⟩)⟩
      refine ⟨symArc i x :: p, symArc j x :: q, ⟨(path_cons _ _ _ _ _).mpr ⟨m1, m2, c1⟩,
        (path_cons _ _ _ _ _).mpr ⟨n1, n2, c2⟩, by simp [c3, symArc]⟩, ?_, ?_, ?_⟩
      · simp only [sc_cons, symArc, rawScore, edits_cons, gaps_cons, Op.edit, Op.gap] at c4 ⊢
        push_cast; linarith
      · simp only [off_cons, symArc, gaps_cons, Op.gap]; push_cast; linarith
      · rw [shown, List.zipWith_cons_cons, List.map_cons, List.cons_append, ← c6]; rfl
    | sub x y =>
      obtain ⟨a1, a2, a3⟩ := step xs i x _ hi h1
      obtain ⟨b1, b2, b3⟩ := step ys j y _ hj h2
      obtain ⟨p, q, ⟨c1, c2, c3⟩, c4, c5, c6⟩ := ih (i + 1) (j + 1) a3 b3 ⟨a2, b2⟩
      obtain ⟨m1, m2⟩ := (levArcs_from s xs i _).mpr ⟨hi, Or.inr (Or.inl ⟨x, a1, Or.inl rfl⟩)⟩
      obtain ⟨n1, n2⟩ := (levArcs_from s ys j _).mpr ⟨hj, Or.inr (Or.inl ⟨y, b1, Or.inl rfl⟩)⟩
      refine ⟨blankArc i x :: p, blankArc j y :: q, ⟨(path_cons _ _ _ _ _).mpr ⟨m1, m2, c1⟩,
        (path_cons _ _ _ _ _).mpr ⟨n1, n2, c2⟩, by simp [c3, blankArc]⟩, ?_, ?_, ?_⟩
      · simp only [sc_cons, blankArc, rawScore, edits_cons, gaps_cons, Op.edit, Op.gap] at c4 ⊢
        push_cast; linarith
      · simp only [off_cons, blankArc, gaps_cons, Op.gap]; push_cast; linarith
      · rw [shown, List.zipWith_cons_cons, List.map_cons, List.cons_append, ← c6]; rfl
    | ins y =>
      obtain ⟨b1, b2, b3⟩ := step ys j y _ hj h2
      obtain ⟨p, q, ⟨c1, c2, c3⟩, c4, c5, c6⟩ := ih i (j + 1) hi b3 ⟨h1, b2⟩
      obtain ⟨m1, m2⟩ := (levArcs_from s xs i _).mpr ⟨hi, Or.inl rfl⟩
      obtain ⟨n1, n2⟩ := (levArcs_from s ys j _).mpr ⟨hj, Or.inr (Or.inl ⟨y, b1, Or.inl rfl⟩)⟩
      refine ⟨loopArc s i :: p, blankArc j y :: q, ⟨(path_cons _ _ _ _ _).mpr ⟨m1, m2, c1⟩,
        (path_cons _ _ _ _ _).mpr ⟨n1, n2, c2⟩, by simp [c3, blankArc, loopArc]⟩, ?_, ?_, ?_⟩
      · simp only [sc_cons, loopArc, blankArc, rawScore, edits_cons, gaps_cons, Op.edit,
          Op.gap] at c4 ⊢
        push_cast; linarith
      · simp only [off_cons, loopArc, blankArc, gaps_cons, Op.gap]; push_cast; linarith
      · rw [shown, List.zipWith_cons_cons, List.map_cons, List.cons_append, ← c6]; rfl
    | del x =>
      obtain ⟨a1, a2, a3⟩ := step xs i x _ hi h1
      obtain ⟨p, q, ⟨c1, c2, c3⟩, c4, c5, c6⟩ := ih (i + 1) j a3 hj ⟨a2, h2⟩
      obtain ⟨m1, m2⟩ := (levArcs_from s xs i _).mpr ⟨hi, Or.inr (Or.inl ⟨x, a1, Or.inl rfl⟩)⟩
      obtain ⟨n1, n2⟩ := (levArcs_from s ys j _).mpr ⟨hj, Or.inl rfl⟩
      refine ⟨blankArc i x :: p, loopArc s j :: q, ⟨(path_cons _ _ _ _ _).mpr ⟨m1, m2, c1⟩,
        (path_cons _ _ _ _ _).mpr ⟨n1, n2, c2⟩, by simp [c3, blankArc, loopArc]⟩, ?_, ?_, ?_⟩
      · simp only [sc_cons, loopArc, blankArc, rawScore, edits_cons, gaps_cons, Op.edit,
          Op.gap] at c4 ⊢
        push_cast; linarith
      · simp only [off_cons, loopArc, blankArc, gaps_cons, Op.gap]; push_cast; linarith
      · rw [shown, List.zipWith_cons_cons, List.map_cons, List.cons_append, ← c6]; rfl

end Verif.Fsa.Lev
