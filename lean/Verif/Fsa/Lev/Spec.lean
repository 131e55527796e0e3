/-!
# Edit distance

A small specification that does not mention graphs: alignments of two sequences, their number of
edits, and the Wagner-Fischer recursion, which is proved to be the minimum over the alignments.
-/

namespace Verif.Lev

/-- One step of an alignment of a reference with a hypothesis. -/
inductive Op where
  | mat (x : Int)
  | sub (x y : Int)
  | ins (y : Int)
  | del (x : Int)
  deriving DecidableEq, Repr

def Op.ref : Op → List Int
  | .mat x => [x] | .sub x _ => [x] | .ins _ => [] | .del x => [x]
def Op.hyp : Op → List Int
  | .mat x => [x] | .sub _ y => [y] | .ins y => [y] | .del _ => []
/-- Everything but a match costs one edit. -/
def Op.edit : Op → Nat
  | .mat _ => 0 | _ => 1
def Op.gap : Op → Nat
  | .ins _ => 1 | .del _ => 1 | _ => 0

def refOf (l : List Op) : List Int := l.flatMap Op.ref
def hypOf (l : List Op) : List Int := l.flatMap Op.hyp
def edits (l : List Op) : Nat := (l.map Op.edit).sum
def gaps (l : List Op) : Nat := (l.map Op.gap).sum

/-- `l` aligns `xs` with `ys`. -/
def Aligns (l : List Op) (xs ys : List Int) : Prop := refOf l = xs ∧ hypOf l = ys

/-- The Levenshtein distance. -/
def editDistance : List Int → List Int → Nat
  | [], ys => ys.length
  | xs, [] => xs.length
  | x :: xs, y :: ys =>
    min (editDistance xs (y :: ys) + 1)
      (min (editDistance (x :: xs) ys + 1) (editDistance xs ys + if x = y then 0 else 1))
termination_by xs ys => xs.length + ys.length

@[simp] theorem refOf_cons (o : Op) (l : List Op) : refOf (o :: l) = o.ref ++ refOf l := rfl
@[simp] theorem hypOf_cons (o : Op) (l : List Op) : hypOf (o :: l) = o.hyp ++ hypOf l := rfl
@[simp] theorem edits_cons (o : Op) (l : List Op) : edits (o :: l) = o.edit + edits l := rfl
@[simp] theorem gaps_cons (o : Op) (l : List Op) : gaps (o :: l) = o.gap + gaps l := rfl
@[simp] theorem edits_nil : edits [] = 0 := rfl
@[simp] theorem gaps_nil : gaps [] = 0 := rfl
@[simp] theorem refOf_nil : refOf [] = [] := rfl
@[simp] theorem hypOf_nil : hypOf [] = [] := rfl

theorem editDistance_nil_right (xs : List Int) : editDistance xs [] = xs.length := by
  cases xs <;> simp [editDistance]

theorem editDistance_cons_left (x : Int) (xs ys : List Int) :
    editDistance (x :: xs) ys ≤ editDistance xs ys + 1 := by
  cases ys with
  | nil => simp [editDistance_nil_right]
  | cons y ys => rw [editDistance]; omega

theorem editDistance_cons_right (y : Int) (xs ys : List Int) :
    editDistance xs (y :: ys) ≤ editDistance xs ys + 1 := by
  cases xs with
  | nil => simp [editDistance]
  | cons x xs => rw [editDistance]; omega

/-- No alignment has fewer edits than the distance. -/
theorem editDistance_le (l : List Op) : editDistance (refOf l) (hypOf l) ≤ edits l := by
  induction l with
  | nil => simp [editDistance]
  | cons o l ih =>
    cases o with
    | mat x =>
      simp only [refOf_cons, hypOf_cons, Op.ref, Op.hyp, List.singleton_append, edits_cons, Op.edit]
      rw [editDistance]; simp; omega
    | sub x y =>
      simp only [refOf_cons, hypOf_cons, Op.ref, Op.hyp, List.singleton_append, edits_cons, Op.edit]
      rw [editDistance]; split <;> omega
    | ins y =>
      simp only [refOf_cons, hypOf_cons, Op.ref, Op.hyp, List.singleton_append, List.nil_append,
        edits_cons, Op.edit]
      have := editDistance_cons_right y (refOf l) (hypOf l); omega
    | del x =>
      simp only [refOf_cons, hypOf_cons, Op.ref, Op.hyp, List.singleton_append, List.nil_append,
        edits_cons, Op.edit]
      have := editDistance_cons_left x (refOf l) (hypOf l); omega

theorem aligns_ins (ys : List Int) : Aligns (ys.map Op.ins) [] ys ∧ edits (ys.map Op.ins) = ys.length := by
  induction ys with
  | nil => exact ⟨⟨rfl, rfl⟩, rfl⟩
  | cons y ys ih =>
    obtain ⟨⟨h1, h2⟩, h3⟩ := ih
    refine ⟨⟨?_, ?_⟩, ?_⟩
    · simp [Op.ref, h1]
    · simp [Op.hyp, h2]
    · simp [Op.edit, h3]; omega

theorem aligns_del (xs : List Int) : Aligns (xs.map Op.del) xs [] ∧ edits (xs.map Op.del) = xs.length := by
  induction xs with
  | nil => exact ⟨⟨rfl, rfl⟩, rfl⟩
  | cons y ys ih =>
    obtain ⟨⟨h1, h2⟩, h3⟩ := ih
    refine ⟨⟨?_, ?_⟩, ?_⟩
    · simp [Op.ref, h1]
    · simp [Op.hyp, h2]
    · simp [Op.edit, h3]; omega

/-- Some alignment has as many edits as the distance. -/
theorem editDistance_attained (n : Nat) : ∀ xs ys : List Int, xs.length + ys.length ≤ n →
    ∃ l, Aligns l xs ys ∧ edits l = editDistance xs ys := by
  induction n with
  | zero =>
    intro xs ys h
    have h1 : xs = [] := List.eq_nil_of_length_eq_zero (by omega)
    have h2 : ys = [] := List.eq_nil_of_length_eq_zero (by omega)
    subst h1; subst h2
    exact ⟨[], ⟨rfl, rfl⟩, by simp [editDistance]⟩
  | succ n ih =>
    intro xs ys h
    cases xs with
    | nil => exact ⟨ys.map Op.ins, (aligns_ins ys).1, by rw [(aligns_ins ys).2]; simp [editDistance]⟩
    | cons x xs =>
      cases ys with
      | nil =>
        exact ⟨(x :: xs).map Op.del, (aligns_del (x :: xs)).1, by
          rw [(aligns_del (x :: xs)).2, editDistance_nil_right]⟩
      | cons y ys =>
        simp only [List.length_cons] at h
        obtain ⟨l1, ⟨a1, b1⟩, e1⟩ := ih xs (y :: ys) (by simp; omega)
        obtain ⟨l2, ⟨a2, b2⟩, e2⟩ := ih (x :: xs) ys (by simp; omega)
        obtain ⟨l3, ⟨a3, b3⟩, e3⟩ := ih xs ys (by omega)
        have hmin : editDistance (x :: xs) (y :: ys) = editDistance xs (y :: ys) + 1 ∨
            editDistance (x :: xs) (y :: ys) = editDistance (x :: xs) ys + 1 ∨
            editDistance (x :: xs) (y :: ys) = editDistance xs ys + if x = y then 0 else 1 := by
          rw [editDistance]; omega
        rcases hmin with hm | hm | hm
        · exact ⟨.del x :: l1, ⟨by simp [Op.ref, a1], by simp [Op.hyp, b1]⟩, by
            simp [Op.edit, e1, hm]; omega⟩
        · exact ⟨.ins y :: l2, ⟨by simp [Op.ref, a2], by simp [Op.hyp, b2]⟩, by
            simp [Op.edit, e2, hm]; omega⟩
        · by_cases hxy : x = y
          · subst hxy
            exact ⟨.mat x :: l3, ⟨by simp [Op.ref, a3], by simp [Op.hyp, b3]⟩, by
              simp [Op.edit, e3, hm]⟩
          · exact ⟨.sub x y :: l3, ⟨by simp [Op.ref, a3], by simp [Op.hyp, b3]⟩, by
              simp [Op.edit, e3, hm, hxy]; omega⟩

theorem gaps_le (l : List Op) : gaps l ≤ (refOf l).length + (hypOf l).length := by
  induction l with
  | nil => simp
  | cons o l ih => cases o <;> simp [Op.ref, Op.hyp, Op.gap] <;> omega

end Verif.Lev
