/-!
# FSAs, paths and languages

Data layout of k2 FSAs (`k2/csrc/fsa.h` 30-60, 109-116) and the vocabulary in which the
specifications of the FSA algorithms are written.

* `Arc`  : `struct Arc`, fsa.h 30-36.  The score type `W` is a parameter (in the code it is
  `float`; rounding is not modelled).  State numbers are `Nat`, labels are `Int`.
* `Fsa`  : `Ragged<Arc>` with two axes: the number of states and the arcs in storage order.
  The row_splits of the state axis are determined by the sources of the arcs, which is part
  of `Fsa.Sorted`.
* state 0 is the start, the last state is the final state, label 0 is epsilon and label -1
  marks arcs that enter the final state.
-/

namespace Verif.Fsa

/-- `struct Arc`, k2/csrc/fsa.h 30-36. -/
structure Arc (W : Type) where
  src : Nat
  dst : Nat
  label : Int
  score : W
  deriving DecidableEq, Repr

/-- `using Fsa = Ragged<Arc>` with axes [state][arc], k2/csrc/fsa.h 109. -/
structure Fsa (W : Type) where
  numStates : Nat
  arcs : List (Arc W)
  deriving DecidableEq, Repr

variable {W : Type}

/-- The final state: the last one. -/
def Fsa.final (f : Fsa W) : Nat := f.numStates - 1

/-- Arcs are stored grouped by source state, in order of state. -/
def Fsa.Sorted (f : Fsa W) : Prop := f.arcs.Pairwise (fun a b => a.src ≤ b.src)

/-- What `k2/csrc/fsa.h` documents a valid non-empty FSA to be: at least two states, arcs
grouped by source state, all state numbers in range, label -1 exactly on the arcs entering
the final state, no arc leaving the final state. -/
structure Fsa.Valid (f : Fsa W) : Prop where
  two : 2 ≤ f.numStates
  sorted : f.Sorted
  src_lt : ∀ a ∈ f.arcs, a.src < f.final
  dst_lt : ∀ a ∈ f.arcs, a.dst < f.numStates
  final_iff : ∀ a ∈ f.arcs, a.label = -1 ↔ a.dst = f.final

/-! ## Paths -/

/-- `p` is a connected sequence of arcs from `s` to `t`. -/
def Chain : Nat → List (Arc W) → Nat → Prop
  | s, [], t => s = t
  | s, a :: p, t => a.src = s ∧ Chain a.dst p t

/-- `p` is a path over the arcs in `A`. -/
def Path (A : List (Arc W)) (s : Nat) (p : List (Arc W)) (t : Nat) : Prop :=
  Chain s p t ∧ ∀ a ∈ p, a ∈ A

/-- A path given by arc positions (as the arc maps of the code do); this distinguishes
parallel identical arcs. -/
def IPath (A : List (Arc W)) (s : Nat) (is : List Nat) (t : Nat) : Prop :=
  ∃ p, Chain s p t ∧ is.map (fun i => A[i]?) = p.map some

/-- The labels along a path. -/
def labels (p : List (Arc W)) : List Int := p.map Arc.label

/-- The score of a path: the sum of its arc scores. -/
def score [Add W] [Zero W] (p : List (Arc W)) : W := (p.map Arc.score).sum

/-- The labels without epsilons and final markers. -/
def strip (l : List Int) : List Int := l.filter (fun x => x ≠ 0 ∧ x ≠ -1)

/-- `p` is an accepting path of `f`. -/
def Accepting (f : Fsa W) (p : List (Arc W)) : Prop :=
  2 ≤ f.numStates ∧ Path f.arcs 0 p f.final

/-- `f` accepts the string `s` (epsilons removed) with score `w`. -/
def Accepts [Add W] [Zero W] (f : Fsa W) (s : List Int) (w : W) : Prop :=
  ∃ p, Accepting f p ∧ strip (labels p) = s ∧ score p = w

/-- `f` accepts the label sequence `s`, where 0 counts as a symbol (as it does for CTC
graphs, where 0 is the blank), followed by the final label. -/
def AcceptsLit (f : Fsa W) (s : List Int) : Prop :=
  ∃ p, Accepting f p ∧ labels p = s ++ [-1]

/-! ## Basic lemmas -/

@[simp] theorem chain_nil (s t : Nat) : Chain s ([] : List (Arc W)) t ↔ s = t := Iff.rfl

@[simp] theorem chain_cons (s t : Nat) (a : Arc W) (p : List (Arc W)) :
    Chain s (a :: p) t ↔ a.src = s ∧ Chain a.dst p t := Iff.rfl

theorem chain_append (s t : Nat) (p q : List (Arc W)) :
    Chain s (p ++ q) t ↔ ∃ m, Chain s p m ∧ Chain m q t := by
  induction p generalizing s with
  | nil => simp
  | cons a p ih => simp [ih, and_assoc]

theorem path_nil (A : List (Arc W)) (s t : Nat) : Path A s [] t ↔ s = t := by
  simp [Path]

theorem path_cons (A : List (Arc W)) (s t : Nat) (a : Arc W) (p : List (Arc W)) :
    Path A s (a :: p) t ↔ a ∈ A ∧ a.src = s ∧ Path A a.dst p t := by
  simp only [Path, chain_cons, List.mem_cons, forall_eq_or_imp]
  constructor
  · rintro ⟨⟨h1, h2⟩, h3, h4⟩; exact ⟨h3, h1, h2, h4⟩
  · rintro ⟨h3, h1, h2, h4⟩; exact ⟨⟨h1, h2⟩, h3, h4⟩

theorem path_append (A : List (Arc W)) (s t : Nat) (p q : List (Arc W)) :
    Path A s (p ++ q) t ↔ ∃ m, Path A s p m ∧ Path A m q t := by
  simp only [Path, chain_append, List.mem_append]
  constructor
  · rintro ⟨⟨m, h1, h2⟩, h⟩
    exact ⟨m, ⟨h1, fun a ha => h a (Or.inl ha)⟩, h2, fun a ha => h a (Or.inr ha)⟩
  · rintro ⟨m, ⟨h1, h3⟩, h2, h4⟩
    exact ⟨⟨m, h1, h2⟩, fun a ha => ha.elim (h3 a) (h4 a)⟩

theorem Path.mono {A B : List (Arc W)} (h : ∀ a ∈ A, a ∈ B) {s t : Nat} {p : List (Arc W)}
    (hp : Path A s p t) : Path B s p t := ⟨hp.1, fun a ha => h a (hp.2 a ha)⟩

/-- Every arc path is the image of a path of positions. -/
theorem path_iff_ipath (A : List (Arc W)) (s t : Nat) (p : List (Arc W)) :
    Path A s p t ↔ ∃ is : List Nat, is.map (fun i => A[i]?) = p.map some ∧ IPath A s is t := by
  constructor
  · rintro ⟨hc, hm⟩
    have : ∀ q : List (Arc W), (∀ a ∈ q, a ∈ A) →
        ∃ is : List Nat, is.map (fun i => A[i]?) = q.map some := by
      intro q
      induction q with
      | nil => intro _; exact ⟨[], rfl⟩
      | cons a q ih =>
        intro h
        obtain ⟨is, his⟩ := ih (fun b hb => h b (List.mem_cons_of_mem _ hb))
        obtain ⟨i, hi⟩ := List.mem_iff_getElem?.mp (h a (by simp))
        exact ⟨i :: is, by simp [hi, his]⟩
    obtain ⟨is, his⟩ := this p hm
    exact ⟨is, his, p, hc, his⟩
  · rintro ⟨is, his, q, hq, hq2⟩
    have : p = q := by
      have h := his.symm.trans hq2
      exact List.map_inj_right (fun _ _ h => Option.some.inj h) |>.mp h
    subst this
    refine ⟨hq, fun a ha => ?_⟩
    have : some a ∈ p.map some := List.mem_map.mpr ⟨a, ha, rfl⟩
    rw [← his] at this
    obtain ⟨i, _, hi⟩ := List.mem_map.mp this
    exact List.mem_iff_getElem?.mpr ⟨i, hi⟩

@[simp] theorem labels_nil : labels ([] : List (Arc W)) = [] := rfl
@[simp] theorem labels_cons (a : Arc W) (p : List (Arc W)) :
    labels (a :: p) = a.label :: labels p := rfl
@[simp] theorem labels_append (p q : List (Arc W)) :
    labels (p ++ q) = labels p ++ labels q := by simp [labels]

@[simp] theorem score_nil [Add W] [Zero W] : score ([] : List (Arc W)) = 0 := rfl
@[simp] theorem score_cons [Add W] [Zero W] (a : Arc W) (p : List (Arc W)) :
    score (a :: p) = a.score + score p := rfl

theorem strip_append (a b : List Int) : strip (a ++ b) = strip a ++ strip b := by
  simp [strip]

end Verif.Fsa
