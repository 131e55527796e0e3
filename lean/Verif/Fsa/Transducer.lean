import Verif.Fsa.Core

/-!
# FSAs with one extra value per arc

Many k2 functions return an FSA together with a parallel array (aux labels, arc map).  Such
an output is a list of pairs.  `TPath` is a path over such a list, `Rel` the set of (input
label sequence, output) pairs of the paths between two states.
-/

namespace Verif.Fsa
variable {W X : Type}

/-- A path over arcs carrying an extra value. -/
def TPath (T : List (Arc W × X)) (s : Nat) (p : List (Arc W × X)) (t : Nat) : Prop :=
  Chain s (p.map Prod.fst) t ∧ ∀ x ∈ p, x ∈ T

theorem tpath_nil (T : List (Arc W × X)) (s t : Nat) : TPath T s [] t ↔ s = t := by
  simp [TPath]

theorem tpath_cons (T : List (Arc W × X)) (s t : Nat) (x : Arc W × X) (p : List (Arc W × X)) :
    TPath T s (x :: p) t ↔ x ∈ T ∧ x.1.src = s ∧ TPath T x.1.dst p t := by
  simp only [TPath, List.map_cons, chain_cons, List.mem_cons, forall_eq_or_imp]
  constructor
  · rintro ⟨⟨h1, h2⟩, h3, h4⟩; exact ⟨h3, h1, h2, h4⟩
  · rintro ⟨h3, h1, h2, h4⟩; exact ⟨⟨h1, h2⟩, h3, h4⟩

theorem tpath_append (T : List (Arc W × X)) (s t : Nat) (p q : List (Arc W × X)) :
    TPath T s (p ++ q) t ↔ ∃ m, TPath T s p m ∧ TPath T m q t := by
  simp only [TPath, List.map_append, chain_append, List.mem_append]
  constructor
  · rintro ⟨⟨m, h1, h2⟩, h⟩
    exact ⟨m, ⟨h1, fun a ha => h a (Or.inl ha)⟩, h2, fun a ha => h a (Or.inr ha)⟩
  · rintro ⟨m, ⟨h1, h3⟩, h2, h4⟩
    exact ⟨⟨m, h1, h2⟩, fun a ha => ha.elim (h3 a) (h4 a)⟩

/-- Forgetting the extra values gives a path, and every path arises that way. -/
theorem path_map_fst (T : List (Arc W × X)) (s t : Nat) (q : List (Arc W)) :
    Path (T.map Prod.fst) s q t ↔ ∃ p, TPath T s p t ∧ p.map Prod.fst = q := by
  constructor
  · rintro ⟨hc, hm⟩
    have : ∀ q : List (Arc W), (∀ a ∈ q, a ∈ T.map Prod.fst) →
        ∃ p : List (Arc W × X), p.map Prod.fst = q ∧ ∀ x ∈ p, x ∈ T := by
      intro q
      induction q with
      | nil => intro _; exact ⟨[], rfl, by simp⟩
      | cons a q ih =>
        intro h
        obtain ⟨p, hp, hpT⟩ := ih (fun b hb => h b (List.mem_cons_of_mem _ hb))
        obtain ⟨x, hx, hxa⟩ := List.mem_map.mp (h a (by simp))
        refine ⟨x :: p, by simp [hp, hxa], ?_⟩
        intro y hy
        rcases List.mem_cons.mp hy with rfl | hy
        · exact hx
        · exact hpT y hy
    obtain ⟨p, hp, hpT⟩ := this q hm
    exact ⟨p, ⟨by rw [hp]; exact hc, hpT⟩, hp⟩
  · rintro ⟨p, ⟨hc, hm⟩, rfl⟩
    exact ⟨hc, fun a ha => by
      obtain ⟨x, hx, rfl⟩ := List.mem_map.mp ha
      exact List.mem_map.mpr ⟨x, hm x hx, rfl⟩⟩

/-- Input labels of a path. -/
def ilabels (p : List (Arc W × X)) : List Int := labels (p.map Prod.fst)

/-- Output string of a path whose extra values are aux labels. -/
def ostring (p : List (Arc W × Int)) : List Int := strip (p.map Prod.snd)

@[simp] theorem ilabels_nil : ilabels ([] : List (Arc W × X)) = [] := rfl
@[simp] theorem ilabels_cons (x : Arc W × X) (p : List (Arc W × X)) :
    ilabels (x :: p) = x.1.label :: ilabels p := rfl
@[simp] theorem ostring_nil : ostring ([] : List (Arc W × Int)) = [] := rfl
theorem ostring_cons (x : Arc W × Int) (p : List (Arc W × Int)) :
    ostring (x :: p) = strip [x.2] ++ ostring p := by
  simp [ostring, strip, List.filter_cons]
  split <;> simp

/-- `(l, o)` is spelled by some path from `s` to `t`. -/
def Rel (T : List (Arc W × Int)) (t : Nat) (s : Nat) (l o : List Int) : Prop :=
  ∃ p, TPath T s p t ∧ ilabels p = l ∧ ostring p = o

theorem rel_nil (T : List (Arc W × Int)) (t s : Nat) (o : List Int) :
    Rel T t s [] o ↔ s = t ∧ o = [] := by
  constructor
  · rintro ⟨p, hp, hl, ho⟩
    cases p with
    | nil => exact ⟨(tpath_nil _ _ _).mp hp, ho.symm⟩
    | cons x p => simp at hl
  · rintro ⟨rfl, rfl⟩
    exact ⟨[], (tpath_nil _ _ _).mpr rfl, rfl, rfl⟩

theorem rel_cons (T : List (Arc W × Int)) (t s : Nat) (i : Int) (l o : List Int) :
    Rel T t s (i :: l) o ↔
      ∃ x ∈ T, x.1.src = s ∧ x.1.label = i ∧ ∃ o', o = strip [x.2] ++ o' ∧ Rel T t x.1.dst l o' := by
  constructor
  · rintro ⟨p, hp, hl, ho⟩
    cases p with
    | nil => simp at hl
    | cons x p =>
      obtain ⟨h1, h2, h3⟩ := (tpath_cons _ _ _ _ _).mp hp
      simp only [ilabels_cons, List.cons.injEq] at hl
      rw [ostring_cons] at ho
      exact ⟨x, h1, h2, hl.1, _, ho.symm, p, h3, hl.2, rfl⟩
  · rintro ⟨x, h1, h2, h3, o', ho, p, hp, hl, ho'⟩
    refine ⟨x :: p, (tpath_cons _ _ _ _ _).mpr ⟨h1, h2, hp⟩, by simp [h3, hl], ?_⟩
    rw [ostring_cons, ho', ho]

/-- At most one arc per source state and input label. -/
def Deterministic (T : List (Arc W × X)) : Prop :=
  ∀ x ∈ T, ∀ y ∈ T, x.1.src = y.1.src → x.1.label = y.1.label → x = y

theorem deterministic_unique (T : List (Arc W × X)) (h : Deterministic T) (s t t' : Nat)
    (p q : List (Arc W × X)) (hp : TPath T s p t) (hq : TPath T s q t')
    (hl : ilabels p = ilabels q) : p = q := by
  induction p generalizing s q with
  | nil =>
    cases q with
    | nil => rfl
    | cons y q => simp at hl
  | cons x p ih =>
    cases q with
    | nil => simp at hl
    | cons y q =>
      simp only [ilabels_cons, List.cons.injEq] at hl
      obtain ⟨h1, h2, h3⟩ := (tpath_cons _ _ _ _ _).mp hp
      obtain ⟨g1, g2, g3⟩ := (tpath_cons _ _ _ _ _).mp hq
      have : x = y := h x h1 y g1 (h2.trans g2.symm) hl.1
      subst this
      rw [ih _ _ h3 g3 hl.2]

end Verif.Fsa
