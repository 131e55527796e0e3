import Verif.Fsa.Compose.Model
import Verif.Fsa.Compose.Spec
import Verif.Fsa.Intersect.Props
import Verif.Fsa.Sort.Props

/-!
# Composition: one pair of FSAs
-/

namespace Verif.Fsa.Comp
open Verif.Fsa Verif.Fsa.Isect Verif.Fsa.Att Verif.Fsa.Top
variable {W : Type}

theorem ipath_move (A B : List (Arc W)) (σ : Nat → Nat)
    (h : ∀ i a, A[i]? = some a → ∃ b, B[σ i]? = some b ∧ b.src = a.src ∧ b.dst = a.dst) (is : List Nat) :
    ∀ s t, IPath A s is t → IPath B s (is.map σ) t := by
  induction is with
  | nil => intro s t hp; exact (ipath_nil B s t).mpr ((ipath_nil A s t).mp hp)
  | cons i is ih =>
    intro s t hp
    obtain ⟨a, h1, h2, h3⟩ := (ipath_cons A s t i is).mp hp
    obtain ⟨b, h4, h5, h6⟩ := h i a h1
    exact (ipath_cons B s t (σ i) (is.map σ)).mpr ⟨b, h4, by rw [h5, h2], by rw [h6]; exact ih _ _ h3⟩

/-- Changing the entries of an arc map. -/
def moveMap (σ : Nat → Nat) (m : List Int) : List Int := m.map (fun x => if x = -1 then -1 else (σ x.toNat : Int))

theorem used_moveMap (σ : Nat → Nat) (m : List Int) (js : List Nat) : used (moveMap σ m) js = (used m js).map σ := by
  unfold used moveMap
  rw [List.map_filterMap]
  refine List.filterMap_congr (fun j _ => ?_)
  rw [List.getElem?_map]
  cases m[j]? with
  | none => rfl
  | some x =>
    by_cases hx : x = -1
    · simp [hx]
    · simp only [Option.map_some, Option.bind_some, if_neg hx]
      rw [if_neg (by omega)]
      simp

theorem moveMap_inj (σ : Nat → Nat) (N : Nat) (hσ : ∀ i j, i < N → j < N → σ i = σ j → i = j) (m : List Int)
    (hm : ∀ x ∈ m, x = -1 ∨ (0 ≤ x ∧ x.toNat < N)) (ks ks' : List Nat)
    (h : ks.map (fun k => (moveMap σ m)[k]?) = ks'.map (fun k => (moveMap σ m)[k]?)) :
    ks.map (fun k => m[k]?) = ks'.map (fun k => m[k]?) := by
  induction ks generalizing ks' with
  | nil => cases ks' with
    | nil => rfl
    | cons k' ks' => simp at h
  | cons k ks ih =>
    cases ks' with
    | nil => simp at h
    | cons k' ks' =>
      simp only [List.map_cons, List.cons.injEq] at h ⊢
      refine ⟨?_, ih ks' h.2⟩
      have h1 := h.1
      unfold moveMap at h1
      rw [List.getElem?_map, List.getElem?_map] at h1
      cases e : m[k]? with
      | none => cases e' : m[k']? with
        | none => rfl
        | some y => rw [e, e'] at h1; simp at h1
      | some x => cases e' : m[k']? with
        | none => rw [e, e'] at h1; simp at h1
        | some y =>
          rw [e, e'] at h1
          simp only [Option.map_some, Option.some.injEq] at h1
          rcases hm x (List.mem_of_getElem? e) with hx | ⟨hx, hx'⟩
          · rcases hm y (List.mem_of_getElem? e') with hy | ⟨hy, hy'⟩
            · rw [hx, hy]
            · rw [if_pos hx, if_neg (by omega)] at h1; omega
          · rcases hm y (List.mem_of_getElem? e') with hy | ⟨hy, hy'⟩
            · rw [if_neg (by omega), if_pos hy] at h1; omega
            · rw [if_neg (by omega), if_neg (by omega)] at h1
              have := hσ _ _ hx' hy' (by omega)
              congr 1; omega

/-! ### The inverse with sorted arcs -/

/-- `F` are the arcs of `f` inverted, in another order: arc `i` of `F` is arc `σ i` of `f`, with the output label
as label and the label kept. -/
structure InvOf (f : Fsa W) (fa : List Int) (F : List (Arc W × Int)) (σ τ : Nat → Nat) : Prop where
  len : fa.length = f.arcs.length
  lenF : F.length = f.arcs.length
  lt : ∀ i, i < F.length → σ i < F.length
  lt' : ∀ i, i < F.length → τ i < F.length
  left : ∀ i, i < F.length → τ (σ i) = i
  right : ∀ i, i < F.length → σ (τ i) = i
  get : ∀ i y, F[i]? = some y → ∃ a u, f.arcs[σ i]? = some a ∧ fa[σ i]? = some u ∧
    y = ({ a with label := outLabel f a u }, a.label)

/-- The FSA of these arcs. -/
def fsaOf (f : Fsa W) (F : List (Arc W × Int)) : Fsa W := ⟨f.numStates, F.map Prod.fst⟩

section
variable {f : Fsa W} {fa : List Int} {F : List (Arc W × Int)} {σ τ : Nat → Nat}

theorem InvOf.accept (h : InvOf f fa F σ τ) (is : List Nat) (hi : IAccepting (fsaOf f F) is) : IAccepting f (is.map σ) := by
  refine ⟨hi.1, ipath_move (F.map Prod.fst) f.arcs σ ?_ is _ _ hi.2⟩
  intro i a ha
  rw [List.getElem?_map, Option.map_eq_some_iff] at ha
  obtain ⟨y, hy, rfl⟩ := ha
  obtain ⟨a, u, h1, h2, rfl⟩ := h.get i y hy
  exact ⟨a, h1, rfl, rfl⟩

theorem InvOf.accept' (h : InvOf f fa F σ τ) (is : List Nat) (hi : IAccepting f is) : IAccepting (fsaOf f F) (is.map τ) := by
  refine ⟨hi.1, ipath_move f.arcs (F.map Prod.fst) τ ?_ is _ _ hi.2⟩
  intro i a ha
  have hlt : i < F.length := by
    rw [h.lenF]; exact (List.getElem?_eq_some_iff.mp ha).1
  have hy := List.getElem?_eq_getElem (h.lt' i hlt)
  obtain ⟨a', u, h1, h2, h3⟩ := h.get _ _ hy
  rw [h.right i hlt] at h1
  rw [ha] at h1
  cases h1
  exact ⟨{ a with label := outLabel f a u }, by rw [List.getElem?_map, hy, Option.map_some, h3], rfl, rfl⟩

theorem iaccepting_lt {f : Fsa W} {is : List Nat} (hi : IAccepting f is) : ∀ i ∈ is, i < f.arcs.length := by
  intro i hmem
  have := map_of_iaccepting hi
  have h2 : f.arcs[i]? ∈ is.map (fun i => f.arcs[i]?) := List.mem_map.mpr ⟨i, hmem, rfl⟩
  rw [this] at h2
  obtain ⟨a, _, ha⟩ := List.mem_map.mp h2
  exact (List.getElem?_eq_some_iff.mp ha.symm).1

/-- Labels, scores and outputs along a path. -/
theorem InvOf.path (h : InvOf f fa F σ τ) (is : List Nat) (hi : ∀ i ∈ is, i < F.length) :
    labels (arcsAt (fsaOf f F) is) = outs f fa (is.map σ) ∧
    (arcsAt (fsaOf f F) is).map Arc.score = (arcsAt f (is.map σ)).map Arc.score ∧
    along (F.map Prod.snd) is = labels (arcsAt f (is.map σ)) := by
  induction is with
  | nil => exact ⟨rfl, rfl, rfl⟩
  | cons i is ih =>
    obtain ⟨h1, h2, h3⟩ := ih (fun j hj => hi j (List.mem_cons_of_mem _ hj))
    have hlt := hi i (by simp)
    have hy := List.getElem?_eq_getElem hlt
    obtain ⟨a, u, h4, h5, h6⟩ := h.get _ _ hy
    have e1 : (fsaOf f F).arcs[i]? = some { a with label := outLabel f a u } := by
      show (F.map Prod.fst)[i]? = _
      rw [List.getElem?_map, hy, Option.map_some, h6]
    rw [arcsAt_cons (fsaOf f F) i is _ e1, List.map_cons, arcsAt_cons f (σ i) (is.map σ) a h4]
    refine ⟨?_, ?_, ?_⟩
    · show outLabel f a u :: labels _ = _
      rw [h1]
      unfold outs
      rw [List.filterMap_cons, h4, Option.bind_some, h5, Option.map_some]
    · rw [List.map_cons, List.map_cons, h2]
    · unfold along at h3 ⊢
      rw [List.filterMap_cons, List.getElem?_map, hy, Option.map_some]
      simp only [h6]
      rw [h3]; rfl

theorem InvOf.valid (h : InvOf f fa F σ τ) (hs : (fsaOf f F).Sorted) (hf : f.Valid) : (fsaOf f F).Valid := by
  have key : ∀ b ∈ (fsaOf f F).arcs, ∃ a ∈ f.arcs, ∃ u, b = { a with label := outLabel f a u } := by
    intro b hb
    obtain ⟨i, hi⟩ := List.mem_iff_getElem?.mp hb
    have hi' : (F.map Prod.fst)[i]? = some b := hi
    rw [List.getElem?_map, Option.map_eq_some_iff] at hi'
    obtain ⟨y, hy, rfl⟩ := hi'
    obtain ⟨a, u, h1, _, rfl⟩ := h.get i y hy
    exact ⟨a, List.mem_of_getElem? h1, u, rfl⟩
  refine ⟨hf.two, hs, ?_, ?_, ?_⟩
  · intro b hb
    obtain ⟨a, ha, u, rfl⟩ := key b hb
    exact hf.src_lt a ha
  · intro b hb
    obtain ⟨a, ha, u, rfl⟩ := key b hb
    exact hf.dst_lt a ha
  · intro b hb
    obtain ⟨a, ha, u, rfl⟩ := key b hb
    show outLabel f a u = -1 ↔ a.dst = f.final
    unfold outLabel
    by_cases hd : a.dst = f.final
    · simp [hd]
    · rw [if_neg hd]
      by_cases hu : u = -1
      · simp [hu, hd]
      · simp [hu, hd]

end

/-! ### From intersection to composition -/

/-- An entry of an attribute that an arc map names. -/
def val {A : Type} (l : List A) (d : A) (a : Int) : A := if a = -1 then d else l.getD a.toNat d

theorem val_nat {A : Type} (l : List A) (d : A) (i : Nat) (x : A) (h : l[i]? = some x) : val l d (i : Int) = x := by
  unfold val
  rw [if_neg (by omega), List.getD_eq_getElem?_getD, Int.toNat_natCast, h, Option.getD_some]

theorem noEps_cons (x : Int) (l : List Int) : noEps (x :: l) = if x = 0 then noEps l else x :: noEps l := by
  unfold noEps
  by_cases h : x = 0
  · rw [if_pos h, List.filter_cons_of_neg (by simp [h])]
  · rw [if_neg h, List.filter_cons_of_pos (by simpa using h)]

theorem agree_trans {eps : Bool} {l l' l'' : List Int} (h : Agree eps l l') (h' : Agree eps l' l'') : Agree eps l l'' := by
  unfold Agree at *
  split at h
  · rename_i he; rw [if_pos he] at h' ⊢; exact h.trans h'
  · rename_i he; rw [if_neg he] at h' ⊢; exact h.trans h'

theorem agree_symm {eps : Bool} {l l' : List Int} (h : Agree eps l l') : Agree eps l' l := by
  unfold Agree at *
  split <;> simp_all

/-- An attribute of the result along a path, if an arc without the source arc has the attribute 0. -/
theorem along_used (eps : Bool) (l : List Int) (m : List Int) (r : List Int) (js : List Nat)
    (hr : ∀ j ∈ js, ∃ a, m[j]? = some a ∧ r[j]? = some (val l 0 a) ∧
      ((a = -1 ∧ eps = true) ∨ ∃ i : Nat, a = i ∧ i < l.length)) :
    Agree eps (along r js) (along l (used m js)) := by
  induction js with
  | nil => unfold Agree; split <;> rfl
  | cons j js ih =>
    have ih := ih (fun k hk => hr k (List.mem_cons_of_mem _ hk))
    obtain ⟨a, h1, h2, h3⟩ := hr j (by simp)
    have e1 : along r (j :: js) = val l 0 a :: along r js := by
      unfold along; rw [List.filterMap_cons, h2]
    rcases h3 with ⟨rfl, he⟩ | ⟨i, rfl, hi⟩
    · have e2 : used m (j :: js) = used m js := by
        unfold used; rw [List.filterMap_cons, h1]; rfl
      rw [e1, e2]
      unfold Agree at ih ⊢
      rw [if_pos he] at ih ⊢
      rw [noEps_cons]
      exact ih
    · have e2 : used m (j :: js) = i :: used m js := by
        unfold used; rw [List.filterMap_cons, h1]
        simp only [Option.bind_some]
        rw [if_neg (by omega)]; rfl
      have e3 : along l (i :: used m js) = l[i] :: along l (used m js) := by
        unfold along; rw [List.filterMap_cons, List.getElem?_eq_getElem hi]
      rw [e1, e2, e3, val_nat l 0 i l[i] (List.getElem?_eq_getElem hi)]
      unfold Agree at ih ⊢
      split at ih
      · rename_i he; rw [if_pos he, noEps_cons, noEps_cons, ih]
      · rename_i he; rw [if_neg he, ih]

theorem along_labels (f : Fsa W) (js : List Nat) : along (f.arcs.map Arc.label) js = labels (arcsAt f js) := by
  unfold along labels arcsAt
  rw [List.map_filterMap]
  refine List.filterMap_congr (fun j _ => ?_)
  rw [List.getElem?_map]

/-- The fields of the composition in terms of the intersection. -/
structure Filled [Add W] [Zero W] (F : List (Arc W × Int)) (g : Fsa W) (gb : List Int) (c0 c : Fsa W) (ca ci ma mb : List Int) : Prop where
  states : c.numStates = c0.numStates
  len : c.arcs.length = c0.arcs.length
  lenAux : ca.length = c0.arcs.length
  inner : ci = c0.arcs.map Arc.label
  arc : ∀ (k : Nat) (z : Arc W), c0.arcs[k]? = some z → ∀ a b : Int, ma[k]? = some a → mb[k]? = some b →
    c.arcs[k]? = some (setArc z (val (F.map Prod.snd) 0 a)
      (val (F.map (fun x => x.1.score)) 0 a + val (g.arcs.map Arc.score) 0 b))
  aux : (∀ (k : Nat) (b : Int), mb[k]? = some b → ca[k]? = some (val gb 0 b)) ∨ (gb = g.arcs.map Arc.label ∧ ca = c0.arcs.map Arc.label)

theorem ipath_same (A B : List (Arc W)) (h : ∀ (i : Nat) (a : Arc W), A[i]? = some a → ∃ b, B[i]? = some b ∧ b.src = a.src ∧ b.dst = a.dst)
    (s t : Nat) (is : List Nat) (hp : IPath A s is t) : IPath B s is t := by
  have := ipath_move A B id h is s t hp
  rwa [List.map_id] at this

theorem composition_of_intersection [AddCommMonoid W] {eps : Bool} {f : Fsa W} {fa : List Int} {F : List (Arc W × Int)}
    {σ τ : Nat → Nat} (hF : InvOf f fa F σ τ) (hsF : (fsaOf f F).Sorted) {g : Fsa W} {gb : List Int}
    (hgb : gb.length = g.arcs.length) {c0 c : Fsa W} {ca ci ma mb : List Int}
    (h : IsIntersection eps (fsaOf f F) g c0 ma mb) (hc : Filled F g gb c0 c ca ci ma mb) :
    IsComposition eps f fa g gb c ca ci (moveMap σ ma) mb := by
  have hnum := hc.states
  -- what is known about each arc
  have key : ∀ (k : Nat) (z : Arc W), c0.arcs[k]? = some z → ∃ a b, ma[k]? = some a ∧ mb[k]? = some b ∧ Made eps (fsaOf f F) g z a b ∧
      c.arcs[k]? = some (setArc z (val (F.map Prod.snd) 0 a)
        (val (F.map (fun x => x.1.score)) 0 a + val (g.arcs.map Arc.score) 0 b)) ∧ ca[k]? = some (val gb 0 b) := by
    intro k z hk
    obtain ⟨a, b, h1, h2, h3⟩ := h.arcs k z hk
    refine ⟨a, b, h1, h2, h3, hc.arc k z hk a b h1 h2, ?_⟩
    rcases hc.aux with h4 | ⟨h4, h5⟩
    · exact h4 k b h2
    · rw [h5, List.getElem?_map, hk, Option.map_some, h4]
      congr 1
      rcases h3 with ⟨i, j, x, y, rfl, rfl, hx, hy, hxy, hz, _, _⟩ | ⟨_, i, x, rfl, rfl, hx, hx0, hz, _⟩ | ⟨_, j, y, rfl, rfl, hy, hy0, hz, _⟩
      · rw [val_nat _ _ j y.label (by rw [List.getElem?_map, hy]; rfl), hz, hxy]
      · rw [hz]; rfl
      · rw [val_nat _ _ j y.label (by rw [List.getElem?_map, hy]; rfl), hz, hy0]
  have hget : ∀ (i : Nat) (x : Arc W), (fsaOf f F).arcs[i]? = some x → ∃ a u, f.arcs[σ i]? = some a ∧ fa[σ i]? = some u ∧
      F[i]? = some ({ a with label := outLabel f a u }, a.label) ∧ x = { a with label := outLabel f a u } := by
    intro i x hx
    have hx' : (F.map Prod.fst)[i]? = some x := hx
    rw [List.getElem?_map, Option.map_eq_some_iff] at hx'
    obtain ⟨y, hy, rfl⟩ := hx'
    obtain ⟨a, u, h1, h2, rfl⟩ := hF.get i y hy
    exact ⟨a, u, h1, h2, hy, rfl⟩
  have hcomp : ∀ (k : Nat) (z : Arc W), c0.arcs[k]? = some z → ∃ a b, ma[k]? = some a ∧ mb[k]? = some b ∧
      ∃ z', c.arcs[k]? = some z' ∧ z'.src = z.src ∧ z'.dst = z.dst ∧
      ∃ o, ca[k]? = some o ∧ Composed eps f fa g gb z' o z.label (if a = -1 then -1 else (σ a.toNat : Int)) b ∧ z'.score = z.score ∧
      ((a = -1 ∧ eps = true) ∨ ∃ i : Nat, a = i ∧ i < F.length) ∧ ((b = -1 ∧ eps = true) ∨ ∃ i : Nat, b = i ∧ i < g.arcs.length) := by
    intro k z hk
    obtain ⟨a, b, h1, h2, h3, h4, h5⟩ := key k z hk
    refine ⟨a, b, h1, h2, _, h4, rfl, rfl, _, h5, ?_⟩
    rcases h3 with ⟨i, j, x, y, rfl, rfl, hx, hy, hxy, hz, hzs, he⟩ | ⟨he, i, x, rfl, rfl, hx, hx0, hz, hzs⟩ | ⟨he, j, y, rfl, rfl, hy, hy0, hz, hzs⟩
    · obtain ⟨a, u, ha, hu, hFi, rfl⟩ := hget i x hx
      have hj : j < gb.length := by rw [hgb]; exact (List.getElem?_eq_some_iff.mp hy).1
      have v1 : val (F.map Prod.snd) 0 (i : Int) = a.label := val_nat _ _ i _ (by rw [List.getElem?_map, hFi]; rfl)
      have v2 : val (F.map (fun x => x.1.score)) 0 (i : Int) = a.score := val_nat _ _ i _ (by rw [List.getElem?_map, hFi]; rfl)
      have v3 : val (g.arcs.map Arc.score) 0 (j : Int) = y.score := val_nat _ _ j _ (by rw [List.getElem?_map, hy]; rfl)
      have v4 : val gb 0 (j : Int) = gb[j] := val_nat _ _ j _ (List.getElem?_eq_getElem hj)
      rw [v1, v2, v3, v4]
      refine ⟨Or.inl ⟨σ i, j, a, y, u, gb[j], by rw [if_neg (by omega)]; rfl, rfl, ha, hu, hy, List.getElem?_eq_getElem hj, hxy, rfl, rfl, by rw [hz, hxy], rfl, ?_⟩,
        hzs.symm, Or.inr ⟨i, rfl, (List.getElem?_eq_some_iff.mp hFi).1⟩, Or.inr ⟨j, rfl, by omega⟩⟩
      intro h'; rw [← hxy]; exact he h'
    · obtain ⟨a, u, ha, hu, hFi, rfl⟩ := hget i x hx
      have v1 : val (F.map Prod.snd) 0 (i : Int) = a.label := val_nat _ _ i _ (by rw [List.getElem?_map, hFi]; rfl)
      have v2 : val (F.map (fun x => x.1.score)) 0 (i : Int) = a.score := val_nat _ _ i _ (by rw [List.getElem?_map, hFi]; rfl)
      have v3 : val (g.arcs.map Arc.score) 0 (-1) = (0 : W) := rfl
      have v4 : val gb 0 (-1) = 0 := rfl
      rw [v1, v2, v3, v4, add_zero]
      exact ⟨Or.inr (Or.inl ⟨he, σ i, a, u, by rw [if_neg (by omega)]; rfl, rfl, ha, hu, hx0, rfl, rfl, hz, rfl⟩),
        hzs.symm, Or.inr ⟨i, rfl, (List.getElem?_eq_some_iff.mp hFi).1⟩, Or.inl ⟨rfl, he⟩⟩
    · have hj : j < gb.length := by rw [hgb]; exact (List.getElem?_eq_some_iff.mp hy).1
      have v1 : val (F.map Prod.snd) 0 (-1) = 0 := rfl
      have v2 : val (F.map (fun x => x.1.score)) 0 (-1) = (0 : W) := rfl
      have v3 : val (g.arcs.map Arc.score) 0 (j : Int) = y.score := val_nat _ _ j _ (by rw [List.getElem?_map, hy]; rfl)
      have v4 : val gb 0 (j : Int) = gb[j] := val_nat _ _ j _ (List.getElem?_eq_getElem hj)
      rw [v1, v2, v3, v4, zero_add]
      exact ⟨Or.inr (Or.inr ⟨he, j, y, gb[j], rfl, rfl, hy, List.getElem?_eq_getElem hj, hy0, rfl, rfl, hz, rfl⟩),
        hzs.symm, Or.inl ⟨rfl, he⟩, Or.inr ⟨j, rfl, by omega⟩⟩
  have hback : ∀ (k : Nat) (z' : Arc W), c.arcs[k]? = some z' → ∃ z, c0.arcs[k]? = some z := by
    intro k z' hk
    have := (List.getElem?_eq_some_iff.mp hk).1
    rw [hc.len] at this
    exact ⟨_, List.getElem?_eq_getElem this⟩
  have hto : ∀ js, IAccepting c js ↔ IAccepting c0 js := by
    intro js
    unfold IAccepting Fsa.final
    rw [hnum]
    refine and_congr_right (fun _ => ⟨ipath_same _ _ ?_ _ _ js, ipath_same _ _ ?_ _ _ js⟩)
    · intro k z' hk
      obtain ⟨z, hz⟩ := hback k z' hk
      obtain ⟨_, _, _, _, z'', h1, h2, h3, _⟩ := hcomp k z hz
      rw [hk] at h1; cases h1
      exact ⟨z, hz, h2.symm, h3.symm⟩
    · intro k z hz
      obtain ⟨_, _, _, _, z'', h1, h2, h3, _⟩ := hcomp k z hz
      exact ⟨z'', h1, h2, h3⟩
  have hpath : ∀ js, IAccepting c0 js → ∀ j ∈ js, ∃ z, c0.arcs[j]? = some z := fun js hj j hm =>
    ⟨_, List.getElem?_eq_getElem (iaccepting_lt hj j hm)⟩
  refine ⟨?_, ?_, ?_, ?_, ?_, ?_, ?_, ?_, ?_⟩
  · unfold moveMap; rw [List.length_map, h.lenA, hc.len]
  · rw [h.lenB, hc.len]
  · rw [hc.lenAux, hc.len]
  · rw [hc.inner, List.length_map, hc.len]
  · intro k z' hk
    obtain ⟨z, hz⟩ := hback k z' hk
    obtain ⟨a, b, h1, h2, z'', h3, h4, h5, o, h6, h7, _⟩ := hcomp k z hz
    rw [hk] at h3; cases h3
    refine ⟨_, b, o, z.label, ?_, h2, h6, ?_, h7⟩
    · unfold moveMap; rw [List.getElem?_map, h1]; rfl
    · rw [hc.inner, List.getElem?_map, hz]; rfl
  · intro js hjs
    have hj0 := (hto js).mp hjs
    obtain ⟨s1, s2, s3, s4, s5⟩ := h.sound js hj0
    obtain ⟨p1, p2, p3⟩ := hF.path (used ma js) (fun i hi => by
      have := iaccepting_lt s1 i hi
      simpa [fsaOf] using this)
    rw [used_moveMap]
    refine ⟨hF.accept _ s1, s2, ?_, ?_, ?_, ?_, ?_⟩
    · rw [← p1]; exact agree_trans (agree_symm s3) s4
    · rw [← p3, ← along_labels c js]
      apply along_used
      intro j hj
      obtain ⟨z, hz⟩ := hpath js hj0 j hj
      obtain ⟨a, b, h1, h2, h3, h4, h5⟩ := key j z hz
      obtain ⟨a', b', h1', h2', _, _, _, _, _, _, _, _, h8, h9⟩ := hcomp j z hz
      rw [h1] at h1'; cases h1'
      refine ⟨a, h1, by rw [List.getElem?_map, h4]; rfl, ?_⟩
      rw [List.length_map]; exact h8
    · apply along_used
      intro j hj
      obtain ⟨z, hz⟩ := hpath js hj0 j hj
      obtain ⟨a, b, h1, h2, h3, h4, h5⟩ := key j z hz
      obtain ⟨a', b', h1', h2', _, _, _, _, _, _, _, _, h8, h9⟩ := hcomp j z hz
      rw [h2] at h2'; cases h2'
      refine ⟨b, h2, h5, ?_⟩
      rw [hgb]; exact h9
    · rw [hc.inner, along_labels]; exact s4
    · have e1 : score (arcsAt c js) = score (arcsAt c0 js) := by
        unfold score arcsAt
        rw [List.map_filterMap, List.map_filterMap]
        congr 1
        refine List.filterMap_congr (fun j hj => ?_)
        obtain ⟨z, hz⟩ := hpath js hj0 j hj
        obtain ⟨a, b, h1, h2, z'', h3, h4, h5, o, h6, h7, h8, _⟩ := hcomp j z hz
        rw [h3, hz, Option.map_some, Option.map_some, h8]
      rw [e1, s5]
      congr 1
      unfold score
      rw [p2]
  · intro is js hi hj hag
    have hi' := hF.accept' is hi
    have hlt : ∀ i ∈ is.map τ, i < F.length := fun i hi => by
      have := iaccepting_lt hi' i hi
      simpa [fsaOf] using this
    have hst : (is.map τ).map σ = is := by
      rw [List.map_map]
      conv_rhs => rw [← List.map_id is]
      refine List.map_congr_left (fun i hm => ?_)
      exact hF.right i (by rw [hF.lenF]; exact iaccepting_lt hi i hm)
    obtain ⟨p1, p2, p3⟩ := hF.path (is.map τ) hlt
    rw [hst] at p1
    obtain ⟨ks, k1, k2, k3⟩ := h.complete _ js hi' hj (by rw [p1]; exact hag)
    exact ⟨ks, (hto ks).mpr k1, by rw [used_moveMap, k2, hst], k3⟩
  · intro ks ks' hk hk' h1 h2
    refine h.unique ks ks' ((hto ks).mp hk) ((hto ks').mp hk') ?_ h2
    refine moveMap_inj σ F.length (fun i j hi hj hij => ?_) ma ?_ ks ks' h1
    · rw [← hF.left i hi, ← hF.left j hj, hij]
    · intro x hx
      obtain ⟨k, hk⟩ := List.mem_iff_getElem?.mp hx
      have hlt := (List.getElem?_eq_some_iff.mp hk).1
      rw [h.lenA] at hlt
      obtain ⟨a, b, h1, h2, _, _, _, _, _, _, _, _, h8, _⟩ := hcomp k _ (List.getElem?_eq_getElem hlt)
      rw [hk] at h1; cases h1
      rcases h8 with ⟨h8, _⟩ | ⟨i, rfl, hi⟩
      · exact Or.inl h8
      · exact Or.inr ⟨by omega, by simpa using hi⟩
  · intro hf hg
    have hfv := hF.valid hsF hf
    have hv := h.valid hfv hg
    have hfin : c.final = c0.final := by unfold Fsa.final; rw [hnum]
    have hmem : ∀ z' ∈ c.arcs, ∃ k : Nat, ∃ z ∈ c0.arcs, c0.arcs[k]? = some z ∧ c.arcs[k]? = some z' := by
      intro z' hz'
      obtain ⟨k, hk⟩ := List.mem_iff_getElem?.mp hz'
      obtain ⟨z, hz⟩ := hback k z' hk
      exact ⟨k, z, List.mem_of_getElem? hz, hz, hk⟩
    have hsd : ∀ (k : Nat) (z z' : Arc W), c0.arcs[k]? = some z → c.arcs[k]? = some z' → z'.src = z.src ∧ z'.dst = z.dst := by
      intro k z z' hz hk
      obtain ⟨_, _, _, _, z'', h1, h2, h3, _⟩ := hcomp k z hz
      rw [hk] at h1; cases h1
      exact ⟨h2, h3⟩
    refine ⟨by rw [hnum]; exact hv.two, ?_, ?_, ?_, ?_⟩
    · have hs := hv.sorted
      unfold Fsa.Sorted at hs ⊢
      rw [List.pairwise_iff_getElem] at hs ⊢
      intro i j hi hj hij
      have hi' : i < c0.arcs.length := by rw [← hc.len]; exact hi
      have hj' : j < c0.arcs.length := by rw [← hc.len]; exact hj
      rw [(hsd i _ _ (List.getElem?_eq_getElem hi') (List.getElem?_eq_getElem hi)).1,
        (hsd j _ _ (List.getElem?_eq_getElem hj') (List.getElem?_eq_getElem hj)).1]
      exact hs i j hi' hj' hij
    · intro z' hz'
      obtain ⟨k, z, hm, hz, hk⟩ := hmem z' hz'
      rw [(hsd k z z' hz hk).1, hfin]; exact hv.src_lt z hm
    · intro z' hz'
      obtain ⟨k, z, hm, hz, hk⟩ := hmem z' hz'
      rw [(hsd k z z' hz hk).2, hnum]; exact hv.dst_lt z hm
    · intro z' hz'
      obtain ⟨k, z, hm, hz, hk⟩ := hmem z' hz'
      rw [(hsd k z z' hz hk).2, hfin, ← hv.final_iff z hm]
      obtain ⟨a, b, h1, h2, z'', h3, _, _, o, _, h7, _⟩ := hcomp k z hz
      rw [hk] at h3; cases h3
      have hlab : ∀ (i : Nat) (x : Arc W) (u : Int), f.arcs[i]? = some x → (outLabel f x u = -1 ↔ x.label = -1) := by
        intro i x u hx
        rw [hf.final_iff x (List.mem_of_getElem? hx)]
        unfold outLabel
        by_cases hd : x.dst = f.final
        · simp [hd]
        · by_cases hu : u = -1 <;> simp [hd, hu]
      rcases h7 with ⟨i, j, x, y, u, v, _, _, hx, _, hy, _, hxy, hz', _, hn, _⟩ | ⟨_, i, x, u, _, _, hx, _, hx0, hz', _, hn, _⟩ | ⟨_, j, y, v, _, _, hy, _, hy0, hz', _, hn, _⟩
      · rw [hz', hn, ← hxy, hlab i x u hx]
      · rw [hz', hn, ← hlab i x u hx, hx0]
      · rw [hz', hn]

end Verif.Fsa.Comp
