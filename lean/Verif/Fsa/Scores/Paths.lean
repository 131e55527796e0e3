import Verif.Fsa.Scores.Fixed
import Mathlib.Algebra.BigOperators.Group.List.Basic
import Mathlib.Algebra.BigOperators.Ring.List
import Mathlib.Data.List.Perm.Basic

/-!
# Sums over all paths
-/

namespace Verif.Fsa
variable {W K : Type}

/-- The weight of a path: the product of the weights of its arcs. -/
def pathWeight [CommSemiring K] (wt : W → K) (A : List (Arc W)) (is : List Nat) : K :=
  (is.map (fun j => (A[j]?).elim 1 (fun a => wt a.score))).prod

/-- `L` lists every path from `s` to `t` once; a path is the list of the positions of its arcs in `A`. -/
def AllPaths (A : List (Arc W)) (s t : Nat) (L : List (List Nat)) : Prop :=
  L.Nodup ∧ ∀ is, is ∈ L ↔ IPath A s is t

namespace Sco
open Verif.Ragged Verif.Util Verif.Fsa.Top

theorem ipath_append (A : List (Arc W)) (s t : Nat) (is js : List Nat) :
    IPath A s (is ++ js) t ↔ ∃ m, IPath A s is m ∧ IPath A m js t := by
  induction is generalizing s with
  | nil =>
    rw [List.nil_append]
    constructor
    · intro h; exact ⟨s, (ipath_nil A s s).mpr rfl, h⟩
    · rintro ⟨m, h1, h2⟩
      rw [ipath_nil] at h1
      rw [h1]; exact h2
  | cons i is ih =>
    rw [List.cons_append, ipath_cons]
    constructor
    · rintro ⟨a, h1, h2, h3⟩
      obtain ⟨m, h4, h5⟩ := (ih a.dst).mp h3
      exact ⟨m, (ipath_cons A s m i is).mpr ⟨a, h1, h2, h4⟩, h5⟩
    · rintro ⟨m, h1, h2⟩
      obtain ⟨a, h3, h4, h5⟩ := (ipath_cons A s m i is).mp h1
      exact ⟨a, h3, h4, (ih a.dst).mpr ⟨m, h5, h2⟩⟩

theorem ipath_snoc (A : List (Arc W)) (s t j : Nat) (is : List Nat) :
    IPath A s (is ++ [j]) t ↔ ∃ a, A[j]? = some a ∧ IPath A s is a.src ∧ a.dst = t := by
  rw [ipath_append]
  constructor
  · rintro ⟨m, h1, h2⟩
    obtain ⟨a, h3, h4, h5⟩ := (ipath_cons A m t j []).mp h2
    exact ⟨a, h3, by rw [h4]; exact h1, (ipath_nil A _ _).mp h5⟩
  · rintro ⟨a, h1, h2, h3⟩
    exact ⟨a.src, h2, (ipath_cons A _ t j []).mpr ⟨a, h1, rfl, (ipath_nil A _ _).mpr h3⟩⟩

theorem ipath_length (A : List (Arc W)) (hA : ∀ a ∈ A, a.src < a.dst) (s t : Nat) (is : List Nat)
    (h : IPath A s is t) : s + is.length ≤ t := by
  induction is generalizing s with
  | nil => rw [ipath_nil] at h; simp [h]
  | cons i is ih =>
    obtain ⟨a, h1, h2, h3⟩ := (ipath_cons A s t i is).mp h
    have := ih _ h3
    have := hA a (List.mem_of_getElem? h1)
    rw [List.length_cons]
    omega

/-- The paths from `s` to `t` with fewer than `fuel` arcs, by their last arcs. -/
def pathsTo (A : List (Arc W)) (s : Nat) : Nat → Nat → List (List Nat)
  | 0, _ => []
  | fuel + 1, t => (if s = t then [[]] else []) ++
      (A.zipIdx.filter (fun x => decide (x.1.dst = t))).flatMap (fun x =>
        (pathsTo A s fuel x.1.src).map (· ++ [x.2]))

/-- The paths from `s` to `t` with fewer than `fuel` arcs, by their first arcs. -/
def pathsFrom (A : List (Arc W)) (t : Nat) : Nat → Nat → List (List Nat)
  | 0, _ => []
  | fuel + 1, s => (if s = t then [[]] else []) ++
      (A.zipIdx.filter (fun x => decide (x.1.src = s))).flatMap (fun x =>
        (pathsFrom A t fuel x.1.dst).map (x.2 :: ·))

theorem mem_zip (A : List (Arc W)) (x : Arc W × Nat) : x ∈ A.zipIdx ↔ A[x.2]? = some x.1 := by
  obtain ⟨a, j⟩ := x
  rw [List.mk_mem_zipIdx_iff_getElem?]

theorem zip_nodup (A : List (Arc W)) : A.zipIdx.Nodup := by
  have : (A.zipIdx.map Prod.snd).Nodup := by
    rw [List.zipIdx_map_snd]; exact List.nodup_range' ..
  exact List.Nodup.of_map _ this

theorem zip_pairwise (A : List (Arc W)) (p : Arc W × Nat → Bool) :
    (A.zipIdx.filter p).Pairwise (fun x y => x.2 ≠ y.2) := by
  have h : (A.zipIdx.map Prod.snd).Nodup := by
    rw [List.zipIdx_map_snd]; exact List.nodup_range' ..
  exact (List.pairwise_map.mp h).filter _

theorem pathsTo_mem (A : List (Arc W)) (s : Nat) : ∀ (fuel t : Nat) (is : List Nat),
    is ∈ pathsTo A s fuel t ↔ IPath A s is t ∧ is.length < fuel := by
  intro fuel
  induction fuel with
  | zero => intro t is; simp [pathsTo]
  | succ fuel ih =>
    intro t is
    rw [pathsTo, List.mem_append]
    constructor
    · rintro (h | h)
      · split at h
        · next h0 =>
          rw [List.mem_singleton] at h
          subst h
          exact ⟨(ipath_nil A s t).mpr h0, by simp⟩
        · simp at h
      · obtain ⟨x, hx, hm⟩ := List.mem_flatMap.mp h
        obtain ⟨js, hjs, rfl⟩ := List.mem_map.mp hm
        obtain ⟨h1, h2⟩ := List.mem_filter.mp hx
        obtain ⟨h3, h4⟩ := (ih _ _).mp hjs
        refine ⟨(ipath_snoc A s t _ _).mpr ⟨x.1, (mem_zip A x).mp h1, h3, of_decide_eq_true h2⟩, ?_⟩
        rw [List.length_append, List.length_singleton]; omega
    · rintro ⟨h1, h2⟩
      rcases List.eq_nil_or_concat is with rfl | ⟨js, j, rfl⟩
      · left
        rw [if_pos ((ipath_nil A s t).mp h1)]
        simp
      · right
        rw [List.concat_eq_append] at h1 h2 ⊢
        obtain ⟨a, h3, h4, h5⟩ := (ipath_snoc A s t _ _).mp h1
        rw [List.length_append, List.length_singleton] at h2
        refine List.mem_flatMap.mpr ⟨(a, j), List.mem_filter.mpr ⟨(mem_zip A _).mpr h3, decide_eq_true h5⟩, ?_⟩
        exact List.mem_map.mpr ⟨js, (ih _ _).mpr ⟨h4, by omega⟩, rfl⟩

theorem pathsTo_nodup (A : List (Arc W)) (s : Nat) : ∀ (fuel t : Nat), (pathsTo A s fuel t).Nodup := by
  intro fuel
  induction fuel with
  | zero => intro t; exact List.nodup_nil
  | succ fuel ih =>
    intro t
    rw [pathsTo, List.nodup_append]
    refine ⟨by split <;> simp, ?_, ?_⟩
    · rw [List.nodup_flatMap]
      constructor
      · intro x _
        exact (ih _).map (fun a b h => List.append_cancel_right h)
      · refine (zip_pairwise A _).imp ?_
        intro x y hxy is h1 h2
        obtain ⟨a, _, rfl⟩ := List.mem_map.mp h1
        obtain ⟨b, _, h3⟩ := List.mem_map.mp h2
        have := List.append_inj_right' h3 (by simp)
        simp only [List.cons.injEq, and_true] at this
        exact hxy this.symm
    · intro a ha b hb hab
      subst hab
      split at ha
      · rw [List.mem_singleton] at ha
        subst ha
        obtain ⟨x, _, hm⟩ := List.mem_flatMap.mp hb
        obtain ⟨js, _, h⟩ := List.mem_map.mp hm
        simp at h
      · simp at ha

theorem pathsFrom_mem (A : List (Arc W)) (t : Nat) : ∀ (fuel s : Nat) (is : List Nat),
    is ∈ pathsFrom A t fuel s ↔ IPath A s is t ∧ is.length < fuel := by
  intro fuel
  induction fuel with
  | zero => intro t is; simp [pathsFrom]
  | succ fuel ih =>
    intro s is
    rw [pathsFrom, List.mem_append]
    constructor
    · rintro (h | h)
      · split at h
        · next h0 =>
          rw [List.mem_singleton] at h
          subst h
          exact ⟨(ipath_nil A s t).mpr h0, by simp⟩
        · simp at h
      · obtain ⟨x, hx, hm⟩ := List.mem_flatMap.mp h
        obtain ⟨js, hjs, rfl⟩ := List.mem_map.mp hm
        obtain ⟨h1, h2⟩ := List.mem_filter.mp hx
        obtain ⟨h3, h4⟩ := (ih _ _).mp hjs
        refine ⟨(ipath_cons A s t _ _).mpr ⟨x.1, (mem_zip A x).mp h1, of_decide_eq_true h2, h3⟩, ?_⟩
        rw [List.length_cons]; omega
    · rintro ⟨h1, h2⟩
      cases is with
      | nil =>
        left
        rw [if_pos ((ipath_nil A s t).mp h1)]
        simp
      | cons j js =>
        right
        obtain ⟨a, h3, h4, h5⟩ := (ipath_cons A s t _ _).mp h1
        rw [List.length_cons] at h2
        refine List.mem_flatMap.mpr ⟨(a, j), List.mem_filter.mpr ⟨(mem_zip A _).mpr h3, decide_eq_true h4⟩, ?_⟩
        exact List.mem_map.mpr ⟨js, (ih _ _).mpr ⟨h5, by omega⟩, rfl⟩

theorem pathsFrom_nodup (A : List (Arc W)) (t : Nat) : ∀ (fuel s : Nat), (pathsFrom A t fuel s).Nodup := by
  intro fuel
  induction fuel with
  | zero => intro t; exact List.nodup_nil
  | succ fuel ih =>
    intro s
    rw [pathsFrom, List.nodup_append]
    refine ⟨by split <;> simp, ?_, ?_⟩
    · rw [List.nodup_flatMap]
      constructor
      · intro x _
        exact (ih _).map (fun a b h => (List.cons.inj h).2)
      · refine (zip_pairwise A _).imp ?_
        intro x y hxy is h1 h2
        obtain ⟨a, _, rfl⟩ := List.mem_map.mp h1
        obtain ⟨b, _, h3⟩ := List.mem_map.mp h2
        exact hxy (List.cons.inj h3).1.symm
    · intro a ha b hb hab
      subst hab
      split at ha
      · rw [List.mem_singleton] at ha
        subst ha
        obtain ⟨x, _, hm⟩ := List.mem_flatMap.mp hb
        obtain ⟨js, _, h⟩ := List.mem_map.mp hm
        simp at h
      · simp at ha

theorem allPaths_perm {A : List (Arc W)} {s t : Nat} {L L' : List (List Nat)} (h : AllPaths A s t L)
    (h' : AllPaths A s t L') : L.Perm L' :=
  (List.perm_ext_iff_of_nodup h.1 h'.1).mpr (fun is => by rw [h.2, h'.2])

theorem allPaths_to (A : List (Arc W)) (hA : ∀ a ∈ A, a.src < a.dst) (s t fuel : Nat) (hf : t < fuel) :
    AllPaths A s t (pathsTo A s fuel t) :=
  ⟨pathsTo_nodup A s fuel t, fun is => by
    rw [pathsTo_mem]
    constructor
    · exact fun h => h.1
    · intro h
      have := ipath_length A hA s t is h
      exact ⟨h, by omega⟩⟩

theorem allPaths_from (A : List (Arc W)) (hA : ∀ a ∈ A, a.src < a.dst) (s t fuel : Nat) (hf : t < s + fuel) :
    AllPaths A s t (pathsFrom A t fuel s) :=
  ⟨pathsFrom_nodup A t fuel s, fun is => by
    rw [pathsFrom_mem]
    constructor
    · exact fun h => h.1
    · intro h
      have := ipath_length A hA s t is h
      exact ⟨h, by omega⟩⟩

section
variable [CommSemiring K] (wt : W → K) (A : List (Arc W))

theorem reduceRow_add (l : List K) : reduceRow (· + ·) 0 l = l.sum := by
  unfold reduceRow
  have : ∀ (l : List K) (x : K), l.foldl (fun val elem => elem + val) x = x + l.sum := by
    intro l
    induction l with
    | nil => intro x; simp
    | cons a l ih => intro x; rw [List.foldl_cons, ih, List.sum_cons]; ring
  rw [this, zero_add]

theorem reduceRow_add_perm (l l' : List K) (h : l.Perm l') :
    reduceRow (· + ·) 0 l = reduceRow (· + ·) (0 : K) l' := by
  rw [reduceRow_add, reduceRow_add, h.sum_eq]

theorem zip_filter_map (p : Arc W → Bool) (g : Arc W → K) :
    (A.filter p).map g = (A.zipIdx.filter (fun x => p x.1)).map (fun x => g x.1) := by
  conv_lhs => rw [← List.zipIdx_map_fst 0 A]
  rw [List.filter_map, List.map_map]
  rfl

theorem pathWeight_snoc (is : List Nat) (j : Nat) (a : Arc W) (h : A[j]? = some a) :
    pathWeight wt A (is ++ [j]) = pathWeight wt A is * wt a.score := by
  simp [pathWeight, h]

theorem pathWeight_cons (is : List Nat) (j : Nat) (a : Arc W) (h : A[j]? = some a) :
    pathWeight wt A (j :: is) = pathWeight wt A is * wt a.score := by
  simp [pathWeight, h, mul_comm]

theorem pathWeight_append (is js : List Nat) :
    pathWeight wt A (is ++ js) = pathWeight wt A is * pathWeight wt A js := by
  simp [pathWeight]

theorem sum_flatMap (l : List X) (g : X → List K) : (l.flatMap g).sum = (l.map (fun x => (g x).sum)).sum := by
  induction l with
  | nil => rfl
  | cons a l ih => rw [List.flatMap_cons, List.sum_append, ih, List.map_cons, List.sum_cons]

variable (hA : ∀ a ∈ A, a.src < a.dst)
include hA

/-- Forward scores are sums over the paths from the start. -/
theorem forward_sum (n : Nat) (hlt : ∀ a ∈ A, a.dst < n) (F : Nat → K)
    (hF : ∀ s < n, F s = if s = 0 then 1 else
      ((A.filter (fun a => decide (a.dst = s))).map (fun a => F a.src * wt a.score)).sum) :
    ∀ s < n, ∀ L, AllPaths A 0 s L → F s = (L.map (pathWeight wt A)).sum := by
  intro s
  induction s using Nat.strongRecOn with
  | _ s ih =>
    intro hs L hL
    have hp := allPaths_perm hL (allPaths_to A hA 0 s (s + 1) (by omega))
    rw [(hp.map _).sum_eq, hF s hs, pathsTo]
    by_cases h0 : s = 0
    · subst h0
      have : A.zipIdx.filter (fun x => decide (x.1.dst = 0)) = [] := by
        rw [List.filter_eq_nil_iff]
        intro x hx
        have := hA x.1 (List.mem_of_getElem? ((mem_zip A x).mp hx))
        simp; omega
      rw [this]
      simp [pathWeight]
    · rw [if_neg h0, if_neg (fun h => h0 h.symm), List.nil_append, List.map_flatMap, sum_flatMap, zip_filter_map]
      congr 1
      apply List.map_congr_left
      intro x hx
      obtain ⟨h1, h2⟩ := List.mem_filter.mp hx
      have hx1 := (mem_zip A x).mp h1
      have h3 := hA x.1 (List.mem_of_getElem? hx1)
      have h2 := of_decide_eq_true h2
      rw [ih x.1.src (by omega) (by omega) _ (allPaths_to A hA 0 x.1.src s (by omega)), List.map_map,
        ← List.sum_map_mul_right]
      congr 1
      apply List.map_congr_left
      intro is _
      exact (pathWeight_snoc wt A is x.2 x.1 hx1).symm

/-- Backward scores are sums over the paths to the final state. -/
theorem backward_sum (n : Nat) (hlt : ∀ a ∈ A, a.dst < n) (F : Nat → K)
    (hF : ∀ s < n, F s = if s + 1 = n then 1 else
      ((A.filter (fun a => decide (a.src = s))).map (fun a => F a.dst * wt a.score)).sum) :
    ∀ d s, s < n → s + d = n → ∀ L, AllPaths A s (n - 1) L → F s = (L.map (pathWeight wt A)).sum := by
  intro d
  induction d using Nat.strongRecOn with
  | _ d ih =>
    intro s hs hd L hL
    have hp := allPaths_perm hL (allPaths_from A hA s (n - 1) (n + 1) (by omega))
    rw [(hp.map _).sum_eq, hF s hs, pathsFrom]
    by_cases h0 : s + 1 = n
    · have : A.zipIdx.filter (fun x => decide (x.1.src = s)) = [] := by
        rw [List.filter_eq_nil_iff]
        intro x hx
        have hm := List.mem_of_getElem? ((mem_zip A x).mp hx)
        have := hA x.1 hm
        have := hlt x.1 hm
        simp; omega
      rw [this, if_pos h0, if_pos (by omega)]
      simp [pathWeight]
    · rw [if_neg h0, if_neg (by omega), List.nil_append, List.map_flatMap, sum_flatMap, zip_filter_map]
      congr 1
      apply List.map_congr_left
      intro x hx
      obtain ⟨h1, h2⟩ := List.mem_filter.mp hx
      have hx1 := (mem_zip A x).mp h1
      have hm := List.mem_of_getElem? hx1
      have h3 := hA x.1 hm
      have h4 := hlt x.1 hm
      have h2 := of_decide_eq_true h2
      rw [ih (n - x.1.dst) (by omega) x.1.dst h4 (by omega) _ (allPaths_from A hA x.1.dst (n - 1) n (by omega)),
        List.map_map, ← List.sum_map_mul_right]
      congr 1
      apply List.map_congr_left
      intro is _
      exact (pathWeight_cons wt A is x.2 x.1 hx1).symm

/-- The paths through an arc. -/
theorem through_sum (s t j : Nat) (a : Arc W) (hj : A[j]? = some a) (L1 L2 L : List (List Nat))
    (h1 : AllPaths A s a.src L1) (h2 : AllPaths A a.dst t L2) (hnd : L.Nodup)
    (hL : ∀ is, is ∈ L ↔ IPath A s is t ∧ j ∈ is) :
    (L.map (pathWeight wt A)).sum =
      (L1.map (pathWeight wt A)).sum * wt a.score * (L2.map (pathWeight wt A)).sum := by
  have hal := hA a (List.mem_of_getElem? hj)
  have hno1 : ∀ is ∈ L1, j ∉ is := by
    intro is his hc
    obtain ⟨u, v, rfl⟩ := List.append_of_mem hc
    obtain ⟨m, g1, g2⟩ := (ipath_append A _ _ _ _).mp ((h1.2 _).mp his)
    obtain ⟨b, g3, _, g4⟩ := (ipath_cons A _ _ _ _).mp g2
    rw [hj] at g3
    obtain rfl := Option.some.inj g3
    have := ipath_length A hA _ _ _ g4
    omega
  have hp : L.Perm (L1.flatMap (fun p => L2.map (fun q => p ++ j :: q))) := by
    refine (List.perm_ext_iff_of_nodup hnd ?_).mpr ?_
    · rw [List.nodup_flatMap]
      constructor
      · intro p _
        exact h2.1.map (fun x y h => (List.cons.inj (List.append_cancel_left h)).2)
      · refine List.Pairwise.imp_of_mem ?_ h1.1
        intro p p' hp hp' hne is hi1 hi2
        obtain ⟨q, _, rfl⟩ := List.mem_map.mp hi1
        obtain ⟨q', _, he⟩ := List.mem_map.mp hi2
        apply hne
        have e1 : (p ++ j :: q).idxOf j = p.length := by
          rw [List.idxOf_append_of_notMem (hno1 p hp)]; simp
        have e2 : (p' ++ j :: q').idxOf j = p'.length := by
          rw [List.idxOf_append_of_notMem (hno1 p' hp')]; simp
        rw [he, e1] at e2
        exact (List.append_inj_left he e2.symm).symm
    · intro is
      rw [hL, List.mem_flatMap]
      constructor
      · rintro ⟨g1, g2⟩
        obtain ⟨u, v, rfl⟩ := List.append_of_mem g2
        obtain ⟨m, g3, g4⟩ := (ipath_append A _ _ _ _).mp g1
        obtain ⟨b, g5, rfl, g6⟩ := (ipath_cons A _ _ _ _).mp g4
        rw [hj] at g5
        obtain rfl := Option.some.inj g5
        exact ⟨u, (h1.2 u).mpr g3, List.mem_map.mpr ⟨v, (h2.2 v).mpr g6, rfl⟩⟩
      · rintro ⟨u, hu, hm⟩
        obtain ⟨v, hv, rfl⟩ := List.mem_map.mp hm
        refine ⟨(ipath_append A _ _ _ _).mpr ⟨a.src, (h1.2 u).mp hu, ?_⟩, by simp⟩
        exact (ipath_cons A _ _ _ _).mpr ⟨a, hj, rfl, (h2.2 v).mp hv⟩
  rw [(hp.map _).sum_eq, List.map_flatMap, sum_flatMap, mul_assoc, ← List.sum_map_mul_right]
  congr 1
  apply List.map_congr_left
  intro p _
  rw [List.map_map, ← mul_assoc, ← List.sum_map_mul_left]
  congr 1
  apply List.map_congr_left
  intro q _
  show pathWeight wt A (p ++ j :: q) = _
  rw [pathWeight_append, pathWeight_cons wt A q j a hj]
  ring

theorem filter_split (p q r : Arc W → Bool) (g : Arc W → K) (h : ∀ a ∈ A, p a = (q a || r a) ∧ (q a && r a) = false) :
    ((A.filter p).map g).sum = ((A.filter q).map g).sum + ((A.filter r).map g).sum := by
  clear hA
  induction A with
  | nil => simp
  | cons a A ih =>
    have ih := ih (fun b hb => h b (List.mem_cons_of_mem _ hb))
    obtain ⟨h1, h2⟩ := h a List.mem_cons_self
    rw [List.filter_cons, List.filter_cons, List.filter_cons]
    cases hq : q a <;> cases hr : r a <;> rw [hq, hr] at h1 h2 <;> simp_all [add_assoc, add_left_comm]

/-- Forward times backward adds up to the same value on every cut. -/
theorem cut_sum (n : Nat) (hn : 2 ≤ n) (hlt : ∀ a ∈ A, a.dst < n) (F B : Nat → K)
    (hF : ∀ s < n, F s = if s = 0 then 1 else
      ((A.filter (fun a => decide (a.dst = s))).map (fun a => F a.src * wt a.score)).sum)
    (hB : ∀ s < n, B s = if s + 1 = n then 1 else
      ((A.filter (fun a => decide (a.src = s))).map (fun a => B a.dst * wt a.score)).sum) :
    ∀ (m : Nat) (S : Nat → Bool), m + 1 < n → S 0 = true → S m = true → (∀ s, m < s → S s = false) →
      (∀ a ∈ A, S a.dst = true → S a.src = true) →
      ((A.filter (fun a => S a.src && !S a.dst)).map (fun a => F a.src * wt a.score * B a.dst)).sum = B 0 := by
  intro m
  induction m using Nat.strongRecOn with
  | _ m ih =>
    intro S hm h0 hSm hS hcl
    by_cases hm0 : m = 0
    · subst hm0
      have e : A.filter (fun a => S a.src && !S a.dst) = A.filter (fun a => decide (a.src = 0)) := by
        apply List.filter_congr
        intro a ha
        have h1 := hA a ha
        rw [hS a.dst (by omega)]
        by_cases h2 : a.src = 0
        · rw [h2, h0]; rfl
        · rw [hS a.src (by omega)]; simp [h2]
      rw [e, hB 0 (by omega), if_neg (by omega)]
      congr 1
      apply List.map_congr_left
      intro a ha
      have := of_decide_eq_true (List.mem_filter.mp ha).2
      rw [this, hF 0 (by omega), if_pos rfl]
      ring
    · -- the largest other element
      obtain ⟨m', hm', hSm', hmax⟩ : ∃ m' < m, S m' = true ∧ ∀ s, m' < s → s < m → S s = false := by
        have : ∀ k, k ≤ m → 0 < k → ∃ m' < k, S m' = true ∧ ∀ s, m' < s → s < k → S s = false := by
          intro k
          induction k with
          | zero => intro _ h; omega
          | succ k ihk =>
            intro hk _
            cases hs : S k with
            | true => exact ⟨k, by omega, hs, fun s h1 h2 => by omega⟩
            | false =>
              have hk0 : 0 < k := by
                rcases Nat.eq_zero_or_pos k with h | h
                · rw [h, h0] at hs; cases hs
                · exact h
              obtain ⟨m', g1, g2, g3⟩ := ihk (by omega) hk0
              refine ⟨m', by omega, g2, fun s h1 h2 => ?_⟩
              rcases Nat.lt_or_ge s k with h | h
              · exact g3 s h1 h
              · obtain rfl : s = k := by omega
                exact hs
        exact this m (le_refl _) (by omega)
      have hS' := ih m' hm' (fun s => S s && !decide (s = m)) (by omega)
        (by rw [h0]; simp; omega) (by rw [hSm']; simp; omega)
        (by
          intro s h1
          rcases Nat.lt_trichotomy s m with h | h | h
          · rw [hmax s h1 h]; rfl
          · simp [h]
          · rw [hS s h]; rfl)
        (by
          intro a ha h
          rw [Bool.and_eq_true] at h ⊢
          refine ⟨hcl a ha h.1, ?_⟩
          have h1 := hA a ha
          have h2 : a.dst ≤ m := by
            by_contra hc
            rw [hS a.dst (by omega)] at h
            exact absurd h.1 (by decide)
          simp; omega)
      rw [← hS']
      rw [filter_split A hA (fun a => S a.src && !S a.dst)
        (fun a => (S a.src && !decide (a.src = m)) && !S a.dst) (fun a => decide (a.src = m)) _ (by
          intro a ha
          have h1 := hA a ha
          by_cases h2 : a.src = m
          · rw [h2, hSm, hS a.dst (by omega)]; simp
          · simp [h2])]
      rw [filter_split A hA (fun a => (S a.src && !decide (a.src = m)) && !(S a.dst && !decide (a.dst = m)))
        (fun a => (S a.src && !decide (a.src = m)) && !S a.dst) (fun a => decide (a.dst = m)) _ (by
          intro a ha
          have h1 := hA a ha
          by_cases h2 : a.dst = m
          · have h3 := hcl a ha (by rw [h2]; exact hSm)
            have h4 : a.src ≠ m := by omega
            rw [h3, h2, hSm]; simp [h4]
          · simp [h2])]
      congr 1
      have e1 : ((A.filter (fun a => decide (a.src = m))).map (fun a => F a.src * wt a.score * B a.dst)).sum =
          F m * B m := by
        rw [hB m (by omega), if_neg (by omega), ← List.sum_map_mul_left]
        congr 1
        apply List.map_congr_left
        intro a ha
        have := of_decide_eq_true (List.mem_filter.mp ha).2
        rw [this]; ring
      have e2 : ((A.filter (fun a => decide (a.dst = m))).map (fun a => F a.src * wt a.score * B a.dst)).sum =
          F m * B m := by
        rw [hF m (by omega), if_neg hm0, ← List.sum_map_mul_right]
        congr 1
        apply List.map_congr_left
        intro a ha
        have := of_decide_eq_true (List.mem_filter.mp ha).2
        rw [this]
      rw [e1, e2]

end
end Sco
end Verif.Fsa
