import Verif.Fsa.Grad.Split
import Verif.Fsa.Shortest.Props

/-!
# Following the best arcs

`own` and `oth` are the two ends of an arc: the source and the destination when the best arcs are those that enter
a state, the other way around when they are those that leave a state.
-/

namespace Verif.Fsa.Grd
open Verif.Ragged Verif.Util Verif.Fsa.Top Verif.Fsa.Bat Verif.Fsa.Sco Verif.Fsa.Best
variable {W K : Type}

/-- The arcs from state `t` along the best arcs `e`. -/
def walk (A : List (Arc W)) (own : Arc W → Nat) (e : Nat → Option Nat) : Nat → Nat → List Nat
  | 0, _ => []
  | fuel + 1, t => match e t with
    | none => []
    | some k => match A[k]? with
      | none => []
      | some a => k :: walk A own e fuel (own a)

/-- `js` is a path from `t` to `u` along arcs that are passed from `oth` to `own`. -/
def GPath (A : List (Arc W)) (own oth : Arc W → Nat) : Nat → List Nat → Nat → Prop
  | t, [], u => t = u
  | t, k :: js, u => ∃ a, A[k]? = some a ∧ oth a = t ∧ GPath A own oth (own a) js u

/-- The score of a list of arcs. -/
def listScore [AddCommMonoid W] (A : List (Arc W)) (js : List Nat) : W := (js.map (fun j => (A[j]?).elim 0 Arc.score)).sum

section
variable (n : Nat) (A : List (Arc W)) (own oth : Arc W → Nat) (e : Nat → Option Nat) (μ : Nat → Nat)
  (hlt : ∀ a ∈ A, own a < n ∧ oth a < n ∧ μ (own a) < μ (oth a))
  (he : ∀ t < n, ∀ k, e t = some k → ∃ a, A[k]? = some a ∧ oth a = t)
include hlt he

theorem walk_fuel : ∀ (fuel t : Nat), t < n → μ t < fuel → ∀ fuel', μ t < fuel' →
    walk A own e fuel t = walk A own e fuel' t := by
  intro fuel
  induction fuel with
  | zero => intro t _ h; omega
  | succ fuel ih =>
    intro t ht h fuel' h'
    obtain ⟨fuel', rfl⟩ : ∃ k, fuel' = k + 1 := ⟨fuel' - 1, by omega⟩
    rw [walk, walk]
    cases het : e t with
    | none => rfl
    | some k =>
      obtain ⟨a, h1, h2⟩ := he t ht k het
      obtain ⟨h3, h4, h5⟩ := hlt a (List.mem_of_getElem? h1)
      simp only [h1]
      rw [ih (own a) h3 (by rw [h2] at h5; omega) fuel' (by rw [h2] at h5; omega)]

/-- The first step. -/
theorem walk_step (M : Nat) (hM : ∀ t < n, μ t < M) (t : Nat) (ht : t < n) :
    (e t = none → walk A own e M t = []) ∧
    ∀ k a, e t = some k → A[k]? = some a → walk A own e M t = k :: walk A own e M (own a) := by
  obtain ⟨m, rfl⟩ : ∃ k, M = k + 1 := ⟨M - 1, by have := hM t ht; omega⟩
  constructor
  · intro h
    rw [walk, h]
  · intro k a h1 h2
    obtain ⟨h3, h4, h5⟩ := hlt a (List.mem_of_getElem? h2)
    obtain ⟨a', h6, h7⟩ := he t ht k h1
    rw [h2] at h6
    obtain rfl := Option.some.inj h6
    have := hM t ht
    rw [walk, h1]
    simp only [h2]
    rw [walk_fuel n A own oth e μ hlt he m (own a) h3 (by rw [h7] at h5; omega) (m + 1) (by rw [h7] at h5; omega)]

/-- An arc of a walk from `t` is nearer to the end than `t`. -/
theorem walk_mem (M : Nat) (hM : ∀ t < n, μ t < M) (t : Nat) (ht : t < n) (k : Nat) (hk : k ∈ walk A own e M t) :
    ∃ a, A[k]? = some a ∧ e (oth a) = some k ∧ μ (oth a) ≤ μ t := by
  generalize hm : μ t = m
  induction m using Nat.strongRecOn generalizing t with
  | _ m ih =>
    obtain ⟨w1, w2⟩ := walk_step n A own oth e μ hlt he M hM t ht
    cases het : e t with
    | none => rw [w1 het] at hk; cases hk
    | some k' =>
      obtain ⟨a, h1, h2⟩ := he t ht k' het
      obtain ⟨h3, h4, h5⟩ := hlt a (List.mem_of_getElem? h1)
      rw [w2 k' a het h1] at hk
      rcases List.mem_cons.mp hk with rfl | hk
      · exact ⟨a, h1, by rw [h2]; exact het, by rw [h2]; omega⟩
      · obtain ⟨b, g1, g2, g3⟩ := ih (μ (own a)) (by rw [h2] at h5; omega) (own a) h3 hk rfl
        exact ⟨b, g1, g2, by rw [h2] at h5; omega⟩

/-! ## The derivatives -/

variable [Field K] [DecidableEq K]

/-- The number of times that a walk from `t` is at state `s`. -/
def visits (M t s : Nat) : K :=
  (if s = t then 1 else 0) + ((walk A own e M t).map (fun k => (A[k]?).elim 0 (fun a => if own a = s then 1 else 0))).sum

theorem visits_step (M : Nat) (hM : ∀ t < n, μ t < M) (t : Nat) (ht : t < n) (s : Nat) :
    (e t = none → visits (K := K) A own e M t s = if s = t then 1 else 0) ∧
    ∀ k a, e t = some k → A[k]? = some a →
      visits (K := K) A own e M t s = (if s = t then 1 else 0) + visits A own e M (own a) s := by
  obtain ⟨w1, w2⟩ := walk_step n A own oth e μ hlt he M hM t ht
  constructor
  · intro h; simp [visits, w1 h]
  · intro k a h1 h2
    rw [visits, w2 k a h1 h2, List.map_cons, List.sum_cons, h2, visits]
    congr 2
    show (if own a = s then (1 : K) else 0) = if s = own a then 1 else 0
    by_cases h : own a = s
    · rw [if_pos h, if_pos h.symm]
    · rw [if_neg h, if_neg (fun h' => h h'.symm)]

/-- A sum with one term. -/
theorem one_arc (t s k : Nat) (a : Arc W) (het : e t = some k) (ha : A[k]? = some a) (ho : oth a = t) :
    ((A.zipIdx.filter (fun x => decide (own x.1 = s))).map (fun x =>
      (if e (oth x.1) = some x.2 then 1 else 0) * (if oth x.1 = t then 1 else 0))).sum =
      (if s = own a then 1 else (0 : K)) := by
  have hnd : (A.zipIdx.filter (fun x => decide (own x.1 = s))).Nodup := (zip_nodup A).filter _
  classical
  have key : ∀ l : List (Arc W × Nat), l.Nodup → (∀ x ∈ l, A[x.2]? = some x.1) →
      (l.map (fun x => (if e (oth x.1) = some x.2 then 1 else 0) * (if oth x.1 = t then 1 else (0 : K)))).sum =
        if (a, k) ∈ l then 1 else 0 := by
    intro l
    induction l with
    | nil => simp
    | cons x l ih =>
      intro h1 h2
      obtain ⟨h3, h4⟩ := List.nodup_cons.mp h1
      rw [List.map_cons, List.sum_cons, ih h4 (fun y hy => h2 y (List.mem_cons_of_mem _ hy))]
      by_cases hx : x = (a, k)
      · subst hx
        simp [ho, het, h3]
      · have hz : (if e (oth x.1) = some x.2 then 1 else 0) * (if oth x.1 = t then 1 else (0 : K)) = 0 := by
          by_cases g1 : oth x.1 = t
          · rw [g1, het]
            by_cases g2 : k = x.2
            · exfalso
              have := h2 x List.mem_cons_self
              rw [← g2, ha] at this
              exact hx (Prod.ext (Option.some.inj this).symm g2.symm)
            · rw [if_neg (by simpa using g2)]; simp
          · rw [if_neg g1, mul_zero]
        rw [hz, zero_add]
        congr 1
        rw [List.mem_cons]
        simp only [eq_iff_iff]
        constructor
        · intro h; exact Or.inr h
        · rintro (h | h)
          · exact absurd h.symm hx
          · exact h
  rw [key _ hnd (fun x hx => (mem_zip A x).mp (List.mem_filter.mp hx).1)]
  congr 1
  rw [List.mem_filter, eq_iff_iff]
  constructor
  · rintro ⟨_, h⟩; exact (of_decide_eq_true h).symm
  · intro h; exact ⟨(mem_zip A _).mpr ha, by simp [h]⟩

theorem visits_rec (M : Nat) (hM : ∀ t < n, μ t < M) (t : Nat) (ht : t < n) (s : Nat) :
    visits (K := K) A own e M t s = (if s = t then 1 else 0) +
      ((A.zipIdx.filter (fun x => decide (own x.1 = s))).map (fun x =>
        (if e (oth x.1) = some x.2 then 1 else 0) * visits A own e M t (oth x.1))).sum := by
  generalize hm : μ t = m
  induction m using Nat.strongRecOn generalizing t with
  | _ m ih =>
    have hv := visits_step (K := K) n A own oth e μ hlt he M hM t ht
    cases het : e t with
    | none =>
      rw [(hv s).1 het]
      have : ((A.zipIdx.filter (fun x => decide (own x.1 = s))).map (fun x =>
        (if e (oth x.1) = some x.2 then 1 else 0) * visits (K := K) A own e M t (oth x.1))).sum = 0 := by
        apply List.sum_eq_zero
        intro y hy
        obtain ⟨x, _, rfl⟩ := List.mem_map.mp hy
        rw [(hv (oth x.1)).1 het]
        by_cases h : oth x.1 = t
        · rw [h, het]; simp
        · rw [if_neg h, mul_zero]
      rw [this, add_zero]
    | some k =>
      obtain ⟨a, h1, h2⟩ := he t ht k het
      obtain ⟨h3, h4, h5⟩ := hlt a (List.mem_of_getElem? h1)
      rw [(hv s).2 k a het h1, ih (μ (own a)) (by rw [h2] at h5; omega) (own a) h3 rfl]
      congr 1
      rw [← one_arc (K := K) n A own oth e μ hlt he t s k a het h1 h2, ← List.sum_map_add]
      congr 1
      apply List.map_congr_left
      intro x _
      rw [(hv (oth x.1)).2 k a het h1, mul_add]

/-- The derivative that an arc gets. -/
theorem trop (M : Nat) (hM : ∀ t < n, μ t < M) (D g : Nat → K)
    (hD : ∀ s < n, D s = g s + ((A.zipIdx.filter (fun x => decide (own x.1 = s))).map (fun x =>
      if e (oth x.1) = some x.2 then D (oth x.1) else 0)).sum) (j : Nat) (a : Arc W) (ha : A[j]? = some a) :
    (if e (oth a) = some j then D (oth a) else 0) =
      ((List.range n).map (fun t => if j ∈ walk A own e M t then g t else 0)).sum := by
  have ham := hlt a (List.mem_of_getElem? ha)
  have hocc := occ n (fun x : Arc W × Nat => own x.1) (fun x => oth x.1)
    (fun x => if e (oth x.1) = some x.2 then (1 : K) else 0) A.zipIdx (fun s => M - μ s) (by
      intro x hx
      obtain ⟨q1, q2, q3⟩ := hlt x.1 (List.mem_of_getElem? ((mem_zip A x).mp hx))
      have := hM _ q2
      exact ⟨q2, by omega⟩) (fun _ => 1) D g (fun s t => visits A own e M t s)
    (fun s _ t ht => visits_rec n A own oth e μ hlt he M hM t ht s) (by
      intro x _ _ _; exact one_ne_zero) (by
      intro s hs
      rw [hD s hs]
      congr 2
      apply List.map_congr_left
      intro x _
      simp)
  have hD' := hocc (oth a) ham.2.1 one_ne_zero
  rw [one_mul] at hD'
  by_cases h : e (oth a) = some j
  · rw [if_pos h, hD']
    congr 1
    apply List.map_congr_left
    intro t ht
    replace ht := List.mem_range.mp ht
    have key : ∀ t < n, visits (K := K) A own e M t (oth a) = if j ∈ walk A own e M t then 1 else 0 := by
      intro t ht
      generalize hm : μ t = m
      induction m using Nat.strongRecOn generalizing t with
      | _ m ih =>
        have hv := visits_step (K := K) n A own oth e μ hlt he M hM t ht (oth a)
        obtain ⟨w1, w2⟩ := walk_step n A own oth e μ hlt he M hM t ht
        cases het : e t with
        | none =>
          rw [hv.1 het, w1 het]
          by_cases h0 : oth a = t
          · rw [h0, het] at h; cases h
          · rw [if_neg h0]; simp
        | some k =>
          obtain ⟨b, h1, h2⟩ := he t ht k het
          obtain ⟨h3, h4, h5⟩ := hlt b (List.mem_of_getElem? h1)
          rw [hv.2 k b het h1, w2 k b het h1,
            ih (μ (own b)) (by rw [h2] at h5; omega) (own b) h3 rfl]
          by_cases h0 : oth a = t
          · rw [h0, het] at h
            obtain rfl := Option.some.inj h
            have hno : k ∉ walk A own e M (own b) := by
              intro hc
              obtain ⟨b', g1, g2, g3⟩ := walk_mem n A own oth e μ hlt he M hM (own b) h3 k hc
              rw [h1] at g1
              obtain rfl := Option.some.inj g1
              omega
            simp [h0, hno]
          · have hjk : j ≠ k := by
              intro hc
              rw [hc, h1] at ha
              rw [Option.some.inj ha] at h2
              exact h0 h2
            rw [if_neg h0, zero_add]
            simp [List.mem_cons, hjk]
    rw [key t ht]
    split <;> simp
  · rw [if_neg h]
    symm
    apply List.sum_eq_zero
    intro y hy
    obtain ⟨t, ht, rfl⟩ := List.mem_map.mp hy
    rw [if_neg]
    intro hc
    obtain ⟨b, g1, g2, _⟩ := walk_mem n A own oth e μ hlt he M hM t (List.mem_range.mp ht) j hc
    rw [ha] at g1
    obtain rfl := Option.some.inj g1
    exact h g2
end

/-! ## Walks are best paths -/

section
variable [AddCommMonoid W] [LinearOrder W] [IsOrderedAddMonoid W]
  (n : Nat) (A : List (Arc W)) (own oth : Arc W → Nat) (e : Nat → Option Nat) (μ : Nat → Nat)
  (hlt : ∀ a ∈ A, own a < n ∧ oth a < n ∧ μ (own a) < μ (oth a)) (root : Nat)
  (hroot : ∀ a ∈ A, oth a ≠ root) (V : Nat → WithBot W)
  (hV : ∀ s < n, V s = if s = root then 0 else
    reduceRow max ⊥ ((A.filter (fun a => decide (oth a = s))).map (fun a => extend (V (own a)) a.score)))
  (hnone : ∀ t < n, e t = none → ∀ a ∈ A, oth a ≠ t)
  (hbest : ∀ t < n, ∀ k, e t = some k → ∃ a, A[k]? = some a ∧ oth a = t ∧
    ∀ a' ∈ A, oth a' = t → extend (V (own a')) a'.score ≤ extend (V (own a)) a.score)
include hlt hroot hV

theorem gpath_upper (js : List Nat) : ∀ t < n, GPath A own oth t js root → ((listScore A js : W) : WithBot W) ≤ V t := by
  induction js with
  | nil =>
    intro t ht h
    obtain rfl : t = root := h
    rw [hV t ht, if_pos rfl]
    exact le_refl _
  | cons k js ih =>
    intro t ht h
    obtain ⟨a, h1, h2, h3⟩ := h
    have ham := List.mem_of_getElem? h1
    obtain ⟨h4, h5, _⟩ := hlt a ham
    have h6 := ih (own a) h4 h3
    rw [hV t ht, if_neg (by rw [← h2]; exact hroot a ham)]
    have h7 := (reduceRow_max_le ((A.filter (fun a => decide (oth a = t))).map
      (fun a => extend (V (own a)) a.score)) (⊥ : WithBot W)).2.1 (extend (V (own a)) a.score)
      (List.mem_map.mpr ⟨a, List.mem_filter.mpr ⟨ham, by simpa using h2⟩, rfl⟩)
    refine le_trans ?_ h7
    have : listScore A (k :: js) = listScore A js + a.score := by
      simp [listScore, h1, add_comm]
    rw [this, WithBot.coe_add]
    exact add_le_add_left h6 _

include hnone hbest

omit [IsOrderedAddMonoid W] in
theorem walk_score (M : Nat) (hM : ∀ t < n, μ t < M) (t : Nat) (ht : t < n) :
    ∃ u, GPath A own oth t (walk A own e M t) u ∧
      V t = if u = root then ((listScore A (walk A own e M t) : W) : WithBot W) else ⊥ := by
  have he : ∀ t < n, ∀ k, e t = some k → ∃ a, A[k]? = some a ∧ oth a = t := fun t ht k h => by
    obtain ⟨a, h1, h2, _⟩ := hbest t ht k h
    exact ⟨a, h1, h2⟩
  generalize hm : μ t = m
  induction m using Nat.strongRecOn generalizing t with
  | _ m ih =>
    obtain ⟨w1, w2⟩ := walk_step n A own oth e μ hlt he M hM t ht
    cases het : e t with
    | none =>
      rw [w1 het]
      refine ⟨t, rfl, ?_⟩
      rw [hV t ht]
      split
      · rfl
      · have hnil : A.filter (fun a => decide (oth a = t)) = [] := by
          rw [List.filter_eq_nil_iff]
          intro a ha
          simpa using hnone t ht het a ha
        rw [hnil]
        rfl
    | some k =>
      obtain ⟨a, h1, h2, h2'⟩ := hbest t ht k het
      have ham := List.mem_of_getElem? h1
      obtain ⟨h3, h4, h5⟩ := hlt a ham
      obtain ⟨u, g1, g2⟩ := ih (μ (own a)) (by rw [h2] at h5; omega) (own a) h3 rfl
      rw [w2 k a het h1]
      refine ⟨u, ⟨a, h1, h2, g1⟩, ?_⟩
      rw [hV t ht, if_neg (by rw [← h2]; exact hroot a ham), reduceRow_max_eq _ (extend (V (own a)) a.score)
        (List.mem_map.mpr ⟨a, List.mem_filter.mpr ⟨ham, by simpa using h2⟩, rfl⟩) (by
          intro y hy
          obtain ⟨b, hb, rfl⟩ := List.mem_map.mp hy
          obtain ⟨hb1, hb2⟩ := List.mem_filter.mp hb
          exact h2' b hb1 (of_decide_eq_true hb2)), g2]
      split
      · have : listScore A (k :: walk A own e M (own a)) = listScore A (walk A own e M (own a)) + a.score := by
          simp [listScore, h1, add_comm]
        rw [this, WithBot.coe_add]
        rfl
      · unfold extend
        rw [WithBot.bot_add]

/-- If there is a path to the root, the walk is one of the best. -/
theorem walk_best (M : Nat) (hM : ∀ t < n, μ t < M) (t : Nat) (ht : t < n) (js : List Nat)
    (hjs : GPath A own oth t js root) :
    GPath A own oth t (walk A own e M t) root ∧
      listScore A js ≤ listScore A (walk A own e M t) := by
  have h1 := gpath_upper n A own oth μ hlt root hroot V hV js t ht hjs
  obtain ⟨u, g1, g2⟩ := walk_score n A own oth e μ hlt root hroot V hV hnone hbest M hM t ht
  rw [g2] at h1
  split at h1
  · next h =>
    rw [h] at g1
    exact ⟨g1, WithBot.coe_le_coe.mp h1⟩
  · exact absurd (le_bot_iff.mp h1) (WithBot.coe_ne_bot)
end

end Verif.Fsa.Grd
