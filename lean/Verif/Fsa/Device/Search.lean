import Verif.Fsa.Device.Model
import Verif.Fsa.Flags.Props
import Verif.Fsa.Vec.Lemmas

/-!
# The searches for the arcs with a label
-/

namespace Verif.Fsa.Idv
open Verif.Ragged Verif.Util
variable {W : Type}

/-- The number of arcs whose label is less than `v`. -/
def below (row : List (Arc W)) (v : Int) : Nat := row.countP (fun x => decide (u32 x.label < v))

theorem below_iff (row : List (Arc W)) (hs : row.Pairwise (fun x y => u32 x.label ≤ u32 y.label)) (v : Int)
    (t : Nat) (x : Arc W) (ht : row[t]? = some x) : u32 x.label < v ↔ t < below row v := by
  induction row generalizing t with
  | nil => simp at ht
  | cons y row ih =>
    obtain ⟨h1, h2⟩ := List.pairwise_cons.mp hs
    unfold below at *
    rw [List.countP_cons]
    by_cases hy : u32 y.label < v
    · cases t with
      | zero =>
        simp only [List.getElem?_cons_zero, Option.some.injEq] at ht
        subst ht
        simp [hy]
      | succ t =>
        rw [List.getElem?_cons_succ] at ht
        rw [ih h2 t ht]
        simp [hy]
    · have h0 : row.countP (fun x => decide (u32 x.label < v)) = 0 := by
        rw [List.countP_eq_zero]
        intro z hz
        have := h1 z hz
        simp; omega
      rw [h0]
      cases t with
      | zero =>
        simp only [List.getElem?_cons_zero, Option.some.injEq] at ht
        subst ht
        simp [hy]
      | succ t =>
        rw [List.getElem?_cons_succ] at ht
        have := h1 x (List.mem_of_getElem? ht)
        simp [hy]; omega

theorem below_le (row : List (Arc W)) (v : Int) : below row v ≤ row.length := List.countP_le_length

theorem below_mono (row : List (Arc W)) (v w : Int) (h : v ≤ w) : below row v ≤ below row w := by
  unfold below
  apply List.countP_mono_left
  intro x _ hx
  simp only [decide_eq_true_eq] at hx ⊢
  omega

section
variable (arcs : List (Arc W)) (a0 : Nat) (row : List (Arc W))

/-- `row` are the arcs from `a0` on. -/
def AtRow : Prop := ∀ t : Nat, t < row.length → arcs[a0 + t]? = row[t]?

theorem lowerLoop_eq (hr : AtRow arcs a0 row)
    (hs : row.Pairwise (fun x y => u32 x.label ≤ u32 y.label)) (v : Int) (fuel : Nat) :
    ∀ b e : Nat, e ≤ a0 + row.length → a0 ≤ b → b ≤ a0 + below row v → a0 + below row v ≤ e → e - b ≤ fuel →
      lowerLoop arcs v fuel b e = some (a0 + below row v) := by
  induction fuel with
  | zero =>
    intro b e h1 h2 h3 h4 h5
    rw [lowerLoop, if_neg (by omega)]
    congr 1; omega
  | succ fuel ih =>
    intro b e h1 h2 h3 h4 h5
    rw [lowerLoop]
    split
    · rename_i hbe
      have hm : (b + e) / 2 < e := by omega
      have hm2 : b ≤ (b + e) / 2 := by omega
      obtain ⟨t, ht⟩ : ∃ t, (b + e) / 2 = a0 + t := ⟨(b + e) / 2 - a0, by omega⟩
      have htl : t < row.length := by omega
      have hx : arcs[(b + e) / 2]? = some row[t] := by
        rw [ht, hr t htl, List.getElem?_eq_getElem htl]
      have hi := below_iff row hs v t _ (List.getElem?_eq_getElem htl)
      rw [hx, Option.bind_some]
      split
      · rename_i hlt
        have := hi.mp hlt
        exact ih _ _ h1 (by omega) (by omega) h4 (by omega)
      · rename_i hlt
        have : ¬ t < below row v := fun h => hlt (hi.mpr h)
        exact ih _ _ (by omega) h2 h3 (by omega) (by omega)
    · congr 1; omega

theorem rangeEnd_eq (hr : AtRow arcs a0 row) (v : Int) (m : Nat)
    (hm : m ≤ row.length) (n : Nat) : ∀ t : Nat, t + n = row.length → t ≤ m →
      (∀ (j : Nat) (x : Arc W), t ≤ j → row[j]? = some x → (u32 x.label = v ↔ j < m)) →
      rangeEnd arcs v n (a0 + t) = some (a0 + m) := by
  induction n with
  | zero =>
    intro t h1 h2 _
    rw [rangeEnd]
    congr 1; omega
  | succ n ih =>
    intro t h1 h2 h3
    have htl : t < row.length := by omega
    rw [rangeEnd, hr t htl, List.getElem?_eq_getElem htl, Option.bind_some]
    have hi := h3 t _ (Nat.le_refl _) (List.getElem?_eq_getElem htl)
    split
    · rename_i he
      have := hi.mp he
      exact ih (t + 1) (by omega) (by omega) (fun j x hj hx => h3 j x (by omega) hx)
    · rename_i he
      have : ¬ t < m := fun h => he (hi.mpr h)
      congr 1; omega

theorem between_iff (hs : row.Pairwise (fun x y => u32 x.label ≤ u32 y.label)) (v : Int)
    (t : Nat) (x : Arc W) (ht : row[t]? = some x) :
    u32 x.label = v ↔ below row v ≤ t ∧ t < below row (v + 1) := by
  have h1 := below_iff row hs v t x ht
  have h2 := below_iff row hs (v + 1) t x ht
  omega

theorem rangeCpu_eq (hr : AtRow arcs a0 row)
    (hs : row.Pairwise (fun x y => u32 x.label ≤ u32 y.label)) (v : Int) :
    rangeCpu arcs v a0 (a0 + row.length) =
      some (a0 + below row v, below row (v + 1) - below row v) := by
  have hle := below_le row v
  have hle' := below_le row (v + 1)
  have hmono := below_mono row v (v + 1) (by omega)
  have h1 := lowerLoop_eq arcs a0 row hr hs v (a0 + row.length - a0) a0 (a0 + row.length)
    (Nat.le_refl _) (Nat.le_refl _) (by omega) (by omega) (Nat.le_refl _)
  have h2 := rangeEnd_eq arcs a0 row hr v (below row (v + 1)) hle' (row.length - below row v) (below row v)
    (by omega) hmono (by
      intro j x hj hx
      rw [between_iff row hs v j x hx]
      omega)
  unfold rangeCpu
  rw [h1]
  simp only [Option.bind_eq_bind, Option.bind_some]
  rw [if_pos, show a0 + row.length - (a0 + below row v) = row.length - below row v by omega, h2, Option.bind_some]
  · congr 2; omega
  · constructor
    · intro hlt
      have htl : below row v < row.length := by omega
      refine ⟨row[below row v], by rw [hr _ htl, List.getElem?_eq_getElem htl], ?_⟩
      have := below_iff row hs v _ _ (List.getElem?_eq_getElem htl)
      omega
    · intro hlt
      have htl : below row v - 1 < row.length := by omega
      refine ⟨row[below row v - 1], by
        rw [show a0 + below row v - 1 = a0 + (below row v - 1) by omega, hr _ htl,
          List.getElem?_eq_getElem htl], ?_⟩
      have := below_iff row hs v _ _ (List.getElem?_eq_getElem htl)
      omega

/-! ## The search by groups of threads -/

theorem groupStep_eq (L : Nat → Int) (v : Int) (a1 m per start : Nat)
    (hl : ∀ i, a0 ≤ i → lastLabel arcs a1 i = some (L i)) (hL : ∀ i, a0 ≤ i → (L i < v ↔ i < m))
    (hs : a0 ≤ start) (hp : 0 < per) (h1 : start ≤ m) (h2 : m < start + 4 * per) :
    groupStep arcs v a1 per start = some (start + (m - start) / per * per) := by
  have hlast : (List.range 4).mapM (fun t => lastLabel arcs a1 (start + t * per + per - 1)) =
      some ((List.range 4).map (fun t => L (start + t * per + per - 1))) := by
    apply mapM_some_of
    · simp
    · intro i b hb
      have hi : i < 4 := by have := (List.getElem?_eq_some_iff.mp hb).1; simpa using this
      rw [List.getElem?_range hi] at hb
      obtain rfl := Option.some.inj hb
      rw [hl _ (by omega), List.getElem?_map, List.getElem?_range hi]
      rfl
  have hget : ∀ t < 4, ((List.range 4).map (fun t => L (start + t * per + per - 1))).getD t 0 =
      L (start + t * per + per - 1) := by
    intro t ht
    rw [List.getD_eq_getElem?_getD, List.getElem?_map, List.getElem?_range ht]
    rfl
  have hfil : (List.range 4).filter (fun t =>
      (t == 0 || decide (((List.range 4).map (fun t => L (start + t * per + per - 1))).getD (t - 1) 0 < v)) &&
      decide (v ≤ ((List.range 4).map (fun t => L (start + t * per + per - 1))).getD t 0)) =
      [(m - start) / per] := by
    have hq : (m - start) / per < 4 := by
      rw [Nat.div_lt_iff_lt_mul hp]; omega
    have hpred : ∀ t ∈ List.range 4,
        ((t == 0 || decide (((List.range 4).map (fun t => L (start + t * per + per - 1))).getD (t - 1) 0 < v)) &&
          decide (v ≤ ((List.range 4).map (fun t => L (start + t * per + per - 1))).getD t 0)) =
        decide (t = (m - start) / per) := by
      intro t ht
      rw [List.mem_range] at ht
      rw [hget t ht, hget (t - 1) (by omega)]
      have e1 := hL (start + t * per + per - 1) (by omega)
      have e2 := hL (start + (t - 1) * per + per - 1) (by omega)
      have e3 : start + (t - 1) * per + per = start + t * per ∨ t = 0 := by
        rcases Nat.eq_zero_or_pos t with h0 | h0
        · exact Or.inr h0
        · left
          obtain ⟨u, rfl⟩ : ∃ u, t = u + 1 := ⟨t - 1, by omega⟩
          rw [Nat.add_sub_cancel, Nat.add_mul]; omega
      have e4 : t = (m - start) / per ↔ start + t * per ≤ m ∧ m < start + t * per + per := by
        constructor
        · rintro rfl
          have := Nat.div_mul_le_self (m - start) per
          have h5 := Nat.lt_div_mul_add hp (a := m - start)
          omega
        · rintro ⟨f1, f2⟩
          symm
          rw [Nat.div_eq_iff hp]
          omega
      rw [Bool.eq_iff_iff]
      simp only [Bool.and_eq_true, Bool.or_eq_true, beq_iff_eq, decide_eq_true_eq]
      rw [e4]
      rcases e3 with e3 | rfl
      · rw [e3] at e2 ⊢
        by_cases h0 : t = 0
        · subst h0; omega
        · simp only [h0, false_or]
          have : per ≤ t * per := by
            have := Nat.mul_le_mul_right per (show 1 ≤ t by omega)
            omega
          omega
      · simp only [true_or, true_and]
        omega
    rw [List.filter_congr hpred]
    generalize (m - start) / per = q at hq
    have : q = 0 ∨ q = 1 ∨ q = 2 ∨ q = 3 := by omega
    rcases this with rfl | rfl | rfl | rfl <;> rfl
  unfold groupStep
  rw [hlast]
  simp only [Option.bind_eq_bind, Option.bind_some]
  rw [hfil]

theorem groupSearch_eq (L : Nat → Int) (v : Int) (a1 m : Nat)
    (hl : ∀ i, a0 ≤ i → lastLabel arcs a1 i = some (L i)) (hL : ∀ i, a0 ≤ i → (L i < v ↔ i < m)) (k : Nat) :
    ∀ start, a0 ≤ start → start ≤ m → m < start + 4 ^ k → groupSearch arcs v a1 k start = some m := by
  induction k with
  | zero =>
    intro start _ h1 h2
    rw [groupSearch]
    congr 1; omega
  | succ k ih =>
    intro start h0 h1 h2
    have hp : 0 < 4 ^ k := Nat.pow_pos (by omega)
    rw [groupSearch, groupStep_eq arcs a0 L v a1 m (4 ^ k) start hl hL h0 hp h1 (by rw [Nat.pow_succ] at h2; omega),
      Option.bind_some]
    have e1 := Nat.div_mul_le_self (m - start) (4 ^ k)
    have e2 := Nat.lt_div_mul_add hp (a := m - start)
    exact ih _ (by omega) (by omega) (by omega)

theorem rangeGpu_eq (hr : AtRow arcs a0 row)
    (hs : row.Pairwise (fun x y => u32 x.label ≤ u32 y.label)) (v : Int) (hv : v < 2 ^ 33) :
    rangeGpu arcs v a0 (a0 + row.length) =
      some (a0 + below row v, below row (v + 1) - below row v) := by
  have hk : row.length < 4 ^ (1 + Nat.log2 ((a0 + row.length - a0) ||| 1) / 2) := by
    rw [Nat.add_sub_cancel_left]
    have h1 : row.length ≤ row.length ||| 1 := Nat.left_le_or
    have h2 : row.length ||| 1 < 2 ^ (Nat.log2 (row.length ||| 1) + 1) := Nat.lt_log2_self
    have h3 : 2 ^ (Nat.log2 (row.length ||| 1) + 1) ≤ 4 ^ (1 + Nat.log2 (row.length ||| 1) / 2) := by
      rw [show (4 : Nat) = 2 ^ 2 by rfl, ← Nat.pow_mul]
      apply Nat.pow_le_pow_right (by omega)
      omega
    omega
  have hl : ∀ i, a0 ≤ i → lastLabel arcs (a0 + row.length) i =
      some (if h : i - a0 < row.length then u32 (row[i - a0]).label else 2 ^ 64 - 1) := by
    intro i hi
    unfold lastLabel
    split
    · rename_i h
      rw [dif_neg (by omega)]
    · rename_i h
      have ht : i - a0 < row.length := by omega
      have := hr (i - a0) ht
      rw [show a0 + (i - a0) = i by omega, List.getElem?_eq_getElem ht] at this
      rw [this, dif_pos ht]
      rfl
  have hL : ∀ w : Int, w ≤ 2 ^ 33 → ∀ i, a0 ≤ i →
      ((if h : i - a0 < row.length then u32 (row[i - a0]).label else 2 ^ 64 - 1 : Int) < w ↔ i < a0 + below row w) := by
    intro w hw i hi
    have hle := below_le row w
    split
    · rename_i ht
      rw [below_iff row hs w _ _ (List.getElem?_eq_getElem ht)]
      omega
    · rename_i ht
      omega
  have hle := below_le row v
  have hle' := below_le row (v + 1)
  have hmono := below_mono row v (v + 1) (by omega)
  have g1 := groupSearch_eq arcs a0 _ v (a0 + row.length) (a0 + below row v) hl (hL v (by omega))
    (1 + Nat.log2 ((a0 + row.length - a0) ||| 1) / 2) a0 (Nat.le_refl _) (by omega) (by omega)
  have g2 := groupSearch_eq arcs a0 _ (v + 1) (a0 + row.length) (a0 + below row (v + 1)) hl (hL (v + 1) (by omega))
    (1 + Nat.log2 ((a0 + row.length - a0) ||| 1) / 2) a0 (Nat.le_refl _) (by omega) (by omega)
  unfold rangeGpu
  simp only
  rw [if_neg (by omega), g1, g2]
  simp only [Option.bind_eq_bind, Option.bind_some]
  congr 2; omega

end

theorem rangeOf_eq (p : Args W) (a0 : Nat) (row : List (Arc W)) (hr : AtRow p.a.arcs a0 row)
    (hs : row.Pairwise (fun x y => u32 x.label ≤ u32 y.label)) (v : Int) (hv : v < 2 ^ 33) :
    rangeOf p v a0 (a0 + row.length) =
      some (a0 + below row v, below row (v + 1) - below row v) := by
  unfold rangeOf
  split
  · exact rangeGpu_eq _ _ _ hr hs v hv
  · exact rangeCpu_eq _ _ _ hr hs v

end Verif.Fsa.Idv
