import Verif.Fsa.Random.Cdf
import Verif.Fsa.Scores.Paths

/-!
# The interval of a path

The paths from a state to the final state cut the interval from 0 to 1 into pieces; the piece of a path is as long
as its share of the weight of all these paths.
-/

namespace Verif.Fsa.Rp
open Verif.Ragged Verif.Util Verif.Fsa.Bat Verif.Fsa.Sco Verif.Fsa.Top
variable {W K : Type} [Field K] [LinearOrder K] [IsStrictOrderedRing K]

theorem arc_row (f : List (List (Arc W))) (hf : RowsOk f) (j : Nat) (a : Arc W) (h : f.flatten[j]? = some a) :
    ∃ row k, f[a.src]? = some row ∧ row[k]? = some a ∧ j = lpos f a.src + k := by
  have hjl := (List.getElem?_eq_some_iff.mp h).1
  rw [List.length_flatten] at hjl
  obtain ⟨s, m, k, g1, g2, g3⟩ := ids_pos _ j hjl
  have hs : s < f.length := by have := (List.getElem?_eq_some_iff.mp g1).1; simpa using this
  have hrow := List.getElem?_eq_getElem hs
  generalize f[s] = row at hrow
  rw [List.getElem?_map, hrow, Option.map_some] at g1
  have g1' := Option.some.inj g1
  subst g1'
  have e1 := row_at f s k row hrow g2
  rw [← g3, h] at e1
  obtain rfl := (hf s row hrow a (List.mem_of_getElem? e1.symm)).1
  exact ⟨row, k, hrow, e1.symm, g3⟩

theorem row_arc (f : List (List (Arc W))) (s k : Nat) (row : List (Arc W)) (a : Arc W) (h : f[s]? = some row)
    (hk : row[k]? = some a) : f.flatten[lpos f s + k]? = some a := by
  have := row_at f s k row h (List.getElem?_eq_some_iff.mp hk).1
  rw [hk] at this
  exact this

section
variable (f : List (List (Arc W))) (wt : W → K) (β : Nat → K)

/-- The weights of the paths that start with the arcs of a state. -/
def vrow (s : Nat) : List K := (f.getD s []).map (fun a => wt a.score * β a.dst)

/-- The part of the interval of state `s` before arc `k` of the state. -/
def cum (s k : Nat) : K := ((vrow f wt β s).take k).sum / β s

/-- The start of the interval of a path. -/
def lo : Nat → List Nat → K
  | _, [] => 0
  | s, j :: js => cum f wt β s (j - lpos f s) +
      (cum f wt β s (j - lpos f s + 1) - cum f wt β s (j - lpos f s)) * lo ((f.flatten[j]?).elim 0 Arc.dst) js

/-- Point `p` is in the interval of a path. -/
def In (s : Nat) (is : List Nat) (p : K) : Prop :=
  lo f wt β s is ≤ p ∧ p < lo f wt β s is + pathWeight wt f.flatten is / β s

structure Beta : Prop where
  ok : RowsOk f
  fw : ∀ a ∈ f.flatten, a.src < a.dst
  wt0 : ∀ w, 0 ≤ wt w
  nonneg : ∀ s, s < f.length → 0 ≤ β s
  final : β (f.length - 1) = 1
  step : ∀ s, s + 1 < f.length → β s = (vrow f wt β s).sum

variable {f wt β} (H : Beta f wt β)
include H

theorem Beta.arc {j : Nat} {a : Arc W} (h : f.flatten[j]? = some a) : a.src < a.dst ∧ a.dst < f.length := by
  obtain ⟨row, k, h1, h2, h3⟩ := arc_row f H.ok j a h
  exact ⟨H.fw a (List.mem_of_getElem? h), (H.ok _ row h1 a (List.mem_of_getElem? h2)).2⟩

theorem Beta.vrow_nonneg (s : Nat) (hs : s < f.length) : ∀ x ∈ vrow f wt β s, 0 ≤ x := by
  intro x hx
  obtain ⟨a, ha, rfl⟩ := List.mem_map.mp hx
  rw [List.getD_eq_getElem?_getD, List.getElem?_eq_getElem hs, Option.getD_some] at ha
  exact mul_nonneg (H.wt0 _) (H.nonneg _ (H.ok s _ (List.getElem?_eq_getElem hs) a ha).2)

theorem Beta.pathWeight_nonneg (is : List Nat) : 0 ≤ pathWeight wt f.flatten is := by
  unfold pathWeight
  apply List.prod_nonneg
  intro x hx
  obtain ⟨j, _, rfl⟩ := List.mem_map.mp hx
  cases f.flatten[j]? with
  | none => exact zero_le_one
  | some a => exact H.wt0 _

/-- The arc at position `j` of the row of its state. -/
theorem Beta.at {j : Nat} {a : Arc W} (h : f.flatten[j]? = some a) :
    (vrow f wt β a.src)[j - lpos f a.src]? = some (wt a.score * β a.dst) ∧ a.src + 1 < f.length := by
  obtain ⟨row, k, h1, h2, h3⟩ := arc_row f H.ok j a h
  obtain ⟨h4, h5⟩ := H.arc h
  refine ⟨?_, by omega⟩
  rw [h3, Nat.add_sub_cancel_left, vrow, List.getD_eq_getElem?_getD, h1, Option.getD_some, List.getElem?_map, h2]
  rfl

theorem Beta.cum_step {j : Nat} {a : Arc W} (h : f.flatten[j]? = some a) :
    cum f wt β a.src (j - lpos f a.src + 1) - cum f wt β a.src (j - lpos f a.src) = wt a.score * β a.dst / β a.src := by
  unfold cum
  rw [take_add_sum _ _ _ (H.at h).1, add_div, add_sub_cancel_left]

theorem Beta.cum_bounds {s : Nat} (hs : s + 1 < f.length) (hb : 0 < β s) :
    (∀ k, 0 ≤ cum f wt β s k) ∧ (∀ k, cum f wt β s k ≤ 1) ∧
      (∀ a b, a ≤ b → cum f wt β s a ≤ cum f wt β s b) ∧ cum f wt β s 0 = 0 ∧
      cum f wt β s (vrow f wt β s).length = 1 := by
  have h0 := H.vrow_nonneg s (by omega)
  unfold cum
  refine ⟨fun k => div_nonneg (take_sum_nonneg _ h0 k) hb.le, fun k => ?_, fun a b h => ?_, by simp, ?_⟩
  · rw [div_le_one hb, H.step s hs]
    exact take_sum_le_sum _ h0 k
  · exact div_le_div_of_nonneg_right (take_sum_le _ h0 h) hb.le
  · rw [List.take_length, ← H.step s hs, div_self hb.ne']

/-- A path weighs no more than all paths. -/
theorem Beta.path_le (is : List Nat) : ∀ s, IPath f.flatten s is (f.length - 1) → s < f.length →
    pathWeight wt f.flatten is ≤ β s := by
  induction is with
  | nil =>
    intro s h _
    rw [ipath_nil] at h
    rw [h, H.final]
    simp [pathWeight]
  | cons j js ih =>
    intro s h hs
    obtain ⟨a, h1, h2, h3⟩ := (ipath_cons _ _ _ _ _).mp h
    obtain ⟨h4, h5⟩ := H.arc h1
    obtain ⟨h6, h7⟩ := H.at h1
    have h8 := ih _ h3 h5
    rw [pathWeight_cons wt _ js j a h1, mul_comm, ← h2]
    have h9 := mul_le_mul_of_nonneg_left h8 (H.wt0 a.score)
    have h10 : wt a.score * β a.dst ≤ β a.src := by
      rw [H.step _ h7]
      exact List.single_le_sum (H.vrow_nonneg _ (by omega)) _ (List.mem_of_getElem? h6)
    linarith

/-- The interval of a path is between 0 and 1. -/
theorem Beta.lo_bounds (is : List Nat) : ∀ s, IPath f.flatten s is (f.length - 1) → s < f.length → 0 < β s →
    0 ≤ lo f wt β s is ∧ lo f wt β s is + pathWeight wt f.flatten is / β s ≤ 1 := by
  induction is with
  | nil =>
    intro s h _ hb
    rw [ipath_nil] at h
    rw [h, H.final]
    simp [pathWeight, lo]
  | cons j js ih =>
    intro s h hs hb
    obtain ⟨a, h1, h2, h3⟩ := (ipath_cons _ _ _ _ _).mp h
    subst h2
    obtain ⟨h4, h5⟩ := H.arc h1
    obtain ⟨h6, h7⟩ := H.at h1
    obtain ⟨c1, c2, c3, c4, c5⟩ := H.cum_bounds h7 hb
    have hq := H.cum_step h1
    have hc := c2 (j - lpos f a.src + 1)
    have hc0 := c1 (j - lpos f a.src)
    have hw := H.wt0 a.score
    rw [lo, h1, pathWeight_cons wt _ js j a h1]
    simp only [Option.elim_some]
    rw [hq]
    rcases (H.nonneg _ h5).eq_or_lt with hd | hd
    · have hp : pathWeight wt f.flatten js = 0 :=
        le_antisymm (by rw [hd]; exact H.path_le js _ h3 h5) (H.pathWeight_nonneg js)
      rw [← hd, hp]
      have := c2 (j - lpos f a.src)
      simp only [mul_zero, zero_div, zero_mul, add_zero]
      exact ⟨hc0, this⟩
    · obtain ⟨i1, i2⟩ := ih _ h3 h5 hd
      have hqn : 0 ≤ wt a.score * β a.dst / β a.src := div_nonneg (mul_nonneg hw hd.le) hb.le
      refine ⟨by have := mul_nonneg hqn i1; linarith, ?_⟩
      have e : pathWeight wt f.flatten js * wt a.score / β a.src =
          (wt a.score * β a.dst / β a.src) * (pathWeight wt f.flatten js / β a.dst) := by
        field_simp
      rw [e]
      have := mul_le_mul_of_nonneg_left i2 hqn
      rw [mul_add, mul_one] at this
      linarith

/-- The interval of a path is part of the interval of its first arc. -/
theorem Beta.in_cons {j : Nat} {js : List Nat} {a : Arc W} {p : K} (h1 : f.flatten[j]? = some a)
    (h3 : IPath f.flatten a.dst js (f.length - 1)) (hb : 0 < β a.src) (hp : In f wt β a.src (j :: js) p) :
    cum f wt β a.src (j - lpos f a.src) ≤ p ∧ p < cum f wt β a.src (j - lpos f a.src + 1) ∧ 0 < wt a.score ∧
      0 < β a.dst ∧ In f wt β a.dst js ((p - cum f wt β a.src (j - lpos f a.src)) /
        (cum f wt β a.src (j - lpos f a.src + 1) - cum f wt β a.src (j - lpos f a.src))) := by
  obtain ⟨p1, p2⟩ := hp
  obtain ⟨h4, h5⟩ := H.arc h1
  have hq := H.cum_step h1
  rw [lo, h1, pathWeight_cons wt _ js j a h1] at p2
  rw [lo, h1] at p1
  simp only [Option.elim_some] at p1 p2
  have hpos : 0 < pathWeight wt f.flatten js * wt a.score / β a.src := by linarith
  have hmul : 0 < pathWeight wt f.flatten js * wt a.score := by
    rcases (mul_nonneg (H.pathWeight_nonneg js) (H.wt0 a.score)).eq_or_lt with h | h
    · rw [← h, zero_div] at hpos; exact absurd hpos (lt_irrefl _)
    · exact h
  have hw : 0 < wt a.score := by
    rcases (H.wt0 a.score).eq_or_lt with h | h
    · rw [← h, mul_zero] at hmul; exact absurd hmul (lt_irrefl _)
    · exact h
  have hpw : 0 < pathWeight wt f.flatten js := by
    rcases (H.pathWeight_nonneg js).eq_or_lt with h | h
    · rw [← h, zero_mul] at hmul; exact absurd hmul (lt_irrefl _)
    · exact h
  have hd : 0 < β a.dst := lt_of_lt_of_le hpw (H.path_le js _ h3 h5)
  obtain ⟨i1, i2⟩ := H.lo_bounds js _ h3 h5 hd
  have hqp : 0 < wt a.score * β a.dst / β a.src := div_pos (mul_pos hw hd) hb
  have e : pathWeight wt f.flatten js * wt a.score / β a.src =
      (wt a.score * β a.dst / β a.src) * (pathWeight wt f.flatten js / β a.dst) := by
    field_simp
  rw [hq] at p1 p2 ⊢
  rw [e] at p2
  have m1 := mul_nonneg hqp.le i1
  have m2 := mul_le_mul_of_nonneg_left i2 hqp.le
  rw [mul_add, mul_one] at m2
  refine ⟨by linarith, by linarith, hw, hd, ?_, ?_⟩
  · rw [le_div_iff₀ hqp]; linarith
  · rw [div_lt_iff₀ hqp]; linarith

/-- Every point is in the interval of a path. -/
theorem Beta.exists_in : ∀ d s, s + d = f.length → 0 < d → 0 < β s → ∀ p : K, 0 ≤ p → p < 1 →
    ∃ is, IPath f.flatten s is (f.length - 1) ∧ In f wt β s is p := by
  intro d
  induction d using Nat.strongRecOn with
  | _ d ih =>
    intro s hd hd0 hb p hp0 hp1
    by_cases hs : s + 1 = f.length
    · refine ⟨[], by rw [ipath_nil]; omega, ?_⟩
      have : β s = 1 := by rw [show s = f.length - 1 by omega]; exact H.final
      simp [In, lo, pathWeight, this, hp0, hp1]
    · obtain ⟨c1, c2, c3, c4, c5⟩ := H.cum_bounds (s := s) (by omega) hb
      have hk : ∀ n, p < cum f wt β s n → ∃ k < n, cum f wt β s k ≤ p ∧ p < cum f wt β s (k + 1) := by
        intro n
        induction n with
        | zero => intro h; rw [c4] at h; linarith
        | succ n ihn =>
          intro h
          rcases lt_or_ge p (cum f wt β s n) with h1 | h1
          · obtain ⟨k, h2, h3⟩ := ihn h1
            exact ⟨k, by omega, h3⟩
          · exact ⟨n, by omega, h1, h⟩
      obtain ⟨k, hk1, hk2, hk3⟩ := hk (vrow f wt β s).length (by rw [c5]; exact hp1)
      have hsl : s < f.length := by omega
      have hrow := List.getElem?_eq_getElem hsl
      generalize f[s] = row at hrow
      have hv : (vrow f wt β s).length = row.length := by
        rw [vrow, List.length_map, List.getD_eq_getElem?_getD, hrow]; rfl
      have ha := List.getElem?_eq_getElem (show k < row.length by omega)
      generalize row[k] = a at ha
      have hj := row_arc f s k row a hrow ha
      obtain ⟨rfl, _⟩ := H.ok s row hrow a (List.mem_of_getElem? ha)
      obtain ⟨h4, h5⟩ := H.arc hj
      have hq := H.cum_step hj
      rw [Nat.add_sub_cancel_left] at hq
      have hqp : 0 < wt a.score * β a.dst / β a.src := by linarith
      have hdp : 0 < β a.dst := by
        rcases (H.nonneg _ h5).eq_or_lt with h | h
        · rw [← h, mul_zero, zero_div] at hqp; exact absurd hqp (lt_irrefl _)
        · exact h
      obtain ⟨js, i1, i2, i3⟩ := ih (f.length - a.dst) (by omega) a.dst (by omega) (by omega) hdp
        ((p - cum f wt β a.src k) / (wt a.score * β a.dst / β a.src)) (div_nonneg (by linarith) hqp.le) (by
          rw [div_lt_one hqp]; linarith)
      rw [le_div_iff₀ hqp] at i2
      rw [div_lt_iff₀ hqp] at i3
      have e : pathWeight wt f.flatten js * wt a.score / β a.src =
          (wt a.score * β a.dst / β a.src) * (pathWeight wt f.flatten js / β a.dst) := by
        field_simp
      refine ⟨(lpos f a.src + k) :: js, (ipath_cons _ _ _ _ _).mpr ⟨a, hj, rfl, i1⟩, ?_, ?_⟩
      · rw [lo, hj, Nat.add_sub_cancel_left, hq]
        simp only [Option.elim_some]
        linarith
      · rw [lo, hj, pathWeight_cons wt _ js _ a hj, e, Nat.add_sub_cancel_left, hq]
        simp only [Option.elim_some]
        linarith
end

end Verif.Fsa.Rp
