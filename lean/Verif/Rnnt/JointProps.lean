import Verif.Rnnt.JointModel
import Verif.Rnnt.JointSpec
import Verif.Rnnt.MutualInfoProps
import Mathlib.Algebra.BigOperators.Field
import Mathlib.Analysis.Calculus.Deriv.Add
import Mathlib.Analysis.Calculus.Deriv.Mul
import Mathlib.Analysis.SpecialFunctions.ExpDeriv
import Mathlib.Analysis.SpecialFunctions.Log.Deriv

/-!
# Properties of `joint_mutual_information_recursion`
-/

namespace Verif.Rnnt
open Classical

theorem likeli_eq (x : WithBot ℝ) : expB x = likeli x := by cases x <;> rfl

theorem likeli_add (x y : WithBot ℝ) : likeli (x + y) = likeli x * likeli y := by
  cases x with
  | bot => simp [likeli]
  | coe x =>
    cases y with
    | bot => simp [likeli]
    | coe y => rw [← WithBot.coe_add]; exact Real.exp_add x y

theorem likeli_zero : likeli 0 = 1 := Real.exp_zero

theorem likeli_nonneg (x : WithBot ℝ) : 0 ≤ likeli x := by
  cases x with
  | bot => exact le_refl _
  | coe x => exact (Real.exp_pos x).le

/-- The weight of the recursion is the exponential of the score. -/
theorem weight_likeli (md : Bool) (px py : Table) (s t : Nat) (l : List Step) :
    weight md (fun s t => expB (px s t)) (fun s t => expB (py s t)) s t l = likeli (alongB md px py s t l) := by
  induction l generalizing s t with
  | nil => simp [weight, alongB, likeli_zero]
  | cons a l ih => cases a <;> (simp only [weight, alongB, likeli_add, ih]; rw [likeli_eq])

/-- The positions of the steps of kind `a`, for a function on positions. -/
def alongA (md : Bool) (a : Step) (f : Nat → Nat → ℝ) : Nat → Nat → List Step → ℝ
  | _, _, [] => 0
  | s, t, b :: l => (if b = a then f s t else 0) + alongA md a f (s + numX [b]) (t + b.frames md) l

theorem takesAt_cons (md : Bool) (s0 t0 s t : Nat) (a b : Step) (l : List Step) :
    TakesAt md s0 t0 a s t (b :: l) ↔ (b = a ∧ s0 = s ∧ t0 = t) ∨
      TakesAt md (s0 + numX [b]) (t0 + b.frames md) a s t l := by
  constructor
  · rintro ⟨l1, l2, h, h1, h2⟩
    cases l1 with
    | nil =>
      simp at h
      simp [numX, numT] at h1 h2
      exact Or.inl ⟨h.1, h1, h2⟩
    | cons c l1 =>
      simp at h
      obtain ⟨rfl, rfl⟩ := h
      right
      refine ⟨l1, l2, rfl, ?_, ?_⟩
      · rw [← h1, show b :: l1 = [b] ++ l1 from rfl, numX_append]; omega
      · rw [← h2, numT]; omega
  · rintro (⟨rfl, rfl, rfl⟩ | ⟨l1, l2, rfl, h1, h2⟩)
    · exact ⟨[], l, rfl, by simp [numX], by simp [numT]⟩
    · refine ⟨b :: l1, l2, rfl, ?_, ?_⟩
      · rw [← h1, show b :: l1 = [b] ++ l1 from rfl, numX_append]; omega
      · rw [← h2, numT]; omega

theorem takesAt_pos (md : Bool) (s0 t0 s t : Nat) (a : Step) (l : List Step) (h : TakesAt md s0 t0 a s t l) :
    s0 ≤ s ∧ t0 ≤ t ∧ s + numX [a] ≤ s0 + numX l ∧ t + a.frames md ≤ t0 + numT md l := by
  obtain ⟨l1, l2, rfl, h1, h2⟩ := h
  rw [show l1 ++ a :: l2 = l1 ++ ([a] ++ l2) from rfl]
  simp only [numX_append, numT_append]
  simp only [numT]
  omega

/-- A sum over a rectangle that contains the alignment. -/
theorem sum_takes (md : Bool) (a : Step) (f : Nat → Nat → ℝ) (n k : Nat) (l : List Step) (s0 t0 : Nat)
    (hn : ∀ s t, TakesAt md s0 t0 a s t l → s < n ∧ t < k) :
    (∑ s ∈ Finset.range n, ∑ t ∈ Finset.range k, if TakesAt md s0 t0 a s t l then f s t else 0) = alongA md a f s0 t0 l := by
  induction l generalizing s0 t0 with
  | nil =>
    simp only [alongA]
    apply Finset.sum_eq_zero
    intro s _
    apply Finset.sum_eq_zero
    intro t _
    rw [if_neg]
    rintro ⟨l1, l2, h, _⟩
    simp at h
  | cons b l ih =>
    simp only [alongA]
    rw [← ih (s0 + numX [b]) (t0 + b.frames md) (fun s t h => hn s t ((takesAt_cons md s0 t0 s t a b l).2 (Or.inr h)))]
    have hex : ∀ s t, (if TakesAt md s0 t0 a s t (b :: l) then f s t else 0) =
        (if b = a ∧ s0 = s ∧ t0 = t then f s t else 0) +
          (if TakesAt md (s0 + numX [b]) (t0 + b.frames md) a s t l then f s t else 0) := by
      intro s t
      by_cases h1 : b = a ∧ s0 = s ∧ t0 = t
      · have h2 : ¬ TakesAt md (s0 + numX [b]) (t0 + b.frames md) a s t l := by
          intro h
          have := takesAt_pos _ _ _ _ _ _ _ h
          cases b <;> simp [numX, Step.frames] at this <;> omega
        rw [if_pos h1, if_neg h2, if_pos ((takesAt_cons md s0 t0 s t a b l).2 (Or.inl h1)), add_zero]
      · rw [if_neg h1, zero_add]
        have : TakesAt md s0 t0 a s t (b :: l) ↔ TakesAt md (s0 + numX [b]) (t0 + b.frames md) a s t l := by
          rw [takesAt_cons]; tauto
        simp only [this]
    simp only [hex, Finset.sum_add_distrib]
    congr 1
    by_cases hb : b = a
    · have hin := hn s0 t0 ((takesAt_cons md s0 t0 s0 t0 a b l).2 (Or.inl ⟨hb, rfl, rfl⟩))
      rw [if_pos hb, Finset.sum_eq_single s0, Finset.sum_eq_single t0]
      · rw [if_pos ⟨hb, rfl, rfl⟩]
      · intro t _ ht
        rw [if_neg]; rintro ⟨_, _, h⟩; exact ht h.symm
      · intro h; simp at h; omega
      · intro s _ hs
        apply Finset.sum_eq_zero
        intro t _
        rw [if_neg]; rintro ⟨_, h, _⟩; exact hs h.symm
      · intro h; simp at h; omega
    · rw [if_neg hb]
      apply Finset.sum_eq_zero
      intro s _
      apply Finset.sum_eq_zero
      intro t _
      rw [if_neg]; rintro ⟨h, _⟩; exact hb h

theorem alongA_add (md : Bool) (fx fy : Nat → Nat → ℝ) (s t : Nat) (l : List Step) :
    alongA md .X fx s t l + alongA md .Y fy s t l = alongB md fx fy s t l := by
  induction l generalizing s t with
  | nil => simp [alongA, alongB]
  | cons a l ih =>
    cases a with
    | X => simp only [alongA, alongB, if_true, reduceCtorEq, if_false, numX]; rw [← ih]; simp [Step.frames]; ring
    | Y => simp only [alongA, alongB, if_true, reduceCtorEq, if_false, numX]; rw [← ih]; simp [Step.frames]; ring

section
variable (m : ℝ) (md : Bool) (S T : Nat) (px py : List Table) (sb tb se te : Nat) (p0 : Nat → Nat → ℝ)

/-- The sum over all alignments. -/
noncomputable def jmass : ℝ :=
  ∑ k ∈ alignments md (se - sb) (te - tb), likeli (alongB md (sumTables px) (sumTables py) sb tb k)

theorem jointTable_end (h1 : sb ≤ se) (h2 : tb ≤ te) :
    jointTable md px py sb tb se te p0 se te = jmass md px py sb tb se te := by
  unfold jointTable jmass
  rw [miForward_total md _ _ h1 h2 p0 h1 (le_refl _) h2 (le_refl _)]
  exact Finset.sum_congr rfl (fun l _ => weight_likeli md (sumTables px) (sumTables py) sb tb l)

/-- The inner products are expectations. -/
theorem inner_expected (h1 : sb ≤ se) (h2 : se ≤ S) (h3 : tb ≤ te) (h4 : te ≤ T)
    (hm : jmass md px py sb tb se te ≠ 0) (fx fy : Nat → Nat → ℝ) :
    (∑ s ∈ Finset.range S, ∑ t ∈ Finset.range (colsX md T), (jointGrads md px py sb tb se te p0).px s t * fx s t) +
      (∑ s ∈ Finset.range (S + 1), ∑ t ∈ Finset.range T, (jointGrads md px py sb tb se te p0).py s t * fy s t) =
    ∑ l ∈ alignments md (se - sb) (te - tb), posterior md (sumTables px) (sumTables py) sb tb se te l *
      alongB md fx fy sb tb l := by
  have hocc := miBackward_occupation md (fun s t => expB (sumTables px s t)) (fun s t => expB (sumTables py s t))
    (fun s t => by rw [likeli_eq]; exact likeli_nonneg _) (fun s t => by rw [likeli_eq]; exact likeli_nonneg _)
    h1 h3 p0 1 (by simp only [weight_likeli]; exact hm)
  obtain ⟨hx, hy, -⟩ := hocc
  have key : ∀ (a : Step) (f g : Nat → Nat → ℝ) (n k : Nat),
      (∀ s t, g s t = 1 * (∑ l ∈ alignments md (se - sb) (te - tb) with TakesAt md sb tb a s t l,
        likeli (alongB md (sumTables px) (sumTables py) sb tb l)) / jmass md px py sb tb se te) →
      (∀ l ∈ alignments md (se - sb) (te - tb), ∀ s t, TakesAt md sb tb a s t l → s < n ∧ t < k) →
      (∑ s ∈ Finset.range n, ∑ t ∈ Finset.range k, g s t * f s t) =
        ∑ l ∈ alignments md (se - sb) (te - tb), posterior md (sumTables px) (sumTables py) sb tb se te l *
          alongA md a f sb tb l := by
    intro a f g n k hg hn
    have e1 : ∀ s t, g s t * f s t = ∑ l ∈ alignments md (se - sb) (te - tb),
        posterior md (sumTables px) (sumTables py) sb tb se te l * (if TakesAt md sb tb a s t l then f s t else 0) := by
      intro s t
      rw [hg, Finset.sum_filter, one_mul, Finset.sum_div, Finset.sum_mul]
      refine Finset.sum_congr rfl (fun l _ => ?_)
      unfold posterior jmass
      split <;> simp
    simp only [e1]
    have e2 : ∀ s ∈ Finset.range n, (∑ t ∈ Finset.range k, ∑ l ∈ alignments md (se - sb) (te - tb),
        posterior md (sumTables px) (sumTables py) sb tb se te l * (if TakesAt md sb tb a s t l then f s t else 0)) =
        ∑ l ∈ alignments md (se - sb) (te - tb), ∑ t ∈ Finset.range k,
        posterior md (sumTables px) (sumTables py) sb tb se te l * (if TakesAt md sb tb a s t l then f s t else 0) :=
      fun s _ => Finset.sum_comm
    rw [Finset.sum_congr rfl e2, Finset.sum_comm]
    refine Finset.sum_congr rfl (fun l hl => ?_)
    rw [← sum_takes md a f n k l sb tb (hn l hl), Finset.mul_sum]
    refine Finset.sum_congr rfl (fun s _ => ?_)
    rw [Finset.mul_sum]
  rw [key .X fx _ S (colsX md T), key .Y fy _ (S + 1) T, ← Finset.sum_add_distrib]
  · refine Finset.sum_congr rfl (fun l _ => ?_)
    rw [← alongA_add]; ring
  · intro s t
    have := hy s t
    simp only [weight_likeli] at this
    exact this
  · intro l hl s t ht
    obtain ⟨e1, e2⟩ := (mem_alignments _ _ _ _).1 hl
    have := takesAt_pos _ _ _ _ _ _ _ ht
    simp [numX, Step.frames] at this
    omega
  · intro s t
    have := hx s t
    simp only [weight_likeli] at this
    exact this
  · intro l hl s t ht
    obtain ⟨e1, e2⟩ := (mem_alignments _ _ _ _).1 hl
    have := takesAt_pos _ _ _ _ _ _ _ ht
    cases md <;> simp [numX, Step.frames, colsX] at this ⊢ <;> omega

theorem along_unbot (m : ℝ) (px py : Table) (hx : ∀ s t x, px s t = (x : ℝ) → m ≤ x) (hy : ∀ s t x, py s t = (x : ℝ) → m ≤ x)
    (s t : Nat) (l : List Step) (h : alongB md px py s t l ≠ ⊥) :
    alongB md (fun s t => clampB m (px s t)) (fun s t => clampB m (py s t)) s t l = (alongB md px py s t l).unbotD 0 := by
  induction l generalizing s t with
  | nil => simp [alongB]
  | cons a l ih =>
    cases a with
    | X =>
      simp only [alongB] at h ⊢
      rw [ih _ _ (fun e => h (by rw [e]; simp))]
      cases hp : px s t with
      | bot => rw [hp] at h; simp at h
      | coe x =>
        cases hq : alongB md px py (s + 1) (t + Step.X.frames md) l with
        | bot => rw [hq] at h; simp at h
        | coe y =>
          rw [← WithBot.coe_add, WithBot.unbotD_coe, WithBot.unbotD_coe]
          simp [clampB, hx s t x hp]
    | Y =>
      simp only [alongB] at h ⊢
      rw [ih _ _ (fun e => h (by rw [e]; simp))]
      cases hp : py s t with
      | bot => rw [hp] at h; simp at h
      | coe x =>
        cases hq : alongB md px py s (t + 1) l with
        | bot => rw [hq] at h; simp at h
        | coe y =>
          rw [← WithBot.coe_add, WithBot.unbotD_coe, WithBot.unbotD_coe]
          simp [clampB, hy s t x hp]

theorem alongB_add {A : Type} [AddCommMonoid A] (fx fy gx gy : Nat → Nat → A) (s t : Nat) (l : List Step) :
    alongB md (fun s t => fx s t + gx s t) (fun s t => fy s t + gy s t) s t l =
      alongB md fx fy s t l + alongB md gx gy s t l := by
  induction l generalizing s t with
  | nil => simp [alongB]
  | cons a l ih =>
    cases a <;> (simp only [alongB, ih]; exact add_add_add_comm _ _ _ _)

theorem alongB_tot (px py : List Table) (h : py.length = px.length) (s t : Nat) (l : List Step) :
    alongB md (sumTables px) (sumTables py) s t l = ((px.zip py).map (fun q => alongB md q.1 q.2 s t l)).sum := by
  induction px generalizing py with
  | nil =>
    cases py with
    | cons _ _ => simp at h
    | nil =>
      simp only [List.zip_nil_left, List.map_nil, List.sum_nil]
      have h0 : sumTables [] = fun _ _ => (0 : WithBot ℝ) := rfl
      rw [h0]
      induction l generalizing s t with
      | nil => rfl
      | cons a l ih => cases a <;> simp [alongB, ih]
  | cons p px ih =>
    cases py with
    | nil => simp at h
    | cons q py =>
      simp only [List.zip_cons_cons, List.map_cons, List.sum_cons]
      rw [← ih py (by simpa using h), ← alongB_add]
      have e1 : sumTables (p :: px) = fun s t => p s t + sumTables px s t := by
        funext s t; simp [sumTables]
      have e2 : sumTables (q :: py) = fun s t => q s t + sumTables py s t := by
        funext s t; simp [sumTables]
      rw [e1, e2]

theorem sum_unbot (l : List (WithBot ℝ)) (h : l.sum ≠ ⊥) :
    (∀ x ∈ l, x ≠ ⊥) ∧ (l.map (WithBot.unbotD 0)).sum = l.sum.unbotD 0 := by
  induction l with
  | nil => simp
  | cons x l ih =>
    rw [List.sum_cons] at h
    obtain ⟨h1, h2⟩ := ih (fun e => h (by rw [e]; simp))
    have hx : x ≠ ⊥ := fun e => h (by rw [e]; simp)
    refine ⟨by intro y hy; rcases List.mem_cons.1 hy with rfl | hy; exacts [hx, h1 y hy], ?_⟩
    rw [List.map_cons, List.sum_cons, h2, List.sum_cons]
    cases x with
    | bot => simp at hx
    | coe x =>
      cases hs : l.sum with
      | bot => rw [hs] at h; simp at h
      | coe y => rw [← WithBot.coe_add, WithBot.unbotD_coe, WithBot.unbotD_coe, WithBot.unbotD_coe]

theorem posterior_bot (l : List Step) (h : alongB md (sumTables px) (sumTables py) sb tb l = ⊥) :
    posterior md (sumTables px) (sumTables py) sb tb se te l = 0 := by
  unfold posterior; rw [h]; simp [likeli]

theorem posterior_sum (hm : jmass md px py sb tb se te ≠ 0) :
    ∑ l ∈ alignments md (se - sb) (te - tb), posterior md (sumTables px) (sumTables py) sb tb se te l = 1 := by
  unfold posterior
  rw [← Finset.sum_div]
  exact div_self hm

/-- The entropy is the difference between the log of the sum and the expected score. -/
theorem entropy_eq (hm : jmass md px py sb tb se te ≠ 0) :
    entropy md (sumTables px) (sumTables py) sb tb se te = Real.log (jmass md px py sb tb se te) -
      ∑ l ∈ alignments md (se - sb) (te - tb), posterior md (sumTables px) (sumTables py) sb tb se te l *
        (alongB md (sumTables px) (sumTables py) sb tb l).unbotD 0 := by
  have hs := posterior_sum md px py sb tb se te hm
  rw [← one_mul (Real.log (jmass md px py sb tb se te)), ← hs, Finset.sum_mul, ← Finset.sum_sub_distrib]
  refine Finset.sum_congr rfl (fun l _ => ?_)
  cases h : alongB md (sumTables px) (sumTables py) sb tb l with
  | bot => rw [posterior_bot md px py sb tb se te l h]; simp
  | coe x =>
    have hp : posterior md (sumTables px) (sumTables py) sb tb se te l = Real.exp x / jmass md px py sb tb se te := by
      unfold posterior; rw [h]; rfl
    rw [WithBot.unbotD_coe, Real.negMulLog, hp, Real.log_div (Real.exp_ne_zero x) hm, Real.log_exp]
    ring

theorem prods_get (h0 : py.length = px.length) (h1 : sb ≤ se) (h2 : se ≤ S) (h3 : tb ≤ te) (h4 : te ≤ T)
    (hm : jmass md px py sb tb se te ≠ 0)
    (hx : ∀ p ∈ px, ∀ s t x, p s t = (x : ℝ) → m ≤ x) (hy : ∀ p ∈ py, ∀ s t x, p s t = (x : ℝ) → m ≤ x) :
    jointProds m md S T px py sb tb se te p0 =
      (px.zip py).map (fun q => expected md (sumTables px) (sumTables py) q.1 q.2 sb tb se te) := by
  unfold jointProds
  refine List.map_congr_left (fun q hq => ?_)
  unfold inner expected
  rw [inner_expected md S T px py sb tb se te p0 h1 h2 h3 h4 hm (fun s t => clampB m (q.1 s t)) (fun s t => clampB m (q.2 s t))]
  refine Finset.sum_congr rfl (fun l _ => ?_)
  by_cases h : alongB md (sumTables px) (sumTables py) sb tb l = ⊥
  · rw [posterior_bot md px py sb tb se te l h, zero_mul, zero_mul]
  · rw [alongB_tot md px py h0] at h
    rw [along_unbot md m q.1 q.2 (hx _ (List.of_mem_zip hq).1) (hy _ (List.of_mem_zip hq).2) sb tb l
      ((sum_unbot _ h).1 _ (List.mem_map.2 ⟨q, hq, rfl⟩))]

theorem list_sum_comm {A B : Type} (l : List A) (f : Finset B) (g : A → B → ℝ) :
    (l.map (fun a => ∑ b ∈ f, g a b)).sum = ∑ b ∈ f, (l.map (fun a => g a b)).sum := by
  induction l with
  | nil => simp
  | cons a l ih => simp [ih, Finset.sum_add_distrib]

/-- The expectations add up to the expectation of the sum. -/
theorem expected_sum (h0 : py.length = px.length) :
    ((px.zip py).map (fun q => expected md (sumTables px) (sumTables py) q.1 q.2 sb tb se te)).sum =
      ∑ l ∈ alignments md (se - sb) (te - tb), posterior md (sumTables px) (sumTables py) sb tb se te l *
        (alongB md (sumTables px) (sumTables py) sb tb l).unbotD 0 := by
  unfold expected
  rw [list_sum_comm]
  refine Finset.sum_congr rfl (fun l _ => ?_)
  rw [List.sum_map_mul_left]
  by_cases h : alongB md (sumTables px) (sumTables py) sb tb l = ⊥
  · rw [posterior_bot md px py sb tb se te l h, zero_mul, zero_mul]
  · congr 1
    have h' := h
    rw [alongB_tot md px py h0] at h' ⊢
    rw [← (sum_unbot _ h').2, List.map_map]
    rfl

/-- What the result is: `r` has an entry for each pair of tensors. -/
structure JointOk (r : List (WithBot ℝ)) : Prop where
  length : r.length = px.length
  /-- The entries add up to the log of the sum over all alignments (also if that is minus infinity). -/
  sum : likeli r.sum = ∑ l ∈ alignments md (se - sb) (te - tb), likeli (alongB md (sumTables px) (sumTables py) sb tb l)
  /-- The entries but the first are expected scores, for the posteriors of the alignments. -/
  entry : (∃ l ∈ alignments md (se - sb) (te - tb), alongB md (sumTables px) (sumTables py) sb tb l ≠ ⊥) →
    ∀ n qx qy, px[n + 1]? = some qx → py[n + 1]? = some qy →
      r[n + 1]? = some ((expected md (sumTables px) (sumTables py) qx qy sb tb se te : ℝ) : WithBot ℝ)
  /-- The first entry has the entropy of the posteriors added. -/
  first : (∃ l ∈ alignments md (se - sb) (te - tb), alongB md (sumTables px) (sumTables py) sb tb l ≠ ⊥) →
    ∀ qx qy, px[0]? = some qx → py[0]? = some qy →
      r[0]? = some ((expected md (sumTables px) (sumTables py) qx qy sb tb se te +
        entropy md (sumTables px) (sumTables py) sb tb se te : ℝ) : WithBot ℝ)

theorem jmass_ne (h : ∃ l ∈ alignments md (se - sb) (te - tb), alongB md (sumTables px) (sumTables py) sb tb l ≠ ⊥) :
    jmass md px py sb tb se te ≠ 0 := by
  obtain ⟨l, hl, hne⟩ := h
  have : 0 < jmass md px py sb tb se te := by
    refine Finset.sum_pos' (fun _ _ => likeli_nonneg _) ⟨l, hl, ?_⟩
    cases hx : alongB md (sumTables px) (sumTables py) sb tb l with
    | bot => exact absurd hx hne
    | coe x => exact Real.exp_pos x
  exact this.ne'

theorem jmass_nonneg : 0 ≤ jmass md px py sb tb se te := Finset.sum_nonneg (fun _ _ => likeli_nonneg _)

theorem addFirst_sum (tot : WithBot ℝ) (a : ℝ) (l : List ℝ) : (addFirst tot (a :: l)).sum = tot := by
  have hl : (l.map (fun x : ℝ => (x : WithBot ℝ))).sum = ((l.sum : ℝ) : WithBot ℝ) := by
    induction l with
    | nil => rfl
    | cons x l ih => simp only [List.map_cons, List.sum_cons, ih, WithBot.coe_add]
  simp only [addFirst, List.sum_cons, hl]
  cases tot with
  | bot => simp
  | coe x =>
    rw [← WithBot.coe_add, ← WithBot.coe_add, ← WithBot.coe_add]
    congr 1
    ring

/-- C92.  The result of `joint_mutual_information_recursion`. -/
theorem joint_correct (r : List (WithBot ℝ)) (hr : joint m md S T px py sb tb se te p0 = some r)
    (hx : ∀ p ∈ px, ∀ s t x, p s t = (x : ℝ) → m ≤ x) (hy : ∀ p ∈ py, ∀ s t x, p s t = (x : ℝ) → m ≤ x) :
    JointOk md px py sb tb se te r := by
  unfold joint at hr
  split at hr
  case isFalse => cases hr
  case isTrue hc =>
  obtain ⟨h0, hN, h1, h2, h3, h4⟩ := hc
  cases hr
  rw [jointTable_end md px py sb tb se te p0 h1 h3]
  have hlen : (jointProds m md S T px py sb tb se te p0).length = px.length := by
    unfold jointProds; rw [List.length_map, List.length_zip, h0, Nat.min_self]
  refine ⟨?_, ?_, ?_, ?_⟩
  · rw [← hlen]
    cases jointProds m md S T px py sb tb se te p0 with
    | nil => rfl
    | cons a l => simp [addFirst]
  · cases hp : jointProds m md S T px py sb tb se te p0 with
    | nil => rw [hp] at hlen; simp at hlen; omega
    | cons a l =>
      rw [addFirst_sum]
      show likeli (logB (jmass md px py sb tb se te)) = jmass md px py sb tb se te
      unfold logB
      split
      · rename_i h; rw [h]; rfl
      · rename_i h
        exact Real.exp_log (lt_of_le_of_ne (jmass_nonneg md px py sb tb se te) (Ne.symm h))
  · intro he n qx qy hqx hqy
    have hm := jmass_ne md px py sb tb se te he
    rw [prods_get m md S T px py sb tb se te p0 h0 h1 h2 h3 h4 hm hx hy]
    cases px with
    | nil => simp at hqx
    | cons q px =>
      cases py with
      | nil => simp at hqy
      | cons q' py =>
        simp only [List.getElem?_cons_succ] at hqx hqy
        simp only [List.zip_cons_cons, List.map_cons, addFirst, List.getElem?_cons_succ, List.getElem?_map]
        rw [show (px.zip py)[n]? = some (qx, qy) from List.getElem?_zip_eq_some.2 ⟨hqx, hqy⟩]
        rfl
  · intro he qx qy hqx hqy
    have hm := jmass_ne md px py sb tb se te he
    rw [prods_get m md S T px py sb tb se te p0 h0 h1 h2 h3 h4 hm hx hy]
    have hsum := expected_sum md px py sb tb se te h0
    have hent := entropy_eq md px py sb tb se te hm
    rw [← hsum] at hent
    cases px with
    | nil => simp at hqx
    | cons q px =>
      cases py with
      | nil => simp at hqy
      | cons q' py =>
        simp only [List.getElem?_cons_zero, Option.some.injEq] at hqx hqy
        subst hqx hqy
        simp only [List.zip_cons_cons, List.map_cons] at hent ⊢
        simp only [addFirst, List.getElem?_cons_zero, logB, if_neg hm]
        rw [hent, ← WithBot.coe_add, ← WithBot.coe_add]
        rfl

/-- The result exists for all arguments within the documented bounds. -/
theorem joint_defined (h0 : py.length = px.length) (hN : 0 < px.length) (h1 : sb ≤ se) (h2 : se ≤ S) (h3 : tb ≤ te) (h4 : te ≤ T) :
    ∃ r, joint m md S T px py sb tb se te p0 = some r := by
  unfold joint; rw [if_pos ⟨h0, hN, h1, h2, h3, h4⟩]; exact ⟨_, rfl⟩

theorem posterior_le (l : List Step) (hl : l ∈ alignments md (se - sb) (te - tb)) :
    0 ≤ posterior md (sumTables px) (sumTables py) sb tb se te l ∧ posterior md (sumTables px) (sumTables py) sb tb se te l ≤ 1 := by
  unfold posterior
  refine ⟨div_nonneg (likeli_nonneg _) (jmass_nonneg md px py sb tb se te), ?_⟩
  apply div_le_one_of_le₀ _ (jmass_nonneg md px py sb tb se te)
  exact Finset.single_le_sum (f := fun k => likeli (alongB md (sumTables px) (sumTables py) sb tb k))
    (fun _ _ => likeli_nonneg _) hl

/-- C92.  The offset in the first entry is never negative, and it is zero if and only if one alignment has
the posterior 1 ("all the occupation counts are exactly 1.0"). -/
theorem joint_offset (he : ∃ l ∈ alignments md (se - sb) (te - tb), alongB md (sumTables px) (sumTables py) sb tb l ≠ ⊥) :
    0 ≤ entropy md (sumTables px) (sumTables py) sb tb se te ∧
    (entropy md (sumTables px) (sumTables py) sb tb se te = 0 ↔
      ∃ l ∈ alignments md (se - sb) (te - tb), posterior md (sumTables px) (sumTables py) sb tb se te l = 1) := by
  have hm := jmass_ne md px py sb tb se te he
  have hs := posterior_sum md px py sb tb se te hm
  have hnn : ∀ l ∈ alignments md (se - sb) (te - tb),
      0 ≤ Real.negMulLog (posterior md (sumTables px) (sumTables py) sb tb se te l) := by
    intro l hl
    obtain ⟨h1, h2⟩ := posterior_le md px py sb tb se te l hl
    exact Real.negMulLog_nonneg h1 h2
  refine ⟨Finset.sum_nonneg hnn, ?_⟩
  unfold entropy
  rw [Finset.sum_eq_zero_iff_of_nonneg hnn]
  constructor
  · intro h
    by_contra hne
    push Not at hne
    have h0 : ∀ l ∈ alignments md (se - sb) (te - tb), posterior md (sumTables px) (sumTables py) sb tb se te l = 0 := by
      intro l hl
      have := h l hl
      rw [Real.negMulLog, neg_mul, neg_eq_zero, mul_eq_zero] at this
      rcases this with e | e
      · exact e
      · obtain ⟨h1, h2⟩ := posterior_le md px py sb tb se te l hl
        rcases Real.log_eq_zero.1 e with e | e | e
        · exact e
        · exact absurd e (hne l hl)
        · linarith
    rw [Finset.sum_eq_zero h0] at hs
    exact zero_ne_one hs
  · rintro ⟨l, hl, h1⟩ k hk
    by_cases hkl : k = l
    · rw [hkl, h1, Real.negMulLog_one]
    · have : posterior md (sumTables px) (sumTables py) sb tb se te k = 0 := by
        rw [← Finset.add_sum_erase _ _ hl, h1] at hs
        have hz : ∑ x ∈ (alignments md (se - sb) (te - tb)).erase l, posterior md (sumTables px) (sumTables py) sb tb se te x = 0 := by
          linarith
        rw [Finset.sum_eq_zero_iff_of_nonneg (fun x hx => (posterior_le md px py sb tb se te x (Finset.mem_of_mem_erase hx)).1)] at hz
        exact hz k (Finset.mem_erase.2 ⟨hkl, hk⟩)
      rw [this, Real.negMulLog_zero]

/-! ## Gradients -/

theorem takes_zero (a : Step) (s t : Nat) (l : List Step) (h : TakesAt md sb tb a s t l)
    (hb : (match a with | .X => sumTables px s t | .Y => sumTables py s t) = ⊥) :
    posterior md (sumTables px) (sumTables py) sb tb se te l = 0 := by
  apply posterior_bot
  obtain ⟨l1, l2, rfl, h1, h2⟩ := h
  have : ∀ s0 t0, s0 + numX l1 = s → t0 + numT md l1 = t →
      alongB md (sumTables px) (sumTables py) s0 t0 (l1 ++ a :: l2) = ⊥ := by
    clear h1 h2
    induction l1 with
    | nil =>
      intro s0 t0 h1 h2
      simp only [numX, numT, Nat.add_zero] at h1 h2
      subst h1 h2
      cases a <;> (simp only at hb; simp [alongB, hb])
    | cons b l1 ih =>
      intro s0 t0 h1 h2
      cases b with
      | X =>
        simp only [numX, numT] at h1 h2
        simp only [List.cons_append, alongB]
        rw [ih (s0 + 1) (t0 + Step.X.frames md) (by omega) (by omega)]; simp
      | Y =>
        simp only [numX, numT, Step.frames] at h1 h2
        simp only [List.cons_append, alongB]
        rw [ih s0 (t0 + 1) (by omega) (by omega)]; simp
  exact this sb tb h1 h2

theorem sum_bot (ps : List Table) (n s t : Nat) (hn : n < ps.length) (h : (ps.getD n (fun _ _ => 0)) s t = ⊥) :
    sumTables ps s t = ⊥ := by
  unfold sumTables
  by_contra hne
  have := (sum_unbot _ hne).1 (ps[n] s t) (List.mem_map.2 ⟨ps[n], List.getElem_mem hn, rfl⟩)
  rw [List.getD_eq_getElem?_getD, List.getElem?_eq_getElem hn] at h
  exact this h

theorem grads_occ (h1 : sb ≤ se) (h3 : tb ≤ te) (hm : jmass md px py sb tb se te ≠ 0) (s t : Nat) :
    (jointGrads md px py sb tb se te p0).px s t = ∑ l ∈ alignments md (se - sb) (te - tb) with TakesAt md sb tb .X s t l,
      posterior md (sumTables px) (sumTables py) sb tb se te l ∧
    (jointGrads md px py sb tb se te p0).py s t = ∑ l ∈ alignments md (se - sb) (te - tb) with TakesAt md sb tb .Y s t l,
      posterior md (sumTables px) (sumTables py) sb tb se te l := by
  obtain ⟨hx, hy, -⟩ := miBackward_occupation md (fun s t => expB (sumTables px s t)) (fun s t => expB (sumTables py s t))
    (fun s t => by rw [likeli_eq]; exact likeli_nonneg _) (fun s t => by rw [likeli_eq]; exact likeli_nonneg _)
    h1 h3 p0 1 (by simp only [weight_likeli]; exact hm)
  have ex := hx s t
  have ey := hy s t
  simp only [weight_likeli, one_mul, Finset.sum_div] at ex ey
  exact ⟨ex, ey⟩

/-- C92.  The gradient for an entry of the `n`th tensor is the gradient of the `n`th result times the
posterior of the step: the sum of the posteriors of the alignments that take it. -/
theorem joint_backward (h0 : py.length = px.length) (h1 : sb ≤ se) (h3 : tb ≤ te)
    (he : ∃ l ∈ alignments md (se - sb) (te - tb), alongB md (sumTables px) (sumTables py) sb tb l ≠ ⊥)
    (hx : ∀ p ∈ px, ∀ s t x, p s t = (x : ℝ) → m ≤ x) (hy : ∀ p ∈ py, ∀ s t x, p s t = (x : ℝ) → m ≤ x)
    (c : Nat → ℝ) (n : Nat) (hn : n < px.length) (s t : Nat) :
    jointBackX m md px py sb tb se te p0 c n s t =
      c n * ∑ l ∈ alignments md (se - sb) (te - tb) with TakesAt md sb tb .X s t l,
        posterior md (sumTables px) (sumTables py) sb tb se te l ∧
    jointBackY m md px py sb tb se te p0 c n s t =
      c n * ∑ l ∈ alignments md (se - sb) (te - tb) with TakesAt md sb tb .Y s t l,
        posterior md (sumTables px) (sumTables py) sb tb se te l := by
  have hm := jmass_ne md px py sb tb se te he
  obtain ⟨ex, ey⟩ := grads_occ md px py sb tb se te p0 h1 h3 hm s t
  have hle : ∀ (ps : List Table) (hn : n < ps.length) (_ : ∀ p ∈ ps, ∀ s t x, p s t = (x : ℝ) → m ≤ x),
      ¬ ((m : WithBot ℝ) ≤ (ps.getD n (fun _ _ => 0)) s t) → sumTables ps s t = ⊥ := by
    intro ps hn hp hnot
    apply sum_bot ps n s t hn
    cases hv : (ps.getD n (fun _ _ => 0)) s t with
    | bot => rfl
    | coe x =>
      refine absurd ?_ hnot
      rw [hv, WithBot.coe_le_coe]
      refine hp (ps.getD n (fun _ _ => 0)) ?_ s t x hv
      rw [List.getD_eq_getElem?_getD, List.getElem?_eq_getElem hn]
      exact List.getElem_mem hn
  constructor
  · unfold jointBackX
    split
    · rw [ex]
    · rename_i hnot
      have hb := hle px hn hx hnot
      rw [Finset.sum_eq_zero, mul_zero]
      intro l hl
      exact takes_zero md px py sb tb se te .X s t l (Finset.mem_filter.1 hl).2 hb
  · unfold jointBackY
    split
    · rw [ey]
    · rename_i hnot
      have hb := hle py (by omega) hy hnot
      rw [Finset.sum_eq_zero, mul_zero]
      intro l hl
      exact takes_zero md px py sb tb se te .Y s t l (Finset.mem_filter.1 hl).2 hb

end

/-- Move all tables in a direction. -/
noncomputable def moved (ps : List Table) (d : Nat → Nat → Nat → ℝ) (ε : ℝ) : List Table :=
  ps.mapIdx (fun n p => fun s t => p s t + ((ε * d n s t : ℝ) : WithBot ℝ))

theorem tot_moved (ps : List Table) (d : Nat → Nat → Nat → ℝ) (ε : ℝ) :
    sumTables (moved ps d ε) = fun s t => sumTables ps s t + ((ε * ∑ n ∈ Finset.range ps.length, d n s t : ℝ) : WithBot ℝ) := by
  induction ps generalizing d with
  | nil =>
    funext s t
    simp [sumTables, moved]
  | cons p ps ih =>
    funext s t
    have hc : moved (p :: ps) d ε = (fun s t => p s t + ((ε * d 0 s t : ℝ) : WithBot ℝ)) :: moved ps (fun n => d (n + 1)) ε := by
      simp [moved, List.mapIdx_cons]
    have e1 : sumTables (moved (p :: ps) d ε) s t = (p s t + ((ε * d 0 s t : ℝ) : WithBot ℝ)) + sumTables (moved ps (fun n => d (n + 1)) ε) s t := by
      rw [hc]; simp [sumTables]
    have e2 : sumTables (p :: ps) s t = p s t + sumTables ps s t := by simp [sumTables]
    rw [e1, e2, ih, List.length_cons, Finset.sum_range_succ', mul_add, WithBot.coe_add, add_add_add_comm]
    congr 1
    exact add_comm _ _

theorem likeli_moved (md : Bool) (fx fy : Table) (dx dy : Nat → Nat → ℝ) (ε : ℝ) (s t : Nat) (l : List Step) :
    likeli (alongB md (fun s t => fx s t + ((ε * dx s t : ℝ) : WithBot ℝ)) (fun s t => fy s t + ((ε * dy s t : ℝ) : WithBot ℝ)) s t l) =
      likeli (alongB md fx fy s t l) * Real.exp (ε * alongB md dx dy s t l) := by
  induction l generalizing s t with
  | nil => simp [alongB, likeli_zero]
  | cons a l ih =>
    have hc : ∀ x : ℝ, likeli (x : WithBot ℝ) = Real.exp x := fun _ => rfl
    cases a <;>
    · simp only [alongB, likeli_add, ih, mul_add, Real.exp_add, hc]
      ring

section
variable (m : ℝ) (md : Bool) (S T : Nat) (px py : List Table) (sb tb se te : Nat) (p0 : Nat → Nat → ℝ)

/-- C92.  If all results have the same gradient, autograd computes the exact gradient of the total score: its
inner product with any direction is the derivative of the log of the sum over all alignments. -/
theorem joint_gradient (h0 : py.length = px.length) (h1 : sb ≤ se) (h2 : se ≤ S) (h3 : tb ≤ te) (h4 : te ≤ T)
    (he : ∃ l ∈ alignments md (se - sb) (te - tb), alongB md (sumTables px) (sumTables py) sb tb l ≠ ⊥)
    (hx : ∀ p ∈ px, ∀ s t x, p s t = (x : ℝ) → m ≤ x) (hy : ∀ p ∈ py, ∀ s t x, p s t = (x : ℝ) → m ≤ x)
    (k : ℝ) (dx dy : Nat → Nat → Nat → ℝ) :
    HasDerivAt (fun ε => k * Real.log (∑ l ∈ alignments md (se - sb) (te - tb),
        likeli (alongB md (sumTables (moved px dx ε)) (sumTables (moved py dy ε)) sb tb l)))
      (∑ n ∈ Finset.range px.length,
        ((∑ s ∈ Finset.range S, ∑ t ∈ Finset.range (colsX md T), jointBackX m md px py sb tb se te p0 (fun _ => k) n s t * dx n s t) +
         (∑ s ∈ Finset.range (S + 1), ∑ t ∈ Finset.range T, jointBackY m md px py sb tb se te p0 (fun _ => k) n s t * dy n s t))) 0 := by
  have hm := jmass_ne md px py sb tb se te he
  have hb := fun n hn s t => joint_backward m md px py sb tb se te p0 h0 h1 h3 he hx hy (fun _ => k) n hn s t
  have hg := fun s t => grads_occ md px py sb tb se te p0 h1 h3 hm s t
  have hin := inner_expected md S T px py sb tb se te p0 h1 h2 h3 h4 hm
    (fun s t => ∑ n ∈ Finset.range px.length, dx n s t) (fun s t => ∑ n ∈ Finset.range py.length, dy n s t)
  have hval : (∑ n ∈ Finset.range px.length,
        ((∑ s ∈ Finset.range S, ∑ t ∈ Finset.range (colsX md T), jointBackX m md px py sb tb se te p0 (fun _ => k) n s t * dx n s t) +
         (∑ s ∈ Finset.range (S + 1), ∑ t ∈ Finset.range T, jointBackY m md px py sb tb se te p0 (fun _ => k) n s t * dy n s t))) =
      k * ∑ l ∈ alignments md (se - sb) (te - tb), posterior md (sumTables px) (sumTables py) sb tb se te l *
        alongB md (fun s t => ∑ n ∈ Finset.range px.length, dx n s t) (fun s t => ∑ n ∈ Finset.range py.length, dy n s t) sb tb l := by
    rw [← hin, mul_add, Finset.sum_add_distrib]
    congr 1
    · rw [Finset.sum_comm, Finset.mul_sum]
      refine Finset.sum_congr rfl (fun s _ => ?_)
      rw [Finset.sum_comm, Finset.mul_sum]
      refine Finset.sum_congr rfl (fun t _ => ?_)
      rw [Finset.mul_sum, Finset.mul_sum]
      refine Finset.sum_congr rfl (fun n hn => ?_)
      rw [(hb n (Finset.mem_range.1 hn) s t).1, (hg s t).1]; ring
    · rw [Finset.sum_comm, Finset.mul_sum]
      refine Finset.sum_congr rfl (fun s _ => ?_)
      rw [Finset.sum_comm, Finset.mul_sum]
      refine Finset.sum_congr rfl (fun t _ => ?_)
      rw [Finset.mul_sum, Finset.mul_sum, h0]
      refine Finset.sum_congr rfl (fun n hn => ?_)
      rw [(hb n (Finset.mem_range.1 hn) s t).2, (hg s t).2]; ring
  rw [hval]
  simp only [tot_moved, likeli_moved]
  apply HasDerivAt.const_mul
  set w := fun l => likeli (alongB md (sumTables px) (sumTables py) sb tb l) with hw
  set d := fun l => alongB md (fun s t => ∑ n ∈ Finset.range px.length, dx n s t)
    (fun s t => ∑ n ∈ Finset.range py.length, dy n s t) sb tb l with hd
  have hder : HasDerivAt (fun ε : ℝ => ∑ l ∈ alignments md (se - sb) (te - tb), w l * Real.exp (ε * d l))
      (∑ l ∈ alignments md (se - sb) (te - tb), w l * d l) 0 := by
    have hone : ∀ l ∈ alignments md (se - sb) (te - tb), HasDerivAt (fun ε : ℝ => w l * Real.exp (ε * d l)) (w l * d l) 0 := by
      intro l _
      have h := ((hasDerivAt_id (0 : ℝ)).mul_const (d l)).exp.const_mul (w l)
      simpa using h
    exact HasDerivAt.fun_sum hone
  have hz : (∑ l ∈ alignments md (se - sb) (te - tb), w l * Real.exp ((0 : ℝ) * d l)) = jmass md px py sb tb se te := by
    simp [jmass, hw]
  have hlog := hder.log (by rw [hz]; exact hm)
  rw [hz] at hlog
  refine hlog.congr_deriv ?_
  symm
  rw [Finset.sum_div]
  refine Finset.sum_congr rfl (fun l _ => ?_)
  show likeli (alongB md (sumTables px) (sumTables py) sb tb l) / jmass md px py sb tb se te * d l = _
  rw [div_mul_eq_mul_div]

end

/-! ## An example -/

/-- Two pairs of tensors for one symbol and one frame. -/
noncomputable def exPx : List Table := [fun _ _ => ((0 : ℝ) : WithBot ℝ), fun _ t => if t = 0 then ((Real.log 2 : ℝ) : WithBot ℝ) else ⊥]
noncomputable def exPy : List Table := [fun _ _ => ((0 : ℝ) : WithBot ℝ), fun _ _ => ((0 : ℝ) : WithBot ℝ)]

/-- The alignment that emits the symbol on the first frame has score log 2; the one that emits it after it is
impossible. -/
theorem ex_possible : alongB false (sumTables exPx) (sumTables exPy) 0 0 [.X, .Y] = ((Real.log 2 : ℝ) : WithBot ℝ) ∧
    alongB false (sumTables exPx) (sumTables exPy) 0 0 [.Y, .X] = ⊥ := by
  constructor
  · simp [alongB, sumTables, exPx, exPy, Step.frames]
  · simp [alongB, sumTables, exPx, exPy, Step.frames]

example : ∃ r, joint (-1) false 1 1 exPx exPy 0 0 1 1 (fun _ _ => 7) = some r ∧ JointOk false exPx exPy 0 0 1 1 r := by
  obtain ⟨r, hr⟩ := joint_defined (-1) false 1 1 exPx exPy 0 0 1 1 (fun _ _ => 7) rfl (by simp [exPx]) (by omega) (by omega) (by omega) (by omega)
  have hl : (0 : ℝ) ≤ Real.log 2 := Real.log_nonneg (by norm_num)
  refine ⟨r, hr, joint_correct (-1) false 1 1 exPx exPy 0 0 1 1 _ r hr ?_ ?_⟩
  · intro p hp s t x hx
    simp only [exPx, List.mem_cons, List.not_mem_nil, or_false] at hp
    rcases hp with rfl | rfl
    · rw [WithBot.coe_inj] at hx; linarith
    · simp only at hx
      split at hx
      · rw [WithBot.coe_inj] at hx; linarith
      · cases hx
  · intro p hp s t x hx
    simp only [exPy, List.mem_cons, List.not_mem_nil, or_false] at hp
    rcases hp with rfl | rfl <;> (rw [WithBot.coe_inj] at hx; linarith)

end Verif.Rnnt
