import Verif.Ragged.ReduceProps
import Mathlib.Analysis.SpecialFunctions.Log.Deriv
import Mathlib.Analysis.SpecialFunctions.ExpDeriv
import Mathlib.Tactic.FieldSimp

/-!
# C72: normalized rows, and the gradients of sum, log-sum-exp and normalize
-/

namespace Verif.Ragged
open Verif.Util
variable {α K : Type}

/-! ## Specification -/

/-- A finite number is taken from a floating-point number that may be `-inf`. -/
noncomputable def minus (c : ℝ) (x : WithBot ℝ) : WithBot ℝ := x.map (fun x => x - c)

/-- The rows of a tensor moved by `ε` times a tensor `D` of the same shape. -/
noncomputable def shift (L D : List (List ℝ)) (ε : ℝ) : List (List ℝ) :=
  List.zipWith (fun row d => List.zipWith (fun x y => x + ε * y) row d) L D

/-- The sum of the products of corresponding elements. -/
noncomputable def dotp (a b : List ℝ) : ℝ := (List.zipWith (· * ·) a b).sum

/-! ## Normalizing in log space -/

theorem expB_minus (c : ℝ) (x : WithBot ℝ) : expB (minus c x) = expB x / Real.exp c := by
  induction x with
  | bot => simp [minus]
  | coe x => simp [minus, Real.exp_sub]

theorem subInf_eq (c : ℝ) (x : WithBot ℝ) : subInf x (c : WithBot ℝ) = some (minus c x) := by
  induction x with
  | bot => rfl
  | coe x => rfl

/-- A row with a finite element has a finite log-sum, and no other row does (initial value `-inf`). -/
theorem logsum_finite {cut : WithBot ℝ} {L : List (List (WithBot ℝ))} {sums : List (WithBot ℝ)}
    (h : Reduced (logAdd cut) ⊥ L sums) :
    EachRow L sums (fun row v => (v ≠ ⊥ ↔ ∃ x ∈ row, x ≠ ⊥) ∧ expB v ≤ (row.map expB).sum ∧
      (row.map expB).sum ≤ (1 + expB cut) ^ row.length * expB v) := by
  obtain ⟨h1, h2⟩ := logsum_per_sublist cut ⊥ L sums h
  refine ⟨h1, fun r row hr => ?_⟩
  obtain ⟨v, hv, h3, h4⟩ := h2 r row hr
  rw [expB_bot, zero_add] at h3 h4
  refine ⟨v, hv, ?_, h3, h4⟩
  have hc := expB_nonneg cut
  rw [← expB_pos]
  have hnn : ∀ x ∈ row.map expB, 0 ≤ x := by
    intro x hx
    obtain ⟨y, _, rfl⟩ := List.mem_map.mp hx
    exact expB_nonneg y
  constructor
  · intro hp
    by_contra hne
    push Not at hne
    have : (row.map expB).sum = 0 := by
      apply List.sum_eq_zero
      intro x hx
      obtain ⟨y, hy, rfl⟩ := List.mem_map.mp hx
      rw [hne y hy, expB_bot]
    linarith
  · rintro ⟨x, hx, hxb⟩
    have h5 : expB x ≤ (row.map expB).sum := List.single_le_sum hnn _ (List.mem_map_of_mem hx)
    have h6 := expB_pos.mpr hxb
    by_contra hv0
    have : expB v = 0 := le_antisymm (not_lt.mp hv0) (expB_nonneg v)
    rw [this, mul_zero] at h4
    linarith

/-- Normalizing in log space subtracts one number from each row; then the exponentials of the row sum to
one, up to a factor of one plus epsilon for each element. -/
theorem normalize_log (cut : WithBot ℝ) (L : List (List (WithBot ℝ))) (sums : List (WithBot ℝ))
    (h : Reduced (logAdd cut) ⊥ L sums) (hfin : ∀ row ∈ L, row ≠ [] → ∃ x ∈ row, x ≠ ⊥) :
    ∃ R : List (List (WithBot ℝ)), normalizeLogWith (idsFrom 0 (L.map List.length)) L.flatten sums = some R.flatten ∧
      EachRow L R (fun row out => ∃ c : ℝ, out = row.map (minus c) ∧
        (row ≠ [] → 1 ≤ (out.map expB).sum ∧ (out.map expB).sum ≤ (1 + expB cut) ^ row.length)) := by
  obtain ⟨h1, h2⟩ := logsum_finite h
  let cs : Nat → ℝ := fun r => (sums.getD r ⊥).unbotD 0
  have hcs : ∀ (r : Nat) (row : List (WithBot ℝ)), L[r]? = some row → row ≠ [] → sums[r]? = some (cs r : WithBot ℝ) := by
    intro r row hr hne
    obtain ⟨v, hv, h3, _⟩ := h2 r row hr
    obtain ⟨c, hc⟩ := WithBot.ne_bot_iff_exists.mp (h3.mpr (hfin row (List.mem_of_getElem? hr) hne))
    simp [cs, hv, ← hc]
  refine ⟨L.mapIdx (fun r row => row.mapIdx (fun _ x => minus (cs r) x)), ?_, by simp, ?_⟩
  · unfold normalizeLogWith
    apply mapM_rows L _ (fun r _ x => minus (cs r) x)
    intro r row k x hr hk
    have hk' := (List.getElem?_eq_some_iff.mp hk).1
    rw [flatten_get L r row hr k hk', hk, idsFrom_flat L r row k hr hk', Option.bind_some, Option.bind_some,
      hcs r row hr (by rintro rfl; simp at hk), Option.bind_some, subInf_eq]
  · intro r row hr
    refine ⟨_, by simp [hr]; rfl, cs r, ?_, ?_⟩
    · apply List.ext_getElem
      · simp
      · intro k h1 h2; simp
    · intro hne
      obtain ⟨v, hv, _, h4, h5⟩ := h2 r row hr
      rw [hcs r row hr hne] at hv
      obtain rfl := Option.some.inj hv
      have e : ((row.mapIdx (fun _ x => minus (cs r) x)).map expB).sum = (row.map expB).sum / Real.exp (cs r) := by
        have : row.mapIdx (fun _ x => minus (cs r) x) = row.map (minus (cs r)) := by
          apply List.ext_getElem
          · simp
          · intro k h1 h2; simp
        rw [this, List.map_map, div_eq_mul_inv, ← List.sum_map_mul_right]
        congr 1
        apply List.map_congr_left
        intro x _
        simp [expB_minus, div_eq_mul_inv]
      rw [e, expB_coe] at *
      have hp := Real.exp_pos (cs r)
      constructor
      · rw [le_div_iff₀ hp]; linarith
      · rw [div_le_iff₀ hp]; linarith

/-- Without the shortcut of `LogAdd` the exponentials sum to one. -/
theorem normalize_log_exact (L : List (List (WithBot ℝ))) (sums : List (WithBot ℝ))
    (h : Reduced (logAdd ⊥) ⊥ L sums) (hfin : ∀ row ∈ L, row ≠ [] → ∃ x ∈ row, x ≠ ⊥) :
    ∃ R : List (List (WithBot ℝ)), normalizeLogWith (idsFrom 0 (L.map List.length)) L.flatten sums = some R.flatten ∧
      EachRow L R (fun row out => ∃ c : ℝ, out = row.map (minus c) ∧ (row ≠ [] → (out.map expB).sum = 1)) := by
  obtain ⟨R, h1, h2, h3⟩ := normalize_log ⊥ L sums h hfin
  refine ⟨R, h1, h2, fun r row hr => ?_⟩
  obtain ⟨out, ho, c, h4, h5⟩ := h3 r row hr
  refine ⟨out, ho, c, h4, fun hne => ?_⟩
  obtain ⟨h6, h7⟩ := h5 hne
  exact le_antisymm (by simpa using h7) h6

/-- A row that holds nothing but `-inf` gives values that are not numbers. -/
theorem normalize_log_undefined (cut : WithBot ℝ) (L : List (List (WithBot ℝ))) (sums : List (WithBot ℝ))
    (h : Reduced (logAdd cut) ⊥ L sums) (hbad : ∃ row ∈ L, row ≠ [] ∧ ∀ x ∈ row, x = ⊥) :
    normalizeLogWith (idsFrom 0 (L.map List.length)) L.flatten sums = none := by
  obtain ⟨row, hmem, hne, hbot⟩ := hbad
  obtain ⟨r, hr⟩ := List.mem_iff_getElem?.mp hmem
  obtain ⟨h1, h2⟩ := logsum_finite h
  obtain ⟨v, hv, h3, _⟩ := h2 r row hr
  have hvb : v = ⊥ := by
    by_contra hc
    obtain ⟨x, hx, hx2⟩ := h3.mp hc
    exact hx2 (hbot x hx)
  subst hvb
  cases hres : normalizeLogWith (idsFrom 0 (L.map List.length)) L.flatten sums with
  | none => rfl
  | some out =>
    exfalso
    have hpos : 0 < row.length := List.length_pos_iff.mpr hne
    have hn : splits L r + 0 < L.flatten.length := by
      have := splits_le L (r + 1)
      rw [splits_succ L r row hr] at this
      omega
    obtain ⟨g1, g2⟩ := mapM_get hres
    have := g2 (splits L r + 0) (splits L r + 0) (List.getElem?_range hn)
    rw [flatten_get L r row hr 0 hpos, idsFrom_flat L r row 0 hr hpos, List.getElem?_eq_getElem hpos,
      Option.bind_some, Option.bind_some, hv, Option.bind_some] at this
    have hs : subInf row[0] ⊥ = none := by unfold subInf; split <;> simp_all
    rw [hs, List.getElem?_eq_none_iff, g1] at this
    simp at this hn
    omega

/-! ## Normalizing without logs -/

theorem normalizeSum_eq [Field K] [DecidableEq K] (eps : K) (L : List (List K))
    (h : ∀ row ∈ L, row ≠ [] → row.sum + eps ≠ 0) :
    normalizeSum eps (psum (L.map List.length)) (idsFrom 0 (L.map List.length)) L.flatten =
      some (L.map (fun row => row.map (fun x => x / (row.sum + eps)))).flatten := by
  unfold normalizeSum
  have hs := segmentedReduce_eq (· + ·) (0 : K) L
  have hs2 := sum_per_sublist 0 L _ (Or.inl hs)
  rw [hs, hs2, Option.bind_some, mapM_rows L _ (fun r _ x => x / ((L.getD r []).sum + eps))]
  · congr 2
    apply List.ext_getElem?
    intro r
    rw [List.getElem?_mapIdx, List.getElem?_map]
    cases hr : L[r]? with
    | none => rfl
    | some row =>
      simp only [Option.map_some, Option.some.injEq]
      apply List.ext_getElem
      · simp
      · intro k h1 h2; simp [hr]
  · intro r row k x hr hk
    have hk' := (List.getElem?_eq_some_iff.mp hk).1
    rw [flatten_get L r row hr k hk', hk, idsFrom_flat L r row k hr hk', Option.bind_some, Option.bind_some,
      List.getElem?_map, hr]
    have := h row (List.mem_of_getElem? hr) (by rintro rfl; simp at hk)
    simp [this, hr]

/-- Without `use_log` the elements of a row with sum `s` are divided by `s` plus epsilon, so they sum to `s` divided
by that, not to one as documented. -/
theorem normalize_sum_partial [Field K] [DecidableEq K] (eps : K) (L : List (List K))
    (h : ∀ row ∈ L, row ≠ [] → row.sum + eps ≠ 0) :
    ∃ R : List (List K),
      normalizeSum eps (psum (L.map List.length)) (idsFrom 0 (L.map List.length)) L.flatten = some R.flatten ∧
      EachRow L R (fun row out => out = row.map (fun x => x / (row.sum + eps)) ∧
        out.sum = row.sum / (row.sum + eps)) := by
  refine ⟨_, normalizeSum_eq eps L h, by simp, fun r row hr => ⟨row.map (fun x => x / (row.sum + eps)), by simp [hr], rfl, ?_⟩⟩
  simp only [div_eq_mul_inv]
  rw [List.sum_map_mul_right]
  simp

/-- No row with a positive sum is normalized to one. -/
theorem normalize_sum_not_one [Field K] [LinearOrder K] [IsStrictOrderedRing K] (eps : K) (he : 0 < eps)
    (row : List K) (hrow : 0 < row.sum) :
    ∃ out, normalizeSum eps (psum [row.length]) (idsFrom 0 [row.length]) row = some out ∧ out.sum < 1 := by
  have hp : 0 < row.sum + eps := by linarith
  obtain ⟨R, h1, h2, h3⟩ := normalize_sum_partial eps [row] (by
    intro row' hr _
    rw [List.mem_singleton.mp hr]
    exact hp.ne')
  obtain ⟨out, h4, _, h6⟩ := h3 0 row rfl
  have hR : R = [out] := by
    obtain ⟨a, rfl⟩ := List.length_eq_one_iff.mp h2
    simpa using h4
  subst hR
  refine ⟨out, by simpa using h1, ?_⟩
  rw [h6, div_lt_one hp]
  linarith

/-- A row whose sum is minus epsilon is divided by zero, although its sum is not zero. -/
theorem normalize_sum_divides_by_zero [Field K] [DecidableEq K] (eps : K) :
    normalizeSum eps (psum [1]) (idsFrom 0 [1]) [-eps] = none := by
  have hs := segmentedReduce_eq (· + ·) (0 : K) [[-eps]]
  simp only [List.map_cons, List.map_nil, List.length_singleton, List.flatten_cons, List.flatten_nil,
    List.append_nil] at hs
  simp [normalizeSum, hs, idsFrom]

/-! ## Gradients -/

theorem sum_deriv {X : Type} (l : List X) (h : X → ℝ → ℝ) (h' : X → ℝ) (x0 : ℝ)
    (hh : ∀ x ∈ l, HasDerivAt (h x) (h' x) x0) :
    HasDerivAt (fun ε => (l.map (fun x => h x ε)).sum) (l.map h').sum x0 := by
  induction l with
  | nil => simpa using hasDerivAt_const x0 (0 : ℝ)
  | cons x l ih =>
    simp only [List.map_cons, List.sum_cons]
    exact (hh x List.mem_cons_self).add (ih (fun y hy => hh y (List.mem_cons_of_mem _ hy)))

theorem sum_map_sub' {X : Type} (l : List X) (f g : X → ℝ) :
    (l.map (fun x => f x - g x)).sum = (l.map f).sum - (l.map g).sum := by
  induction l with
  | nil => simp
  | cons x l ih => simp only [List.map_cons, List.sum_cons, ih]; ring

theorem dotp_map {X : Type} (l : List X) (f g : X → ℝ) : dotp (l.map f) (l.map g) = (l.map (fun x => f x * g x)).sum := by
  simp [dotp, List.zipWith_map]

theorem dotp_flatten {X : Type} (T : List X) (f g : X → List ℝ) (h : ∀ x ∈ T, (f x).length = (g x).length) :
    dotp (T.map f).flatten (T.map g).flatten = (T.map (fun x => dotp (f x) (g x))).sum := by
  induction T with
  | nil => simp [dotp]
  | cons x T ih =>
    have := ih (fun y hy => h y (List.mem_cons_of_mem _ hy))
    simp only [dotp, List.map_cons, List.flatten_cons, List.sum_cons] at this ⊢
    rw [List.zipWith_append (h x List.mem_cons_self), List.sum_append, this]

/-- Two tensors of the same shape are one tensor of pairs. -/
theorem pair_rows {X Y : Type} (L : List (List X)) (D : List (List Y)) (h : D.map List.length = L.map List.length) :
    ∃ T : List (List (X × Y)), L = T.map (fun row => row.map Prod.fst) ∧ D = T.map (fun row => row.map Prod.snd) := by
  induction L generalizing D with
  | nil =>
    have : D = [] := by simpa using h
    exact ⟨[], rfl, this⟩
  | cons row L ih =>
    cases D with
    | nil => simp at h
    | cons d D =>
      simp only [List.map_cons, List.cons.injEq] at h
      obtain ⟨T, h1, h2⟩ := ih D h.2
      refine ⟨row.zip d :: T, ?_, ?_⟩
      · rw [List.map_cons, ← h1, List.map_fst_zip (by omega)]
      · rw [List.map_cons, ← h2, List.map_snd_zip (by omega)]

theorem pair_lists {X Y : Type} (a : List X) (b : List Y) (h : b.length = a.length) :
    ∃ U : List (X × Y), a = U.map Prod.fst ∧ b = U.map Prod.snd :=
  ⟨a.zip b, by rw [List.map_fst_zip (by omega)], by rw [List.map_snd_zip (by omega)]⟩

theorem shift_map (T : List (List (ℝ × ℝ))) (ε : ℝ) :
    shift (T.map (fun row => row.map Prod.fst)) (T.map (fun row => row.map Prod.snd)) ε =
      T.map (fun row => row.map (fun p => p.1 + ε * p.2)) := by
  simp [shift, List.zipWith_map]

theorem line_deriv (x d : ℝ) : HasDerivAt (fun ε : ℝ => x + ε * d) d 0 := by
  simpa using ((hasDerivAt_id (0 : ℝ)).mul_const d).const_add x

theorem row_sum_deriv (row : List (ℝ × ℝ)) :
    HasDerivAt (fun ε : ℝ => (row.map (fun p => p.1 + ε * p.2)).sum) (row.map Prod.snd).sum 0 :=
  sum_deriv row (fun p ε => p.1 + ε * p.2) Prod.snd 0 (fun p _ => line_deriv p.1 p.2)

theorem row_exp_deriv (row : List (ℝ × ℝ)) :
    HasDerivAt (fun ε : ℝ => (row.map (fun p => Real.exp (p.1 + ε * p.2))).sum)
      (row.map (fun p => Real.exp p.1 * p.2)).sum 0 :=
  sum_deriv row (fun p ε => Real.exp (p.1 + ε * p.2)) (fun p => Real.exp p.1 * p.2) 0 (fun p _ => by
    have := (line_deriv p.1 p.2).exp
    simpa using this)

/-- `SumFunction`: the gradient is the derivative of the weighted sum of the outputs, whatever the
direction.  `stride` is 0 if the weights are all the same number. -/
theorem sum_gradient (init : ℝ) (L : List (List ℝ)) (stride : Nat) (grad c : List ℝ) (hc : c.length = L.length)
    (hgrad : ∀ r : Nat, r < L.length → grad[r * stride]? = c[r]?) :
    ∃ g, sumGrad stride (idsFrom 0 (L.map List.length)) grad = some g ∧
      ∀ (D : List (List ℝ)), D.map List.length = L.map List.length → ∀ out : ℝ → List ℝ,
        (∀ ε, Reduced (· + ·) init (shift L D ε) (out ε)) →
        HasDerivAt (fun ε => dotp c (out ε)) (dotp g D.flatten) 0 := by
  refine ⟨(L.mapIdx (fun r row => row.mapIdx (fun _ _ => c.getD r 0))).flatten, ?_, ?_⟩
  · unfold sumGrad
    rw [idsFrom_length, ← List.length_flatten]
    apply mapM_rows L _ (fun r _ _ => c.getD r 0)
    intro r row k x hr hk
    have hl := (List.getElem?_eq_some_iff.mp hr).1
    have hk' := (List.getElem?_eq_some_iff.mp hk).1
    rw [idsFrom_flat L r row k hr hk', Option.bind_some, hgrad r hl]
    simp [hc, hl]
  · intro D hD out hout
    obtain ⟨T, rfl, rfl⟩ := pair_rows L D hD
    obtain ⟨U, rfl, rfl⟩ := pair_lists T c (by simpa using hc)
    have e1 : (fun ε => dotp (U.map Prod.snd) (out ε)) =
        fun ε : ℝ => (U.map (fun u => u.2 * (init + (u.1.map (fun p => p.1 + ε * p.2)).sum))).sum := by
      funext ε
      have := sum_per_sublist init _ _ (hout ε)
      rw [shift_map] at this
      rw [this, List.map_map, List.map_map, dotp_map]
      rfl
    have e2 : ((U.map Prod.fst).map (fun row => row.map Prod.fst)).mapIdx
        (fun r row => row.mapIdx (fun _ _ => (U.map Prod.snd).getD r 0)) =
        U.map (fun u => u.1.map (fun _ => u.2)) := by
      apply List.ext_getElem
      · simp
      · intro r h1 h2
        simp at h2
        apply List.ext_getElem
        · simp
        · intro k h3 h4; simp [h2]
    rw [e1, e2, List.map_map, dotp_flatten _ _ _ (by simp)]
    apply sum_deriv
    intro u _
    have h := ((row_sum_deriv u.1).const_add init).const_mul u.2
    refine h.congr_deriv ?_
    simp only [Function.comp]
    rw [dotp_map, List.sum_map_mul_left]

theorem coe_map_inj {a b : List ℝ} (h : a.map (fun x : ℝ => (x : WithBot ℝ)) = b.map (fun x : ℝ => (x : WithBot ℝ))) : a = b :=
  List.map_injective_iff.mpr WithBot.coe_injective h

/-- The outputs of `LogSumPerSublist` (without the shortcut of `LogAdd`) are logs of sums. -/
theorem logsum_real (init : WithBot ℝ) (L : List (List ℝ)) (out : List ℝ)
    (h : Reduced (logAdd ⊥) init (L.map (fun row => row.map (fun x : ℝ => (x : WithBot ℝ))))
      (out.map (fun x : ℝ => (x : WithBot ℝ)))) :
    out = L.map (fun row => Real.log (expB init + (row.map Real.exp).sum)) := by
  obtain ⟨h1, h2⟩ := logsum_exact init _ _ h
  apply List.ext_getElem?
  intro r
  by_cases hr : r < L.length
  · obtain ⟨v, hv, e⟩ := h2 r (L[r].map (fun x : ℝ => (x : WithBot ℝ))) (by simp [hr])
    rw [List.getElem?_map] at hv
    cases ho : out[r]? with
    | none => simp [ho] at hv
    | some o =>
      rw [ho] at hv
      obtain rfl := Option.some.inj hv
      rw [expB_coe, List.map_map] at e
      have e' : Real.exp o = expB init + (L[r].map Real.exp).sum := e
      rw [List.getElem?_map, List.getElem?_eq_getElem hr, Option.map_some, ← e', Real.log_exp]
  · rw [List.getElem?_eq_none (by simp at h1; omega), List.getElem?_eq_none (by simp; omega)]

theorem exp_sum_pos (init : WithBot ℝ) (row : List ℝ) (h : init ≠ ⊥ ∨ row ≠ []) :
    0 < expB init + (row.map Real.exp).sum := by
  have h0 := expB_nonneg init
  rcases h with h | h
  · have := expB_pos.mpr h
    have h2 : 0 ≤ (row.map Real.exp).sum := List.sum_nonneg (by
      intro x hx
      obtain ⟨y, _, rfl⟩ := List.mem_map.mp hx
      exact (Real.exp_pos y).le)
    linarith
  · cases row with
    | nil => exact absurd rfl h
    | cons x row =>
      have h2 : 0 ≤ (row.map Real.exp).sum := List.sum_nonneg (by
        intro x hx
        obtain ⟨y, _, rfl⟩ := List.mem_map.mp hx
        exact (Real.exp_pos y).le)
      have := Real.exp_pos x
      simp only [List.map_cons, List.sum_cons]
      linarith

/-- `LogSumExpFunction`: the gradient is the derivative. -/
theorem logsum_gradient (init : WithBot ℝ) (L : List (List ℝ)) (stride : Nat) (grad c sums : List ℝ)
    (hne : init ≠ ⊥ ∨ ∀ row ∈ L, row ≠ []) (hc : c.length = L.length)
    (hgrad : ∀ r : Nat, r < L.length → grad[r * stride]? = c[r]?)
    (hsums : Reduced (logAdd ⊥) init (L.map (fun row => row.map (fun x : ℝ => (x : WithBot ℝ))))
      (sums.map (fun x : ℝ => (x : WithBot ℝ)))) :
    ∃ g, logSumGrad stride (idsFrom 0 (L.map List.length)) L.flatten sums grad = some g ∧
      ∀ (D : List (List ℝ)), D.map List.length = L.map List.length → ∀ out : ℝ → List ℝ,
        (∀ ε, Reduced (logAdd ⊥) init ((shift L D ε).map (fun row => row.map (fun x : ℝ => (x : WithBot ℝ))))
          ((out ε).map (fun x : ℝ => (x : WithBot ℝ)))) →
        HasDerivAt (fun ε => dotp c (out ε)) (dotp g D.flatten) 0 := by
  have hs := logsum_real init L sums hsums
  refine ⟨(L.mapIdx (fun r row => row.mapIdx (fun _ x => c.getD r 0 * Real.exp (x - sums.getD r 0)))).flatten, ?_, ?_⟩
  · unfold logSumGrad
    apply mapM_rows L _ (fun r _ x => c.getD r 0 * Real.exp (x - sums.getD r 0))
    intro r row k x hr hk
    have hl := (List.getElem?_eq_some_iff.mp hr).1
    have hk' := (List.getElem?_eq_some_iff.mp hk).1
    have hl2 : r < sums.length := by rw [hs]; simpa using hl
    rw [idsFrom_flat L r row k hr hk', Option.bind_some, hgrad r hl, flatten_get L r row hr k hk', hk,
      List.getElem?_eq_getElem (by omega : r < c.length), Option.bind_some, Option.bind_some,
      List.getElem?_eq_getElem hl2, Option.map_some]
    simp [hc, hl, hl2]
  · intro D hD out hout
    obtain ⟨T, rfl, rfl⟩ := pair_rows L D hD
    obtain ⟨U, rfl, rfl⟩ := pair_lists T c (by simpa using hc)
    have e1 : (fun ε => dotp (U.map Prod.snd) (out ε)) = fun ε : ℝ => (U.map (fun u => u.2 *
        Real.log (expB init + (u.1.map (fun p => Real.exp (p.1 + ε * p.2))).sum))).sum := by
      funext ε
      have := logsum_real init _ _ (hout ε)
      rw [shift_map] at this
      rw [this, List.map_map, List.map_map, dotp_map]
      simp only [Function.comp, List.map_map]
      rfl
    have e2 : ((U.map Prod.fst).map (fun row => row.map Prod.fst)).mapIdx
        (fun r row => row.mapIdx (fun _ x => (U.map Prod.snd).getD r 0 * Real.exp (x - sums.getD r 0))) =
        U.map (fun u => u.1.map (fun p => u.2 * Real.exp (p.1 -
          Real.log (expB init + ((u.1.map Prod.fst).map Real.exp).sum)))) := by
      apply List.ext_getElem
      · simp
      · intro r h1 h2
        simp at h2
        apply List.ext_getElem
        · simp
        · intro k h3 h4; simp [h2, hs]
    rw [e1, e2, List.map_map, dotp_flatten _ _ _ (by simp)]
    apply sum_deriv
    intro u hu
    have hpos := exp_sum_pos init (u.1.map Prod.fst) (by
      rcases hne with h | h
      · exact Or.inl h
      · exact Or.inr (h _ (by simp only [List.map_map, List.mem_map]; exact ⟨u, hu, rfl⟩)))
    have hz : expB init + (u.1.map (fun p => Real.exp (p.1 + 0 * p.2))).sum =
        expB init + ((u.1.map Prod.fst).map Real.exp).sum := by
      rw [List.map_map]
      simp [Function.comp_def]
    have h := (((row_exp_deriv u.1).const_add (expB init)).log (by rw [hz]; exact hpos.ne')).const_mul u.2
    refine h.congr_deriv ?_
    rw [hz]
    simp only [Function.comp]
    rw [dotp_map, div_eq_mul_inv, ← List.sum_map_mul_right, ← List.sum_map_mul_left]
    congr 1
    apply List.map_congr_left
    intro p _
    rw [Real.exp_sub, Real.exp_log hpos]
    field_simp

/-- The outputs of `NormalizePerSublist` in log space (without the shortcut of `LogAdd`). -/
theorem normalize_real (L : List (List ℝ)) (sums : List (WithBot ℝ)) (out : List ℝ)
    (hsums : Reduced (logAdd ⊥) ⊥ (L.map (fun row => row.map (fun x : ℝ => (x : WithBot ℝ)))) sums)
    (h : normalizeLogWith (idsFrom 0 (L.map List.length)) (L.flatten.map (fun x : ℝ => (x : WithBot ℝ))) sums =
      some (out.map (fun x : ℝ => (x : WithBot ℝ)))) :
    out = (L.map (fun row => row.map (fun x => x - Real.log (row.map Real.exp).sum))).flatten := by
  have hlen : (L.map (fun row => row.map (fun x : ℝ => (x : WithBot ℝ)))).map List.length = L.map List.length := by
    simp [Function.comp_def]
  have hflat : (L.map (fun row => row.map (fun x : ℝ => (x : WithBot ℝ)))).flatten =
      L.flatten.map (fun x : ℝ => (x : WithBot ℝ)) := by rw [List.map_flatten]
  obtain ⟨R, h1, h2, h3⟩ := normalize_log_exact _ sums hsums (by
    intro row hrow hne
    obtain ⟨row', _, rfl⟩ := List.mem_map.mp hrow
    cases row' with
    | nil => simp at hne
    | cons x row' => exact ⟨x, by simp, WithBot.coe_ne_bot⟩)
  rw [hlen, hflat, h] at h1
  have hR : R = L.map (fun row => row.map (fun x => ((x - Real.log (row.map Real.exp).sum : ℝ) : WithBot ℝ))) := by
    apply List.ext_getElem?
    intro r
    by_cases hr : r < L.length
    · obtain ⟨o, ho, c, hc1, hc2⟩ := h3 r (L[r].map (fun x : ℝ => (x : WithBot ℝ))) (by simp [hr])
      rw [ho, List.getElem?_map, List.getElem?_eq_getElem hr, Option.map_some, hc1, List.map_map]
      congr 1
      apply List.map_congr_left
      intro x hx
      have hne : L[r] ≠ [] := List.ne_nil_of_mem hx
      have := hc2 (by simpa using hne)
      rw [hc1, List.map_map, List.map_map] at this
      have e : (L[r].map ((expB ∘ minus c) ∘ fun x : ℝ => (x : WithBot ℝ))).sum = (L[r].map Real.exp).sum / Real.exp c := by
        rw [div_eq_mul_inv, ← List.sum_map_mul_right]
        congr 1
        apply List.map_congr_left
        intro x _
        simp [expB_minus, div_eq_mul_inv]
      rw [e, div_eq_one_iff_eq (Real.exp_pos c).ne'] at this
      rw [this, Real.log_exp]
      rfl
    · rw [List.getElem?_eq_none (by simp at h2; omega), List.getElem?_eq_none (by simp; omega)]
  apply coe_map_inj
  have h1 := Option.some.inj h1
  rw [h1, hR, List.map_flatten, List.map_map]
  simp [Function.comp_def]

/-- `NormalizeFunction`: the gradient is the derivative.  `C` holds the weights of the outputs. -/
theorem normalize_gradient (L C : List (List ℝ)) (stride : Nat) (grad o : List ℝ) (sums : List (WithBot ℝ))
    (hC : C.map List.length = L.map List.length)
    (hgrad : ∀ i : Nat, i < L.flatten.length → grad[i * stride]? = C.flatten[i]?)
    (hdef : L ≠ [] → grad ≠ [])
    (hsums : Reduced (logAdd ⊥) ⊥ (L.map (fun row => row.map (fun x : ℝ => (x : WithBot ℝ)))) sums)
    (ho : normalizeLogWith (idsFrom 0 (L.map List.length)) (L.flatten.map (fun x : ℝ => (x : WithBot ℝ))) sums =
      some (o.map (fun x : ℝ => (x : WithBot ℝ)))) :
    ∃ g, normalizeGrad stride (psum (L.map List.length)) (idsFrom 0 (L.map List.length)) o grad = some g ∧
      ∀ (D : List (List ℝ)), D.map List.length = L.map List.length → ∀ out : ℝ → List ℝ,
        (∀ ε, ∃ sums, Reduced (logAdd ⊥) ⊥ ((shift L D ε).map (fun row => row.map (fun x : ℝ => (x : WithBot ℝ)))) sums ∧
          normalizeLogWith (idsFrom 0 ((shift L D ε).map List.length))
            ((shift L D ε).flatten.map (fun x : ℝ => (x : WithBot ℝ))) sums =
            some ((out ε).map (fun x : ℝ => (x : WithBot ℝ)))) →
        HasDerivAt (fun ε => dotp C.flatten (out ε)) (dotp g D.flatten) 0 := by
  have hor := normalize_real L sums o hsums ho
  have hlenC : C.length = L.length := by have := congrArg List.length hC; simpa using this
  have hCL : C.flatten.length = L.flatten.length := by
    rw [List.length_flatten, List.length_flatten, hC]
  have hsp : ∀ r, splits C r = splits L r := by
    intro r; unfold splits; rw [List.map_take, List.map_take, hC]
  -- the sums of the gradients
  have hgs : gradSums stride (psum (L.map List.length)) grad (idsFrom 0 (L.map List.length)).length =
      some (C.map List.sum) := by
    unfold gradSums
    split
    · have : (List.range (idsFrom 0 (L.map List.length)).length).mapM (fun i => grad[i * stride]?) =
          some C.flatten := by
        apply mapM_some_of
        · rw [hCL, idsFrom_length, ← List.length_flatten, List.length_range]
        · intro i b hi
          obtain ⟨h1, h2⟩ := List.getElem?_eq_some_iff.mp hi
          rw [List.length_range, idsFrom_length, ← List.length_flatten] at h1
          simp at h2
          subst h2
          exact hgrad i h1
      rw [this, Option.bind_some, ← hC]
      have hs := segmentedReduce_eq (· + ·) (0 : ℝ) C
      rw [hs]
      have := sum_per_sublist 0 C _ (Or.inl hs)
      rw [this]
      simp
    · next hst =>
      simp only [ne_eq, not_not] at hst
      subst hst
      apply mapM_some_of
      · simp [hlenC]
      · intro r b hi
        obtain ⟨h1, h2⟩ := List.getElem?_eq_some_iff.mp hi
        simp at h1 h2
        subst h2
        have hr := List.getElem?_eq_getElem h1
        have hrC : C[r]? = some C[r] := List.getElem?_eq_getElem (by omega)
        have hrl : C[r].length = L[r].length := by
          have := congrArg (fun l => l[r]?) hC
          simpa [hr, hrC] using this
        rw [psum_splits L r (by omega), psum_splits L (r + 1) (by omega), Option.bind_some, Option.bind_some,
          splits_succ L r _ hr, Nat.add_sub_cancel_left]
        have hL : L ≠ [] := by rintro rfl; simp at h1
        obtain ⟨g0, grest, hg⟩ := List.exists_cons_of_ne_nil (hdef hL)
        have hall : ∀ x ∈ C[r], x = g0 := by
          intro x hx
          obtain ⟨k, hk⟩ := List.mem_iff_getElem?.mp hx
          have hk' := (List.getElem?_eq_some_iff.mp hk).1
          have h5 := flatten_get C r C[r] hrC k hk'
          have h6 := hgrad (splits C r + k) (by
            rw [← hCL]
            have h7 := splits_le C (r + 1)
            rw [splits_succ C r _ hrC] at h7
            omega)
          rw [h5, hk, hg] at h6
          simpa using h6.symm
        have hsum : C[r].sum = (C[r].length : ℝ) * g0 := by
          rw [List.eq_replicate_of_mem hall, List.sum_replicate]
          simp
        rw [List.getElem?_map, hrC, Option.map_some, hsum, hg, hrl]
        simp
  refine ⟨(L.mapIdx (fun r row => row.mapIdx (fun k x => (C.getD r []).getD k 0 -
    Real.exp (x - Real.log (row.map Real.exp).sum) * (C.getD r []).sum))).flatten, ?_, ?_⟩
  · unfold normalizeGrad
    rw [hgs, Option.bind_some]
    have hn : (idsFrom 0 (L.map List.length)).length = L.flatten.length := by
      rw [idsFrom_length, ← List.length_flatten]
    rw [hn, mapM_rows L _ (fun r k x => (C.getD r []).getD k 0 -
      Real.exp (x - Real.log ((L.getD r []).map Real.exp).sum) * (C.getD r []).sum)]
    · congr 2
      apply List.ext_getElem?
      intro r
      rw [List.getElem?_mapIdx, List.getElem?_mapIdx]
      cases hr : L[r]? <;> simp [hr]
    · intro r row k x hr hk
      obtain ⟨hl, hrow⟩ := List.getElem?_eq_some_iff.mp hr
      have hk' := (List.getElem?_eq_some_iff.mp hk).1
      have hrC : C[r]? = some C[r] := List.getElem?_eq_getElem (by omega)
      have hrl : C[r].length = row.length := by
        have := congrArg (fun l => l[r]?) hC
        simpa [hr, hrC] using this
      have hn2 : splits L r + k < L.flatten.length := by
        have := splits_le L (r + 1)
        rw [splits_succ L r row hr] at this
        omega
      have hof : o[splits L r + k]? = some (x - Real.log (row.map Real.exp).sum) := by
        have e : splits (L.map (fun row => row.map (fun x => x - Real.log (row.map Real.exp).sum))) r = splits L r := by
          unfold splits
          rw [List.map_take, List.map_take, List.map_map]
          simp [Function.comp_def]
        rw [hor, ← e, flatten_get _ r (row.map (fun x => x - Real.log (row.map Real.exp).sum)) (by simp [hr]) k
          (by simpa using hk')]
        simp [hk]
      rw [idsFrom_flat L r row k hr hk', Option.bind_some, hgrad _ hn2, ← hsp r,
        flatten_get C r C[r] hrC k (by omega), hsp r, hof, List.getElem?_map, hrC, Option.map_some, Option.bind_some,
        List.getElem?_eq_getElem (by omega : k < C[r].length), Option.bind_some, Option.map_some]
      simp [hr, hrC, hrl, hk']
  · intro D hD out hout
    obtain ⟨T, rfl, rfl⟩ := pair_rows L D hD
    obtain ⟨V, rfl, rfl⟩ := pair_rows T C (by rw [hC]; simp [Function.comp_def])
    have e1 : (fun ε => dotp (V.map (fun row => row.map Prod.snd)).flatten (out ε)) = fun ε : ℝ =>
        (V.map (fun row => (row.map (fun q => q.2 * (q.1.1 + ε * q.1.2 -
          Real.log ((row.map Prod.fst).map (fun p => Real.exp (p.1 + ε * p.2))).sum))).sum)).sum := by
      funext ε
      obtain ⟨sums', hs1, hs2⟩ := hout ε
      have := normalize_real _ sums' (out ε) hs1 hs2
      rw [shift_map] at this
      rw [this, List.map_map, List.map_map, dotp_flatten _ _ _ (by simp)]
      congr 1
      apply List.map_congr_left
      intro row _
      simp only [Function.comp, List.map_map]
      rw [dotp_map]
      rfl
    have e2 : (((V.map (fun row => row.map Prod.fst)).map (fun row => row.map Prod.fst)).mapIdx
        (fun r row => row.mapIdx (fun k x => ((V.map (fun row => row.map Prod.snd)).getD r []).getD k 0 -
          Real.exp (x - Real.log (row.map Real.exp).sum) * ((V.map (fun row => row.map Prod.snd)).getD r []).sum))) =
        V.map (fun row => row.map (fun q => q.2 - Real.exp (q.1.1 -
          Real.log (((row.map Prod.fst).map Prod.fst).map Real.exp).sum) * (row.map Prod.snd).sum)) := by
      apply List.ext_getElem
      · simp
      · intro r h1 h2
        simp at h2
        apply List.ext_getElem
        · simp
        · intro k h3 h4
          simp at h4
          simp [h2, h4]
    rw [e1, e2, List.map_map, dotp_flatten _ _ _ (by simp)]
    apply sum_deriv
    intro row hrow
    by_cases hne : row = []
    · subst hne
      simpa [dotp] using hasDerivAt_const (0 : ℝ) (0 : ℝ)
    have hpos := exp_sum_pos ⊥ ((row.map Prod.fst).map Prod.fst) (Or.inr (by simpa using hne))
    rw [expB_bot, zero_add] at hpos
    have hz : ((row.map Prod.fst).map (fun p => Real.exp (p.1 + 0 * p.2))).sum =
        (((row.map Prod.fst).map Prod.fst).map Real.exp).sum := by
      simp [Function.comp_def]
    have hlog := (row_exp_deriv (row.map Prod.fst)).log (by rw [hz]; exact hpos.ne')
    rw [hz] at hlog
    have h := sum_deriv row (fun q ε => q.2 * (q.1.1 + ε * q.1.2 -
      Real.log ((row.map Prod.fst).map (fun p => Real.exp (p.1 + ε * p.2))).sum)) _ 0
      (fun q _ => ((line_deriv q.1.1 q.1.2).sub hlog).const_mul q.2)
    refine h.congr_deriv ?_
    simp only [Function.comp, List.map_map]
    rw [dotp_map]
    simp only [mul_sub, sub_mul]
    rw [sum_map_sub', sum_map_sub']
    congr 1
    set S := (row.map (Real.exp ∘ Prod.fst ∘ Prod.fst)).sum with hS
    have hSpos : 0 < S := by rw [hS]; simpa [Function.comp_def] using hpos
    rw [List.sum_map_mul_right]
    have : (row.map (fun q => Real.exp (q.1.1 - Real.log S) * (row.map Prod.snd).sum * q.1.2)).sum =
        (row.map (fun q => (Real.exp q.1.1 * q.1.2) * ((row.map Prod.snd).sum / S))).sum := by
      congr 1
      apply List.map_congr_left
      intro q _
      rw [Real.exp_sub, Real.exp_log hSpos]
      field_simp
    refine Eq.trans ?_ this.symm
    rw [List.sum_map_mul_right]
    simp only [Function.comp_def]
    field_simp

end Verif.Ragged
