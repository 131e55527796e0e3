import Verif.Rnnt.MutualInfoLemmas

/-! Correctness of the backward pass. -/

namespace Verif.Rnnt
open Verif.Loop
set_option linter.unusedSectionVars false
variable {W : Type} [Field W] [DecidableEq W]

section
variable (md : Bool) (px py : Nat → Nat → W) (sb tb se te : Nat) (g : W)

local notation "α" => alpha md px py sb tb
local notation "β" => beta md px py se te

/-- Expected gradients: of `p`, `px` and `py`. -/
def GT (s t : Nat) : W := g * (α s t * β s t) / α se te
def XT (s t : Nat) : W := g * (α s t * px s t * β (s + 1) (t + Step.X.frames md)) / α se te
def YT (s t : Nat) : W := g * (α s t * py s t * β s (t + 1)) / α se te

local notation "G" => GT md px py sb tb se te g
local notation "X" => XT md px py sb tb se te g
local notation "Y" => YT md px py sb tb se te g

/-- Content of `p_grad[s][t]` before / after row `s` is processed in the first loop. -/
def pre (s t : Nat) : W :=
  if s = se ∧ t = te then g else if md = false ∧ t = tb then 0 else X s t
def post (s t : Nat) : W := pre md px py sb tb se te g s t + Y s t
/-- Content of `px_grad[s][t]` after the first loop. -/
def prex (s t : Nat) : W := if md = false ∧ t = tb then 0 else X s t

local notation "Pre" => pre md px py sb tb se te g
local notation "Post" => post md px py sb tb se te g
local notation "PreX" => prex md px py sb tb se te g

theorem YT_te (s : Nat) : Y s te = 0 := by simp [YT, beta]
theorem XT_se (t : Nat) : X se t = 0 := by simp [XT, beta]
theorem XT_te (hmd : md = true) (s : Nat) : X s te = 0 := by simp [XT, beta, Step.frames, hmd]

variable (hA : alpha md px py sb tb se te ≠ 0)
include hA

theorem GT_end : G se te = g := by
  simp [GT, beta_end, hA]

omit hA in
theorem GT_eq {s t : Nat} (hs : s ≤ se) (ht : t ≤ te) (h : s ≠ se ∨ t ≠ te) :
    G s t = X s t + Y s t := by
  simp only [GT, XT, YT]
  rw [beta_step md px py hs ht h]
  ring

/-- Away from the first column (or in the modified case) a processed entry is complete. -/
theorem post_eq {s t : Nat} (hs : s ≤ se) (ht : t ≤ te) (h : md = true ∨ t ≠ tb) :
    Post s t = G s t := by
  simp only [post, pre]
  by_cases he : s = se ∧ t = te
  · obtain ⟨rfl, rfl⟩ := he
    rw [if_pos ⟨rfl, rfl⟩, YT_te, add_zero, GT_end md px py sb tb s t g hA]
  · rw [if_neg he, if_neg (by rintro ⟨h1, h2⟩; rcases h with h | h <;> simp_all), GT_eq]
    · exact hs
    · exact ht
    · by_contra hc; push Not at hc; exact he hc

omit hA in
theorem XT_of_GT {s t : Nat} (hs : sb < s) (ht : tb < t)
    (hz : α s t = 0 → α (s - 1) (if md then t - 1 else t) *
      px (s - 1) (if md then t - 1 else t) = 0) :
    (α (s - 1) (if md then t - 1 else t) * px (s - 1) (if md then t - 1 else t)) /
        (if α s t = 0 then 1 else α s t) * G s t = X (s - 1) (if md then t - 1 else t) := by
  simp only [GT, XT]
  have e : (if md then t - 1 else t) + Step.X.frames md = t := by
    cases md <;> simp [Step.frames]; omega
  rw [e, show s - 1 + 1 = s by omega]
  by_cases h0 : α s t = 0
  · rw [hz h0, h0]; simp
  · rw [if_neg h0]
    field_simp

omit hA in
theorem YT_of_GT {s t : Nat} (hs : sb < s) (ht : tb < t)
    (hz : α s t = 0 → α (s - 1) (if md then t - 1 else t) *
      px (s - 1) (if md then t - 1 else t) = 0) :
    (1 - (α (s - 1) (if md then t - 1 else t) * px (s - 1) (if md then t - 1 else t)) /
        (if α s t = 0 then 1 else α s t)) * G s t = Y s (t - 1) := by
  have hin := alpha_inner md px py sb tb hs ht
  rw [sub_mul, one_mul, XT_of_GT md px py sb tb se te g hs ht hz]
  simp only [GT, XT, YT]
  have e : (if md then t - 1 else t) + Step.X.frames md = t := by
    cases md <;> simp [Step.frames]; omega
  rw [e, show s - 1 + 1 = s by omega, show t - 1 + 1 = t by omega, hin]
  ring

/-- Which entries of row `s - 1` have been written when the inner loop has come down to `j`. -/
def cond (md : Bool) (j t : Nat) : Prop := if md then j ≤ t else j < t

instance (md : Bool) (j t : Nat) : Decidable (cond md j t) := by
  unfold cond; infer_instance

/-- State after rows above `i` have been processed. -/
def OuterInv (i : Nat) (st : Grads W) : Prop :=
  ∀ s t, sb ≤ s → s ≤ se → tb ≤ t → t ≤ te →
    st.p s t = (if i < s then Post s t else if s = i then Pre s t else 0) ∧
    st.px s t = (if i ≤ s then PreX s t else 0) ∧
    st.py s t = (if i < s then Y s t else 0)

/-- State inside row `r`, after frames above `j`. -/
def InnerInv (r j : Nat) (st : Grads W) : Prop :=
  ∀ s t, sb ≤ s → s ≤ se → tb ≤ t → t ≤ te →
    st.p s t = (if r < s then Post s t else if s = r then (if j ≤ t then Post s t else Pre s t)
      else if s + 1 = r ∧ cond md j t then X s t else 0) ∧
    st.px s t = (if r ≤ s then PreX s t else if s + 1 = r ∧ cond md j t then X s t else 0) ∧
    st.py s t = (if r < s then Y s t else if s = r ∧ j ≤ t then Y s t else 0)

omit hA in
theorem outer_to_inner {i : Nat} (st : Grads W) (h : OuterInv md px py sb tb se te g (i + 1) st) :
    InnerInv md px py sb tb se te g (i + 1) te st := by
  intro s t h1 h2 h3 h4
  obtain ⟨hp, hx, hy⟩ := h s t h1 h2 h3 h4
  rw [hp, hx, hy]
  refine ⟨?_, ?_, ?_⟩
  · by_cases hs : i + 1 < s
    · simp [hs]
    · by_cases hs' : s = i + 1
      · subst hs'
        simp only [Nat.lt_irrefl, if_false, if_true]
        by_cases ht : te ≤ t
        · have : t = te := by omega
          subst this
          simp [post, YT_te]
        · simp [ht]
      · simp only [hs, hs', if_false]
        by_cases hc : s + 1 = i + 1 ∧ cond md te t
        · rw [if_pos hc]
          obtain ⟨_, hc⟩ := hc
          cases hmd : md with
          | true =>
            simp only [cond, hmd, if_true] at hc
            have : t = te := by omega
            subst this
            rw [← hmd, XT_te md px py sb tb se t g hmd]
          | false =>
            simp only [cond, hmd] at hc
            simp at hc; omega
        · rw [if_neg hc]
  · by_cases hs : i + 1 ≤ s
    · simp [hs]
    · simp only [hs, if_false]
      by_cases hc : s + 1 = i + 1 ∧ cond md te t
      · rw [if_pos hc]
        obtain ⟨_, hc⟩ := hc
        cases hmd : md with
        | true =>
          simp only [cond, hmd, if_true] at hc
          have : t = te := by omega
          subst this
          rw [← hmd, XT_te md px py sb tb se t g hmd]
        | false =>
          simp only [cond, hmd] at hc
          simp at hc; omega
      · rw [if_neg hc]
  · by_cases hs : i + 1 < s
    · simp [hs]
    · simp only [hs, if_false]
      by_cases hc : s = i + 1 ∧ te ≤ t
      · have : t = te := by omega
        subst this
        simp [YT_te]
      · rw [if_neg hc]

omit hA in
theorem inner_to_outer {i : Nat} (hi : i < se) (st : Grads W)
    (h : InnerInv md px py sb tb se te g (i + 1) tb st) :
    OuterInv md px py sb tb se te g i st := by
  intro s t h1 h2 h3 h4
  obtain ⟨hp, hx, hy⟩ := h s t h1 h2 h3 h4
  rw [hp, hx, hy]
  have hcond : s = i → (if s + 1 = i + 1 ∧ cond md tb t then X s t else 0) = PreX s t := by
    intro hs
    subst hs
    simp only [true_and, prex, cond]
    cases hmd : md with
    | true => simp [h3]
    | false =>
      by_cases ht : t = tb
      · subst ht; simp
      · have : tb < t := by omega
        simp [ht, this]
  have hpre : s = i → PreX s t = Pre s t := by
    intro hs
    subst hs
    simp only [pre, prex]
    rw [if_neg (by omega : ¬ (s = se ∧ t = te))]
  refine ⟨?_, ?_, ?_⟩
  · by_cases hs : i + 1 < s
    · simp [hs, show i < s by omega]
    · by_cases hs' : s = i + 1
      · subst hs'
        simp [h3]
      · simp only [hs, hs', if_false, show ¬ i < s by omega]
        by_cases hsi : s = i
        · rw [hcond hsi, hpre hsi, if_pos hsi]
        · rw [if_neg (by omega), if_neg hsi]
  · by_cases hs : i + 1 ≤ s
    · simp [hs, show i ≤ s by omega]
    · simp only [hs, if_false]
      by_cases hsi : s = i
      · rw [hcond hsi, if_pos (by omega)]
      · rw [if_neg (by omega), if_neg (by omega)]
  · by_cases hs : i + 1 < s
    · simp [hs, show i < s by omega]
    · simp only [hs, if_false]
      by_cases hs' : s = i + 1
      · subst hs'; simp [h3]
      · rw [if_neg (by omega), if_neg (by omega)]

theorem inner_step (p : Nat → Nat → W)
    (hp : ∀ s t, sb ≤ s → s ≤ se → tb ≤ t → t ≤ te → p s t = α s t)
    {r j : Nat} (hr1 : sb < r) (hr2 : r ≤ se) (hj1 : tb ≤ j) (hj2 : j < te)
    (hz : ∀ s t, sb < s → s ≤ se → tb < t → t ≤ te → α s t = 0 →
      α (s - 1) (if md then t - 1 else t) * px (s - 1) (if md then t - 1 else t) = 0)
    (st : Grads W) (h : InnerInv md px py sb tb se te g r (j + 1) st) :
    InnerInv md px py sb tb se te g r j (miBackStep md px p r (j + 1) st) := by
  have hcur : st.p r (j + 1) = G r (j + 1) := by
    have := (h r (j + 1) (by omega) hr2 (by omega) (by omega)).1
    rw [this]
    simp only [Nat.lt_irrefl, if_false, if_true, Nat.le_refl]
    exact post_eq md px py sb tb se te g hA hr2 (by omega) (Or.inr (by omega))
  have ht'1 : tb ≤ (if md then j + 1 - 1 else j + 1) := by split <;> omega
  have ht'2 : (if md then j + 1 - 1 else j + 1) ≤ te := by split <;> omega
  have hg1 : (p (r - 1) (if md then j + 1 - 1 else j + 1) *
      px (r - 1) (if md then j + 1 - 1 else j + 1)) /
        (if p r (j + 1) = 0 then 1 else p r (j + 1)) * st.p r (j + 1) =
      X (r - 1) (if md then j + 1 - 1 else j + 1) := by
    rw [hcur, hp (r - 1) _ (by omega) (by omega) ht'1 ht'2,
      hp r (j + 1) (by omega) hr2 (by omega) (by omega)]
    exact XT_of_GT md px py sb tb se te g hr1 (by omega)
      (hz r (j + 1) hr1 hr2 (by omega) (by omega))
  have hg2 : (1 - (p (r - 1) (if md then j + 1 - 1 else j + 1) *
      px (r - 1) (if md then j + 1 - 1 else j + 1)) /
        (if p r (j + 1) = 0 then 1 else p r (j + 1))) * st.p r (j + 1) = Y r j := by
    rw [hcur, hp (r - 1) _ (by omega) (by omega) ht'1 ht'2,
      hp r (j + 1) (by omega) hr2 (by omega) (by omega)]
    have := YT_of_GT md px py sb tb se te g hr1 (show tb < j + 1 by omega)
      (hz r (j + 1) hr1 hr2 (by omega) (by omega))
    simpa using this
  simp only [InnerInv, miBackStep, hg1, hg2]
  intro s t h1 h2 h3 h4
  obtain ⟨ep, ex, ey⟩ := h s t h1 h2 h3 h4
  have hprevRJ := (h r j (by omega) hr2 hj1 (by omega)).1
  simp only [Nat.lt_irrefl, if_false, if_true, show ¬ (j + 1 ≤ j) by omega] at hprevRJ
  -- conditions in row r - 1
  have hcond : cond md j t ↔ cond md (j + 1) t ∨ t = (if md then j + 1 - 1 else j + 1) := by
    simp only [cond]; cases md <;> simp <;> omega
  have hcne : ¬ cond md (j + 1) (if md then j + 1 - 1 else j + 1) := by
    simp only [cond]; cases md <;> simp
  refine ⟨?_, ?_, ?_⟩
  · by_cases hrj : s = r ∧ t = j
    · obtain ⟨rfl, rfl⟩ := hrj
      rw [show t + 1 - 1 = t by omega, upd_same, upd_other _ _ (Or.inl (by omega)), hprevRJ]
      simp [post]
    · rw [show j + 1 - 1 = j by omega, upd_other _ _ (by omega)]
      by_cases hs1 : s = r - 1 ∧ t = (if md then j + 1 - 1 else j + 1)
      · obtain ⟨rfl, ht⟩ := hs1
        have hc : cond md j t := hcond.mpr (Or.inr ht)
        rw [show j + 1 - 1 = j by omega] at ht
        rw [ht, upd_same, ← ht]
        rw [if_neg (by omega), if_neg (by omega), if_pos ⟨by omega, hc⟩]
      · rw [show j + 1 - 1 = j by omega] at hs1
        rw [upd_other _ _ (by omega), ep]
        by_cases hrs : r < s
        · simp [hrs]
        · by_cases hsr : s = r
          · subst hsr
            have : t ≠ j := by simpa using hrj
            simp only [Nat.lt_irrefl, if_false, if_true]
            by_cases hjt : j + 1 ≤ t
            · rw [if_pos hjt, if_pos (by omega)]
            · rw [if_neg hjt, if_neg (by omega)]
          · simp only [hrs, hsr, if_false]
            by_cases hs' : s + 1 = r
            · have ht : t ≠ (if md then j + 1 - 1 else j + 1) := by
                rw [show j + 1 - 1 = j by omega]
                intro e; exact hs1 ⟨by omega, e⟩
              have : cond md j t ↔ cond md (j + 1) t :=
                hcond.trans ⟨fun h => h.resolve_right ht, Or.inl⟩
              simp [hs', this]
            · simp [hs']
  · by_cases hs1 : s = r - 1 ∧ t = (if md then j + 1 - 1 else j + 1)
    · obtain ⟨rfl, ht⟩ := hs1
      have hc : cond md j t := hcond.mpr (Or.inr ht)
      rw [ht, upd_same, ← ht]
      rw [if_neg (by omega), if_pos ⟨by omega, hc⟩]
    · rw [upd_other _ _ (by omega), ex]
      by_cases hrs : r ≤ s
      · simp [hrs]
      · simp only [hrs, if_false]
        by_cases hs' : s + 1 = r
        · have ht : t ≠ (if md then j + 1 - 1 else j + 1) := by
            intro e; exact hs1 ⟨by omega, e⟩
          have : cond md j t ↔ cond md (j + 1) t :=
                hcond.trans ⟨fun h => h.resolve_right ht, Or.inl⟩
          simp [hs', this]
        · simp [hs']
  · by_cases hrj : s = r ∧ t = j
    · obtain ⟨rfl, rfl⟩ := hrj
      rw [show t + 1 - 1 = t by omega, upd_same]
      simp
    · rw [show j + 1 - 1 = j by omega, upd_other _ _ (by omega), ey]
      by_cases hrs : r < s
      · simp [hrs]
      · simp only [hrs, if_false]
        by_cases hc : s = r ∧ j + 1 ≤ t
        · rw [if_pos hc, if_pos (by omega)]
        · rw [if_neg hc, if_neg (by omega)]

/-- State of the second loop after frames above `j`. -/
def RowInv (j : Nat) (st : Grads W) : Prop :=
  ∀ s t, sb ≤ s → s ≤ se → tb ≤ t → t ≤ te →
    st.p s t = (if sb < s then Post s t else if j ≤ t then Post s t else Pre s t) ∧
    st.px s t = PreX s t ∧
    st.py s t = (if sb < s then Y s t else if j ≤ t then Y s t else 0)

/-- State of the third loop after symbols above `i`. -/
def ColInv (i : Nat) (st : Grads W) : Prop :=
  ∀ s t, sb ≤ s → s ≤ se → tb ≤ t → t ≤ te →
    st.p s t = (if t = tb ∧ s < i then Post s t else G s t) ∧
    st.px s t = (if t = tb ∧ s < i then 0 else X s t) ∧
    st.py s t = Y s t

omit [DecidableEq W] hA in
theorem GT_row {t : Nat} (ht : tb < t) : G sb t = Y sb (t - 1) := by
  simp only [GT, YT]
  rw [alpha_row md px py sb tb ht, show t - 1 + 1 = t by omega]

omit [DecidableEq W] hA in
theorem GT_col (hmd : md = false) {s : Nat} (hs : sb < s) : G s tb = X (s - 1) tb := by
  simp only [GT, XT]
  rw [alpha_col md px py sb tb hs, show s - 1 + 1 = s by omega]
  simp [hmd, Step.frames]

/-- The gradients after the backward pass. -/
theorem miBackward_spec (p : Nat → Nat → W) (hse : sb ≤ se) (hte : tb ≤ te)
    (hp : ∀ s t, sb ≤ s → s ≤ se → tb ≤ t → t ≤ te → p s t = α s t)
    (hz : ∀ s t, sb < s → s ≤ se → tb < t → t ≤ te → α s t = 0 →
      α (s - 1) (if md then t - 1 else t) * px (s - 1) (if md then t - 1 else t) = 0)
    {s t : Nat} (h1 : sb ≤ s) (h2 : s ≤ se) (h3 : tb ≤ t) (h4 : t ≤ te) :
    (miBackward md px p sb tb se te g).p s t = G s t ∧
    (miBackward md px p sb tb se te g).px s t = X s t ∧
    (miBackward md px p sb tb se te g).py s t = Y s t := by
  -- first loop
  have ho : OuterInv md px py sb tb se te g sb
      (forDown se sb (fun s st =>
        forDown te tb (fun t st => miBackStep md px p s t st) st)
        { p := upd (fun _ _ => 0) se te g, px := fun _ _ => 0, py := fun _ _ => 0 }) := by
    apply forDown_inv (OuterInv md px py sb tb se te g) se sb _ _ hse
    · intro s t h1 h2 h3 h4
      refine ⟨?_, ?_, ?_⟩
      · simp only [show ¬ se < s by omega, if_false]
        by_cases hs : s = se
        · subst hs
          simp only [if_true, pre, true_and]
          by_cases ht : t = te
          · subst ht; simp
          · rw [upd_other _ _ (Or.inr ht), if_neg ht]
            split
            · rfl
            · rw [XT_se]
        · rw [upd_other _ _ (Or.inl hs), if_neg hs]
      · by_cases hs : se ≤ s
        · have : s = se := by omega
          subst this
          simp only [Nat.le_refl, if_true, prex, XT_se, ite_self]
        · simp [hs]
      · simp [show ¬ se < s by omega]
    · intro i st hi1 hi2 hst
      apply inner_to_outer md px py sb tb se te g hi2
      apply forDown_inv (InnerInv md px py sb tb se te g (i + 1)) te tb _ _ hte
      · exact outer_to_inner md px py sb tb se te g st hst
      · intro j st hj1 hj2 hst
        exact inner_step md px py sb tb se te g hA p hp (by omega) (by omega) hj1 hj2 hz st hst
  -- second loop
  have hrow : RowInv md px py sb tb se te g tb
      (forDown te tb (fun t (st : Grads W) =>
        { st with
          p := upd st.p sb (t - 1) (st.p sb (t - 1) + st.p sb t)
          py := upd st.py sb (t - 1) (st.p sb t) })
      (forDown se sb (fun s st =>
        forDown te tb (fun t st => miBackStep md px p s t st) st)
        { p := upd (fun _ _ => 0) se te g, px := fun _ _ => 0, py := fun _ _ => 0 })) := by
    apply forDown_inv (RowInv md px py sb tb se te g) te tb _ _ hte
    · intro s t h1 h2 h3 h4
      obtain ⟨ep, ex, ey⟩ := ho s t h1 h2 h3 h4
      rw [ep, ex, ey]
      refine ⟨?_, by simp [h1], ?_⟩
      · by_cases hs : sb < s
        · simp [hs]
        · have : s = sb := by omega
          subst this
          simp only [Nat.lt_irrefl, if_false, if_true]
          by_cases ht : te ≤ t
          · have : t = te := by omega
            subst this; simp [post, YT_te]
          · simp [ht]
      · by_cases hs : sb < s
        · simp [hs]
        · simp only [hs, if_false]
          by_cases ht : te ≤ t
          · have : t = te := by omega
            subst this; simp [YT_te]
          · simp [ht]
    · intro j st hj1 hj2 hst
      have hcur : st.p sb (j + 1) = Y sb j := by
        have := (hst sb (j + 1) (by omega) hse (by omega) (by omega)).1
        rw [this]
        simp only [Nat.lt_irrefl, if_false, Nat.le_refl, if_true]
        rw [post_eq md px py sb tb se te g hA hse (by omega) (Or.inr (by omega)),
          GT_row md px py sb tb se te g (by omega)]
        simp
      have hprev : st.p sb j = Pre sb j := by
        have := (hst sb j (by omega) hse (by omega) (by omega)).1
        rw [this]; simp
      simp only [RowInv]
      intro s t h1 h2 h3 h4
      obtain ⟨ep, ex, ey⟩ := hst s t h1 h2 h3 h4
      rw [show j + 1 - 1 = j by omega, hcur, hprev]
      refine ⟨?_, ex, ?_⟩
      · by_cases hc : s = sb ∧ t = j
        · obtain ⟨rfl, rfl⟩ := hc
          simp [post]
        · rw [upd_other _ _ (by omega), ep]
          by_cases hs : sb < s
          · simp [hs]
          · simp only [hs, if_false]
            by_cases ht : j + 1 ≤ t
            · rw [if_pos ht, if_pos (by omega)]
            · rw [if_neg ht, if_neg (by omega)]
      · by_cases hc : s = sb ∧ t = j
        · obtain ⟨rfl, rfl⟩ := hc
          simp
        · rw [upd_other _ _ (by omega), ey]
          by_cases hs : sb < s
          · simp [hs]
          · simp only [hs, if_false]
            by_cases ht : j + 1 ≤ t
            · rw [if_pos ht, if_pos (by omega)]
            · rw [if_neg ht, if_neg (by omega)]
  simp only [miBackward]
  by_cases hmd : md = true
  · rw [if_pos hmd]
    obtain ⟨ep, ex, ey⟩ := hrow s t h1 h2 h3 h4
    rw [ep, ex, ey]
    simp only [h3, if_true, ite_self]
    refine ⟨post_eq md px py sb tb se te g hA h2 h4 (Or.inl hmd), ?_, trivial⟩
    simp [prex, hmd]
  · rw [if_neg hmd]
    have hmd : md = false := by simpa using hmd
    have hcol : ColInv md px py sb tb se te g sb
        (forDown se sb (fun s (st : Grads W) =>
          { st with
            p := upd st.p (s - 1) tb (st.p (s - 1) tb + st.p s tb)
            px := upd st.px (s - 1) tb (st.p s tb) })
        (forDown te tb (fun t (st : Grads W) =>
          { st with
            p := upd st.p sb (t - 1) (st.p sb (t - 1) + st.p sb t)
            py := upd st.py sb (t - 1) (st.p sb t) })
        (forDown se sb (fun s st =>
          forDown te tb (fun t st => miBackStep md px p s t st) st)
          { p := upd (fun _ _ => 0) se te g, px := fun _ _ => 0, py := fun _ _ => 0 }))) := by
      apply forDown_inv (ColInv md px py sb tb se te g) se sb _ _ hse
      · intro s t h1 h2 h3 h4
        obtain ⟨ep, ex, ey⟩ := hrow s t h1 h2 h3 h4
        rw [ep, ex, ey]
        simp only [h3, if_true, ite_self]
        refine ⟨?_, ?_, trivial⟩
        · by_cases ht : t = tb
          · subst ht
            by_cases hs : s < se
            · simp [hs]
            · have : s = se := by omega
              subst this
              simp only [Nat.lt_irrefl, and_false, if_false]
              simp only [post, pre, true_and]
              by_cases ht : t = te
              · subst ht
                rw [if_pos rfl, YT_te, add_zero, GT_end md px py sb t s t g hA]
              · rw [if_neg ht, if_pos (by simp [hmd]), zero_add,
                  GT_eq md px py sb t s te g (Nat.le_refl _) h4 (Or.inr ht), XT_se, zero_add]
          · rw [if_neg (by tauto)]
            exact post_eq md px py sb tb se te g hA h2 h4 (Or.inr ht)
        · simp only [prex, hmd, true_and]
          by_cases ht : t = tb
          · subst ht
            by_cases hs : s < se
            · simp [hs]
            · have : s = se := by omega
              subst this
              simp [XT_se]
          · simp [ht]
      · intro i st hi1 hi2 hst
        have hcur : st.p (i + 1) tb = X i tb := by
          have := (hst (i + 1) tb (by omega) (by omega) (Nat.le_refl _) hte).1
          rw [this]
          rw [if_neg (by omega), GT_col md px py sb tb se te g hmd (by omega)]
          simp
        have hprev : st.p i tb + X i tb = G i tb := by
          have := (hst i tb hi1 (by omega) (Nat.le_refl _) hte).1
          rw [this, if_pos ⟨rfl, by omega⟩,
            GT_eq md px py sb tb se te g (by omega) hte (Or.inl (by omega))]
          simp only [post, pre]
          rw [if_neg (by omega), if_pos (by simp [hmd])]
          ring
        simp only [ColInv]
        intro s t h1 h2 h3 h4
        obtain ⟨ep, ex, ey⟩ := hst s t h1 h2 h3 h4
        rw [show i + 1 - 1 = i by omega, hcur, hprev]
        refine ⟨?_, ?_, ey⟩
        · by_cases hc : s = i ∧ t = tb
          · obtain ⟨rfl, rfl⟩ := hc
            simp
          · rw [upd_other _ _ (by omega), ep]
            by_cases hc' : t = tb ∧ s < i + 1
            · rw [if_pos hc', if_pos (by omega)]
            · rw [if_neg hc', if_neg (by omega)]
        · by_cases hc : s = i ∧ t = tb
          · obtain ⟨rfl, rfl⟩ := hc
            simp
          · rw [upd_other _ _ (by omega), ex]
            by_cases hc' : t = tb ∧ s < i + 1
            · rw [if_pos hc', if_pos (by omega)]
            · rw [if_neg hc', if_neg (by omega)]
    obtain ⟨ep, ex, ey⟩ := hcol s t h1 h2 h3 h4
    rw [ep, ex, ey, if_neg (by omega), if_neg (by omega)]
    exact ⟨rfl, rfl, rfl⟩

end
end Verif.Rnnt
