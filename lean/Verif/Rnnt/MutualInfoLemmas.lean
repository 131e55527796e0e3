import Verif.Rnnt.MutualInfoModel
import Verif.Rnnt.Alignments

namespace Verif.Rnnt
open Verif.Loop
variable {W : Type}

section
variable [CommSemiring W] (md : Bool) (px py : Nat → Nat → W) (sb tb : Nat)

/-- Sum over all alignments from the beginning to `(s, t)`. -/
def alpha (s t : Nat) : W := total md px py sb tb (s - sb) (t - tb)

theorem alpha_start : alpha md px py sb tb sb tb = 1 := by
  simp [alpha, total_zero_zero]

theorem alpha_col {s : Nat} (hs : sb < s) :
    alpha md px py sb tb s tb =
      if md then 0 else alpha md px py sb tb (s - 1) tb * px (s - 1) tb := by
  simp only [alpha]
  rw [total_last md px py sb tb _ _ (by simp; omega)]
  cases md with
  | true => simp [Step.frames]
  | false =>
    simp only [Step.frames, Bool.false_eq_true, if_false, Nat.sub_self, Nat.le_refl, and_true]
    rw [if_pos (by omega), if_neg (by omega), add_zero,
      show sb + (s - sb - 1) = s - 1 by omega, show s - sb - 1 = s - 1 - sb by omega]
    simp

theorem alpha_row {t : Nat} (ht : tb < t) :
    alpha md px py sb tb sb t = alpha md px py sb tb sb (t - 1) * py sb (t - 1) := by
  simp only [alpha]
  rw [total_last md px py sb tb _ _ (by simp; omega)]
  rw [if_neg (by omega), if_pos (by omega), zero_add, show tb + (t - tb - 1) = t - 1 by omega,
    show t - tb - 1 = t - 1 - tb by omega]
  simp

theorem alpha_inner {s t : Nat} (hs : sb < s) (ht : tb < t) :
    alpha md px py sb tb s t =
      alpha md px py sb tb (s - 1) (if md then t - 1 else t) *
        px (s - 1) (if md then t - 1 else t) +
      alpha md px py sb tb s (t - 1) * py s (t - 1) := by
  simp only [alpha]
  rw [total_last md px py sb tb _ _ (by simp; omega)]
  have hf : Step.X.frames md ≤ t - tb := by cases md <;> simp [Step.frames]; omega
  rw [if_pos ⟨by omega, hf⟩, if_pos (by omega)]
  congr 1
  · cases md with
    | true =>
      simp only [Step.frames, if_true]
      rw [show s - sb - 1 = s - 1 - sb by omega, show t - tb - 1 = t - 1 - tb by omega,
        show sb + (s - 1 - sb) = s - 1 by omega, show tb + (t - 1 - tb) = t - 1 by omega]
    | false =>
      simp only [Step.frames, Bool.false_eq_true, if_false]
      rw [show s - sb - 1 = s - 1 - sb by omega, show t - tb - 0 = t - tb by omega,
        show sb + (s - 1 - sb) = s - 1 by omega, show tb + (t - tb) = t by omega]
  · rw [show t - tb - 1 = t - 1 - tb by omega, show sb + (s - sb) = s by omega,
      show tb + (t - 1 - tb) = t - 1 by omega]

theorem miFirstColumn_spec {se : Nat} (hse : sb ≤ se) (p : Nat → Nat → W)
    (h0 : p sb tb = 1) :
    ∀ s, sb ≤ s → s ≤ se →
      miFirstColumn md px sb tb se p s tb = alpha md px py sb tb s tb := by
  have := forUp_inv
    (fun i (p : Nat → Nat → W) => ∀ s, sb ≤ s → s < i → p s tb = alpha md px py sb tb s tb)
    (sb + 1) se (fun s p =>
      upd p s tb (if md then 0 else p (s - 1) tb * px (s - 1) tb)) p (by omega)
    (by
      intro s h1 h2
      have : s = sb := by omega
      subst this; rw [h0, alpha_start])
    (by
      intro i p h1 h2 hp s hs1 hs2
      by_cases hsi : s = i
      · subst hsi
        rw [upd_same, alpha_col md px py sb tb (by omega)]
        cases md with
        | true => rfl
        | false => simp [hp (s - 1) (by omega) (by omega)]
      · rw [upd_other _ _ (Or.inl hsi)]
        exact hp s hs1 (by omega))
  intro s h1 h2
  exact this s h1 (by omega)

theorem miFirstRow_spec {se te : Nat} (hte : tb ≤ te) (p : Nat → Nat → W) (hse : sb ≤ se)
    (hcol : ∀ s, sb ≤ s → s ≤ se → p s tb = alpha md px py sb tb s tb) :
    (∀ s, sb ≤ s → s ≤ se → miFirstRow py sb tb te p s tb = alpha md px py sb tb s tb) ∧
    (∀ t, tb ≤ t → t ≤ te → miFirstRow py sb tb te p sb t = alpha md px py sb tb sb t) := by
  have := forUp_inv
    (fun i (p : Nat → Nat → W) =>
      (∀ s, sb ≤ s → s ≤ se → p s tb = alpha md px py sb tb s tb) ∧
      ∀ t, tb ≤ t → t < i → p sb t = alpha md px py sb tb sb t)
    (tb + 1) te (fun t p => upd p sb t (p sb (t - 1) * py sb (t - 1))) p (by omega)
    ⟨hcol, by
      intro t h1 h2
      have : t = tb := by omega
      subst this; exact hcol sb (by omega) hse⟩
    (by
      intro i p h1 h2 ⟨hc, hp⟩
      refine ⟨fun s hs1 hs2 => ?_, fun t ht1 ht2 => ?_⟩
      · rw [upd_other _ _ (Or.inr (by omega))]; exact hc s hs1 hs2
      · by_cases hti : t = i
        · subst hti
          rw [upd_same, alpha_row md px py sb tb (by omega), hp (t - 1) (by omega) (by omega)]
        · rw [upd_other _ _ (Or.inr hti)]; exact hp t ht1 (by omega))
  exact ⟨this.1, fun t h1 h2 => this.2 t h1 (by omega)⟩

theorem miRow_spec {se te : Nat} (hte : tb ≤ te) (p : Nat → Nat → W) {s : Nat} (hs : sb < s)
    (hse : s ≤ se)
    (hcol : ∀ s, sb ≤ s → s ≤ se → p s tb = alpha md px py sb tb s tb)
    (hprev : ∀ s', sb ≤ s' → s' < s → ∀ t, tb ≤ t → t ≤ te →
      p s' t = alpha md px py sb tb s' t) :
    (∀ s', sb ≤ s' → s' ≤ se → miRow md px py tb te s p s' tb = alpha md px py sb tb s' tb) ∧
    (∀ s', sb ≤ s' → s' < s + 1 → ∀ t, tb ≤ t → t ≤ te →
      miRow md px py tb te s p s' t = alpha md px py sb tb s' t) := by
  have := forUp_inv
    (fun i (st : (Nat → Nat → W) × W) =>
      (∀ s', sb ≤ s' → s' ≤ se → st.1 s' tb = alpha md px py sb tb s' tb) ∧
      (∀ s', sb ≤ s' → s' < s → ∀ t, tb ≤ t → t ≤ te → st.1 s' t = alpha md px py sb tb s' t) ∧
      (∀ t, tb ≤ t → t < i → st.1 s t = alpha md px py sb tb s t) ∧
      st.2 = alpha md px py sb tb s (i - 1))
    (tb + 1) te (fun t (st : (Nat → Nat → W) × W) =>
      let t' := if md then t - 1 else t
      let v := st.1 (s - 1) t' * px (s - 1) t' + st.2 * py s (t - 1)
      (upd st.1 s t v, v)) (p, p s tb) (by omega)
    ⟨hcol, hprev, by
      intro t h1 h2
      have : t = tb := by omega
      subst this; exact hcol s (by omega) hse, by simpa using hcol s (by omega) hse⟩
    (by
      rintro i ⟨p, v⟩ h1 h2 ⟨hc, hp, hrow, hv⟩
      have hval : p (s - 1) (if md then i - 1 else i) * px (s - 1) (if md then i - 1 else i) +
          v * py s (i - 1) = alpha md px py sb tb s i := by
        rw [alpha_inner md px py sb tb hs (by omega)]
        simp only at hv
        rw [hv]
        have := hp (s - 1) (by omega) (by omega) (if md then i - 1 else i)
          (by split <;> omega) (by split <;> omega)
        simp only at this
        rw [this]
      simp only [hval]
      refine ⟨fun s' h1 h2 => ?_, fun s' h1 h2 t ht1 ht2 => ?_, fun t ht1 ht2 => ?_, ?_⟩
      · rw [upd_other _ _ (Or.inr (by omega))]; exact hc s' h1 h2
      · rw [upd_other _ _ (Or.inl (by omega))]; exact hp s' h1 h2 t ht1 ht2
      · by_cases hti : t = i
        · subst hti; rw [upd_same]
        · rw [upd_other _ _ (Or.inr hti)]; exact hrow t ht1 (by omega)
      · simp)
  obtain ⟨h1, h2, h3, _⟩ := this
  refine ⟨h1, fun s' hs1 hs2 t ht1 ht2 => ?_⟩
  by_cases hs' : s' = s
  · subst hs'; exact h3 t ht1 (by omega)
  · exact h2 s' hs1 (by omega) t ht1 ht2

theorem miForward_spec {se te : Nat} (hse : sb ≤ se) (hte : tb ≤ te) (p0 : Nat → Nat → W)
    {s t : Nat} (hs1 : sb ≤ s) (hs2 : s ≤ se) (ht1 : tb ≤ t) (ht2 : t ≤ te) :
    miForward md px py sb tb se te p0 s t = alpha md px py sb tb s t := by
  have h1 := miFirstColumn_spec md px py sb tb hse (upd p0 sb tb 1) (by simp)
  have h2 := miFirstRow_spec md px py sb tb hte _ hse h1
  have := forUp_inv
    (fun i (p : Nat → Nat → W) =>
      (∀ s, sb ≤ s → s ≤ se → p s tb = alpha md px py sb tb s tb) ∧
      ∀ s, sb ≤ s → s < i → ∀ t, tb ≤ t → t ≤ te → p s t = alpha md px py sb tb s t)
    (sb + 1) se (fun s p => miRow md px py tb te s p)
    (miFirstRow py sb tb te (miFirstColumn md px sb tb se (upd p0 sb tb 1))) (by omega)
    ⟨h2.1, by
      intro s hs1 hs2 t ht1 ht2
      have : s = sb := by omega
      subst this; exact h2.2 t ht1 ht2⟩
    (by
      intro i p hi1 hi2 ⟨hc, hp⟩
      exact miRow_spec md px py sb tb hte p (by omega) hi2 hc hp)
  exact this.2 s hs1 (by omega) t ht1 ht2

/-! ## Backward sums -/

/-- Sum over all alignments from `(s, t)` to the end, 0 beyond the end. -/
def beta (se te s t : Nat) : W :=
  if s ≤ se ∧ t ≤ te then total md px py s t (se - s) (te - t) else 0

theorem beta_end (se te : Nat) : beta md px py se te se te = 1 := by
  simp [beta, total_zero_zero]

theorem beta_step {se te s t : Nat} (hs : s ≤ se) (ht : t ≤ te) (h : s ≠ se ∨ t ≠ te) :
    beta md px py se te s t =
      px s t * beta md px py se te (s + 1) (t + Step.X.frames md) +
      py s t * beta md px py se te s (t + 1) := by
  simp only [beta]
  rw [if_pos ⟨hs, ht⟩, total_first md px py s t _ _ (by simp; omega)]
  congr 1
  · by_cases h1 : s + 1 ≤ se ∧ t + Step.X.frames md ≤ te
    · rw [if_pos h1, if_pos (by omega), show se - s - 1 = se - (s + 1) by omega,
        show te - t - Step.X.frames md = te - (t + Step.X.frames md) by omega]
    · rw [if_neg h1, if_neg (by omega), mul_zero]
  · by_cases h1 : t + 1 ≤ te
    · rw [if_pos (by omega), if_pos ⟨hs, h1⟩, show te - t - 1 = te - (t + 1) by omega]
    · rw [if_neg (by omega), if_neg (by omega), mul_zero]

theorem beta_begin {se te : Nat} (hse : sb ≤ se) (hte : tb ≤ te) :
    beta md px py se te sb tb = alpha md px py sb tb se te := by
  simp [beta, alpha, hse, hte]

end
end Verif.Rnnt
