import Verif.Fsa.Random.Walk

/-!
# The code follows the path whose interval contains the point
-/

namespace Verif.Fsa.Rp
open Verif.Ragged Verif.Util Verif.Fsa.Bat Verif.Fsa.Sco Verif.Fsa.Top
variable {W K : Type} [Field K] [LinearOrder K] [IsStrictOrderedRing K]

section
variable (cdf : List K) (b n : Nat) (F : Nat → K) (h1 : F n = 1) (hF : ∀ i j, i ≤ j → F i ≤ F j)
  (hc : ∀ k < n, cdf[b + k]? = some (F k)) (p : K) (hp1 : p < 1) (k : Nat) (hk : k < n) (hlo : F k ≤ p) (hhi : p < F (k + 1))
include h1 hc

theorem intervalEnd_eq (i : Nat) (hi : i < n) : intervalEnd cdf (b + n) (b + i) = some (F (i + 1)) := by
  unfold intervalEnd
  by_cases h : i + 1 = n
  · rw [if_pos (by omega), h, h1]
  · rw [if_neg (by omega), Nat.add_assoc, hc (i + 1) (by omega)]

include hF hp1 hk hlo hhi

theorem pickCpu_eq : pickCpu cdf b (b + n) p = some (b + k) := by
  unfold pickCpu
  rw [if_pos (by omega)]
  have hlen : ((cdf.drop (b + 1)).take (b + n - (b + 1))).length = n - 1 := by
    have h2 : b + (n - 1) < cdf.length := (List.getElem?_eq_some_iff.mp (hc (n - 1) (by omega))).1
    rw [List.length_take, List.length_drop]
    omega
  have hget : ∀ i (hi : i < ((cdf.drop (b + 1)).take (b + n - (b + 1))).length),
      ((cdf.drop (b + 1)).take (b + n - (b + 1)))[i] = F (i + 1) := by
    intro i hi
    have h2 := hc (i + 1) (by omega)
    have h3 : ((cdf.drop (b + 1)).take (b + n - (b + 1)))[i]? = some (F (i + 1)) := by
      rw [List.getElem?_take_of_lt (by omega), List.getElem?_drop, ← h2]
      congr 1; omega
    exact (List.getElem?_eq_some_iff.mp h3).2
  congr 2
  by_cases h : k + 1 = n
  · have : ((cdf.drop (b + 1)).take (b + n - (b + 1))).findIdx (fun x => decide (p < x)) =
        ((cdf.drop (b + 1)).take (b + n - (b + 1))).length := by
      rw [List.findIdx_eq_length]
      intro x hx
      obtain ⟨i, hi, rfl⟩ := List.getElem_of_mem hx
      rw [hget i hi]
      have := hF (i + 1) k (by omega)
      simp only [decide_eq_false_iff_not, not_lt]
      linarith
    rw [this, hlen]; omega
  · rw [List.findIdx_eq (by omega)]
    refine ⟨?_, ?_⟩
    · rw [hget]; simpa using hhi
    · intro i hi
      rw [hget]
      have := hF (i + 1) k (by omega)
      simp only [decide_eq_false_iff_not, not_lt]
      linarith

theorem pickGpu_eq : pickGpu cdf b (b + n) p = some (b + k) := by
  have h2 : (List.range' b (b + n - b)).mapM (gpuTakes cdf (b + n) p) =
      some ((List.range n).map (fun i => if i = k then [b + k] else [])) := by
    apply mapM_some_of
    · simp
    · intro i j hj
      have hi : i < n := by have := (List.getElem?_eq_some_iff.mp hj).1; simpa using this
      rw [List.getElem?_range' (by omega)] at hj
      have hj := Option.some.inj hj
      simp only [Nat.one_mul] at hj
      subst hj
      unfold gpuTakes
      rw [hc i hi, intervalEnd_eq cdf b n F h1 hc i hi]
      simp only [Option.bind_eq_bind, Option.bind_some, List.getElem?_map, List.getElem?_range hi, Option.map_some]
      congr 1
      by_cases hik : i = k
      · subst hik
        rw [if_pos ⟨hlo, hhi.le, by linarith, Or.inl hhi.ne⟩, if_pos rfl]
      · rw [if_neg hik, if_neg]
        rintro ⟨e1, e2, e3, e4⟩
        rcases Nat.lt_or_ge i k with h | h
        · have := hF (i + 1) k (by omega)
          have hpe : p = F (i + 1) := by linarith
          rcases e4 with e4 | e4
          · exact e4 hpe
          · linarith
        · have := hF (k + 1) i (by omega)
          linarith
  have h3 : ∀ m, ((List.range m).map (fun i => if i = k then [b + k] else [])).flatten =
      if k < m then [b + k] else [] := by
    intro m
    induction m with
    | zero => simp
    | succ m ih =>
      rw [List.range_succ, List.map_append, List.flatten_append, ih]
      by_cases hm : m = k
      · subst hm; simp
      · by_cases hkm : k < m
        · simp [hm, hkm]; omega
        · rw [if_neg hkm, if_neg (by omega)]; simp [hm]
  unfold pickGpu
  rw [h2]
  simp only [Option.bind_eq_bind, Option.bind_some]
  rw [h3, if_pos hk]
end

section
variable {f : List (List (Arc W))} {wt : W → K} {β : Nat → K} (H : Beta f wt β)
  (T : List (List (List (Arc W)))) (r : Nat) (hf : T[r]? = some f) (cdf : List K) (R : Nat → Prop)
  (hR : ∀ a ∈ f.flatten, R a.src → 0 < wt a.score → R a.dst)
  (hcdf : ∀ s, s + 1 < f.length → R s → 0 < β s → ∀ k < (vrow f wt β s).length,
    cdf[base T r + lpos f s + k]? = some (cum f wt β s k))
include H hf hR hcdf

theorem walk_eq (gpu : Bool) (nb : Nat) (is : List Nat) : ∀ (s fuel pos : Nat) (p : K),
    IPath f.flatten s is (f.length - 1) → s < f.length → R s → 0 < β s → In f wt β s is p → p < 1 → is.length < fuel →
    pos + is.length < nb →
    walk gpu (flat T) cdf (off T r) (off T r + f.length - 1) nb fuel pos (off T r + s) p =
      some (is.map (base T r + ·)) := by
  have hrow : ∀ s, s < f.length → ∃ row, f[s]? = some row ∧ (flat T).sp2[off T r + s]? = some (base T r + lpos f s) ∧
      (flat T).sp2[off T r + s + 1]? = some (base T r + lpos f s + row.length) := by
    intro s hs
    have h1 := off_lt T r s f hf hs
    have h2 := state_at T r s f hf hs
    have hrow := List.getElem?_eq_getElem hs
    rw [hrow] at h2
    refine ⟨_, hrow, ?_, ?_⟩
    · rw [flat_sp2 T _ (by omega), apos_local T r s f hf (by omega)]; rfl
    · rw [flat_sp2_succ T _ _ h2, apos_local T r s f hf (by omega)]; rfl
  induction is with
  | nil =>
    intro s fuel pos p hp hs _ _ _ _ hfu _
    rw [ipath_nil] at hp
    subst hp
    obtain ⟨row, g1, g2, g3⟩ := hrow (f.length - 1) hs
    have hnil : row = [] := by
      cases row with
      | nil => rfl
      | cons a row =>
        obtain ⟨e1, e2⟩ := H.ok _ _ g1 a (by simp)
        have := H.fw a (List.mem_flatten.mpr ⟨_, List.mem_of_getElem? g1, by simp⟩)
        omega
    subst hnil
    obtain ⟨fuel, rfl⟩ : ∃ m, fuel = m + 1 := ⟨fuel - 1, by simp at hfu; omega⟩
    rw [walk, g2, g3]
    have hoff : off T r + f.length - 1 = off T r + (f.length - 1) := by omega
    cases gpu with
    | true => simp [atEnd, hoff, g2]
    | false => simp [atEnd, hoff]
  | cons j js ih =>
    intro s fuel pos p hp hs hRs hb hin hp1 hfu hnb
    obtain ⟨a, h1, h2, h3⟩ := (ipath_cons _ _ _ _ _).mp hp
    subst h2
    obtain ⟨h4, h5⟩ := H.arc h1
    obtain ⟨c1, c2, c3, c4, c5⟩ := H.cum_bounds (s := a.src) (by omega) hb
    obtain ⟨i1, i2, i3, i4, i5⟩ := H.in_cons h1 h3 hb hin
    obtain ⟨row, k, e1, e2, e3⟩ := arc_row f H.ok j a h1
    obtain ⟨row', g1, g2, g3⟩ := hrow a.src hs
    rw [e1] at g1
    obtain rfl := Option.some.inj g1
    have hk := (List.getElem?_eq_some_iff.mp e2).1
    have hvl : (vrow f wt β a.src).length = row.length := by
      rw [vrow, List.length_map, List.getD_eq_getElem?_getD, e1]; rfl
    rw [hvl] at c5
    have hc := hcdf a.src (by omega) hRs hb
    rw [hvl] at hc
    have hjk : j - lpos f a.src = k := by omega
    rw [hjk] at i1 i2 i5
    have hpick : (bif gpu then pickGpu cdf (base T r + lpos f a.src) (base T r + lpos f a.src + row.length) p
        else pickCpu cdf (base T r + lpos f a.src) (base T r + lpos f a.src + row.length) p) = some (base T r + j) := by
      rw [e3, ← Nat.add_assoc]
      cases gpu with
      | true => exact pickGpu_eq cdf _ row.length _ c5 c3 hc p hp1 k hk i1 i2
      | false => exact pickCpu_eq cdf _ row.length _ c5 c3 hc p hp1 k hk i1 i2
    have hend := intervalEnd_eq cdf _ row.length _ c5 hc k hk
    rw [Nat.add_assoc _ _ k, ← e3] at hend
    have hcj := hc k hk
    rw [Nat.add_assoc _ _ k, ← e3] at hcj
    have harc : (flat T).arcs[base T r + j]? = some a := by
      have hg := state_at T r a.src f hf hs
      rw [e1] at hg
      have := flat_arc T _ k row hg hk
      rw [apos_local T r a.src f hf (by omega), e2] at this
      rw [e3, ← Nat.add_assoc]
      exact this
    obtain ⟨fuel, rfl⟩ : ∃ m, fuel = m + 1 := ⟨fuel - 1, by simp at hfu; omega⟩
    have hlt : p < 1 := hp1
    have hp' : (p - cum f wt β a.src k) / (cum f wt β a.src (k + 1) - cum f wt β a.src k) < 1 := by
      rw [div_lt_one (by linarith)]; linarith
    simp only [List.length_cons] at hfu hnb
    have hih := ih a.dst fuel (pos + 1) _ h3 h5 (hR a (List.mem_of_getElem? h1) hRs i3) i4 i5 hp' (by omega) (by omega)
    have hstop : atEnd gpu (flat T) (off T r + f.length - 1) (off T r + a.src) (base T r + lpos f a.src)
        (base T r + lpos f a.src + row.length) = some false := by
      unfold atEnd
      cases gpu with
      | true => simp; intro h; rw [h] at hk; simp at hk
      | false => simp; omega
    rw [walk, g2, g3]
    simp only [Option.bind_eq_bind, Option.bind_some, hstop, hpick, hcj, hend, harc, Bool.false_eq_true, if_false]
    rw [if_neg (by omega), Nat.add_comm a.dst, hih]
    rfl
end

end Verif.Fsa.Rp
