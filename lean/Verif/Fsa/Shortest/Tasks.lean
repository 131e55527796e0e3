import Verif.Fsa.Shortest.Trace

/-!
# The tasks of ShortestPath
-/

namespace Verif.Fsa.Best
open Verif.Ragged Verif.Util Verif.Fsa.Bat Verif.Fsa.Sco Verif.Fsa.Top
variable {W : Type}

theorem mod_step (t m : Nat) : t % 2 ^ (m + 1) = if t / 2 ^ m % 2 = 0 then t % 2 ^ m else t % 2 ^ m + 2 ^ m := by
  rw [Nat.mod_pow_succ]
  split
  · next h => rw [h]; simp
  · next h =>
    have : t / 2 ^ m % 2 = 1 := by omega
    rw [this, Nat.mul_one]

section
variable (T : List (List (List (Arc W)))) (hT : VecOk T) (e : Nat → Nat → Option Nat)
  (rows : List (List (Option Nat))) (lp : Nat)
  (hrows : ∀ i ≤ lp, ∃ row, rows[i]? = some row ∧ RowOk T e i row)
  (r : Nat) (f : List (List (Arc W))) (hf : T[r]? = some f) (hlen : 0 < f.length)
  (l : List Nat) (te : Nat) (ht : Trace f (e r) (f.length - 1) l te)
include hT hrows hf hlen ht

/-- The loop over the bits of the task goes back as many arcs as the number of the task. -/
theorem walk_eq (t : Nat) : ∀ m ≤ lp, ∃ st,
    (List.range m).foldlM (walkBit (flat T) rows (off T r) t) (some (0, off T r + f.length - 1)) = some st ∧
    ((t % 2 ^ m ≤ l.length ∧ ∃ s < f.length, st = some (t % 2 ^ m, off T r + s) ∧
        Trace f (e r) s (l.drop (t % 2 ^ m)) te) ∨ (l.length < t % 2 ^ m ∧ st = none)) := by
  intro m
  induction m with
  | zero =>
    intro _
    refine ⟨some (0, off T r + f.length - 1), rfl, Or.inl ?_⟩
    rw [Nat.pow_zero, Nat.mod_one]
    refine ⟨Nat.zero_le _, f.length - 1, by omega, ?_, ?_⟩
    · rw [Nat.add_sub_assoc hlen]
    · exact ht
  | succ m ih =>
    intro hm
    obtain ⟨st, h1, h2⟩ := ih (by omega)
    rw [List.range_succ, List.foldlM_append, h1]
    simp only [Option.bind_eq_bind, Option.bind_some, List.foldlM_cons, List.foldlM_nil, mod_step t m]
    rcases h2 with ⟨h2, s, hs, rfl, htr⟩ | ⟨h2, rfl⟩
    · rw [walkBit]
      by_cases h0 : t / 2 ^ m % 2 = 0
      · rw [if_pos h0, if_pos h0]
        exact ⟨some (t % 2 ^ m, off T r + s), rfl, Or.inl ⟨h2, s, hs, rfl, htr⟩⟩
      · rw [if_neg h0, if_neg h0]
        obtain ⟨row, hr1, hr2⟩ := hrows m (by omega)
        have hc := hr2.get r f hf s hs _ te htr
        have hpos := Nat.one_le_two_pow (n := m)
        rw [List.getElem?_drop] at hc
        simp only [hr1, hc, Option.bind_eq_bind, Option.bind_some]
        cases hk : l[t % 2 ^ m + (2 ^ m - 1)]? with
        | none =>
          have := List.getElem?_eq_none_iff.mp hk
          exact ⟨none, rfl, Or.inr ⟨by omega, rfl⟩⟩
        | some k =>
          have hlt := (List.getElem?_eq_some_iff.mp hk).1
          obtain ⟨a, ha, hd⟩ := trace_drop f (e r) _ l te ht _ k hk
          obtain ⟨g1, g2⟩ := arc_at T hT r k f a hf ha
          refine ⟨some (t % 2 ^ m + 2 ^ m, off T r + a.src), ?_, Or.inl ⟨by omega, a.src, g2, rfl, ?_⟩⟩
          · simp only [Option.map_some, bitNext, g1, Option.bind_eq_bind, Option.bind_some]
            rw [Nat.add_comm (off T r)]
            rfl
          · rw [show t % 2 ^ m + 2 ^ m = t % 2 ^ m + (2 ^ m - 1) + 1 by omega]
            exact hd
    · refine ⟨none, rfl, Or.inr ⟨?_, rfl⟩⟩
      split <;> omega

/-- The loop of a task never runs out of fuel; its writes and counts. -/
theorem taskLoop_eq : ∀ (fuel i k : Nat), l[i]? = some k → l.length - i < fuel → l.length < f.length →
    ∀ cur prev, ∃ ws cs, taskLoop (flat T) rows lp (off T r) fuel (((off T r + f.length : Nat) : Int) - 1 - i) cur i
        prev (some (base T r + k)) = some (ws, cs) ∧ (ws.map Prod.fst).Nodup ∧
      (∀ x, x ∈ ws ↔ ∃ i' k', i ≤ i' ∧ (i' - i) % 2 ^ lp = 0 ∧ l[i']? = some k' ∧
        x = (off T r + f.length - 1 - i', some (base T r + k'))) ∧
      (∀ c ∈ cs, c = if te = 0 then l.length else 0) ∧ ((l.length - 1 - i) % 2 ^ lp = 0 → cs ≠ []) := by
  intro fuel
  induction fuel with
  | zero => intro i k _ h; omega
  | succ fuel ih =>
    intro i k hk hfu hlf cur prev
    have hlt := (List.getElem?_eq_some_iff.mp hk).1
    obtain ⟨a, ha, hd⟩ := trace_drop f (e r) _ l te ht _ k hk
    obtain ⟨g1, g2⟩ := arc_at T hT r k f a hf ha
    obtain ⟨row, hr1, hr2⟩ := hrows lp (le_refl _)
    have hc := hr2.get r f hf a.src g2 _ te hd
    have hpos := Nat.one_le_two_pow (n := lp)
    rw [List.getElem?_drop, show i + 1 + (2 ^ lp - 1) = i + 2 ^ lp by omega, Nat.add_comm (off T r)] at hc
    unfold taskLoop
    rw [if_neg (by omega)]
    simp only [g1, hr1, hc, Option.bind_eq_bind, Option.bind_some]
    have hp : ((off T r + f.length : Nat) : Int) - 1 - i - 2 ^ lp =
        ((off T r + f.length : Nat) : Int) - 1 - ((i + 2 ^ lp : Nat) : Int) := by push_cast; omega
    have hpn : (((off T r + f.length : Nat) : Int) - 1 - i).toNat = off T r + f.length - 1 - i := by omega
    rw [hp, hpn]
    cases hk' : l[i + 2 ^ lp]? with
    | none =>
      have hge := List.getElem?_eq_none_iff.mp hk'
      obtain ⟨fuel, rfl⟩ : ∃ n, fuel = n + 1 := ⟨fuel - 1, by omega⟩
      obtain ⟨row0, hr3, hr4⟩ := hrows 0 (by omega)
      have hc0 := hr4.get r f hf a.src g2 _ te hd
      rw [List.getElem?_drop, Nat.pow_zero, Nat.sub_self, Nat.add_zero, Nat.add_comm (off T r)] at hc0
      simp only [Option.map_none, taskLoop, hr3, hc0, Option.bind_eq_bind, Option.bind_some]
      refine ⟨_, _, rfl, by simp, ?_, ?_, ?_⟩
      · intro x
        rw [List.mem_singleton]
        constructor
        · rintro rfl
          exact ⟨i, k, le_refl _, by simp, hk, rfl⟩
        · rintro ⟨i', k', h1, h2, h3, rfl⟩
          have h4 := (List.getElem?_eq_some_iff.mp h3).1
          have h5 : i' = i := by
            have := Nat.mod_eq_of_lt (show i' - i < 2 ^ lp by omega)
            omega
          subst h5
          rw [hk] at h3
          obtain rfl := Option.some.inj h3
          rfl
      · intro c hcm
        split at hcm
        · next hn =>
          have hn' : l.length ≤ i + 1 := by
            rw [Option.map_eq_none_iff] at hn
            exact List.getElem?_eq_none_iff.mp hn
          rw [List.drop_eq_nil_of_le hn'] at hd
          obtain ⟨_, rfl⟩ := hd
          rw [List.mem_singleton] at hcm
          rw [hcm]
          by_cases h0 : a.src = 0
          · rw [if_pos (by omega), if_pos h0]; omega
          · rw [if_neg (by omega), if_neg h0]
        · simp at hcm
      · intro hm
        have := Nat.mod_eq_of_lt (show l.length - 1 - i < 2 ^ lp by omega)
        have hn : l[i + 1]? = none := List.getElem?_eq_none (by omega)
        rw [hn]
        simp
    | some k' =>
      have hlt' := (List.getElem?_eq_some_iff.mp hk').1
      obtain ⟨ws, cs, h1, h2, h3, h4, h5⟩ := ih (i + 2 ^ lp) k' hk' (by omega) hlf i (a.src + off T r)
      simp only [Option.map_some, h1, Option.bind_some]
      refine ⟨_, _, rfl, ?_, ?_, h4, ?_⟩
      · rw [List.map_cons, List.nodup_cons]
        refine ⟨?_, h2⟩
        intro hc
        obtain ⟨x, hx, he⟩ := List.mem_map.mp hc
        obtain ⟨i', k'', g3, _, g4, rfl⟩ := (h3 x).mp hx
        have := (List.getElem?_eq_some_iff.mp g4).1
        simp only at he
        omega
      · intro x
        rw [List.mem_cons]
        constructor
        · rintro (rfl | hx)
          · exact ⟨i, k, le_refl _, by simp, hk, rfl⟩
          · obtain ⟨i', k'', g3, g4, g5, g6⟩ := (h3 x).mp hx
            refine ⟨i', k'', by omega, ?_, g5, g6⟩
            rw [show i' - i = i' - (i + 2 ^ lp) + 2 ^ lp by omega, Nat.add_mod_right]
            exact g4
        · rintro ⟨i', k'', g3, g4, g5, g6⟩
          by_cases hii : i' = i
          · subst hii
            left
            rw [hk] at g5
            obtain rfl := Option.some.inj g5
            exact g6
          · right
            have : ¬ i' - i < 2 ^ lp := by
              intro hlt2
              rw [Nat.mod_eq_of_lt hlt2] at g4
              omega
            refine (h3 x).mpr ⟨i', k'', by omega, ?_, g5, g6⟩
            rw [show i' - i = i' - (i + 2 ^ lp) + 2 ^ lp by omega, Nat.add_mod_right] at g4
            exact g4
      · intro hm
        apply h5
        rw [show l.length - 1 - i = l.length - 1 - (i + 2 ^ lp) + 2 ^ lp by omega, Nat.add_mod_right] at hm
        exact hm

omit hlen ht in
/-- What a task writes. -/
theorem task_eq (hfw : ∀ a ∈ f.flatten, a.src < a.dst)
    (hen : ∀ s < f.length, ∀ k, e r s = some k → ∃ a, f.flatten[k]? = some a ∧ a.dst = s)
    (ht : (f.length = 0 ∧ l = []) ∨ 0 < f.length ∧ Trace f (e r) (f.length - 1) l te) (t : Nat) (htl : t < 2 ^ lp) :
    ∃ ws cs, task (flat T) rows lp r t = some (ws, cs) ∧ (ws.map Prod.fst).Nodup ∧
      (∀ x, x ∈ ws ↔ ∃ i k, i % 2 ^ lp = t ∧ l[i]? = some k ∧
        x = (off T r + f.length - 1 - i, some (base T r + k))) ∧
      (∀ c ∈ cs, c = if te = 0 then l.length else 0) ∧ (l ≠ [] → (l.length - 1) % 2 ^ lp = t → cs ≠ []) := by
  have hrl := (List.getElem?_eq_some_iff.mp hf).1
  have ho := off_succ T r f hf
  have e1 := flat_sp1 T r (by omega)
  have e2 := flat_sp1_succ T r f hf
  have hoff : off T (r + 1) ≤ T.flatten.length := by
    rw [← off_length]; exact off_mono T (by omega)
  have e3 := flat_sp2 T (off T r) (by omega)
  have e4 := flat_sp2 T (off T r + f.length) (by omega)
  have hna : apos T (off T r + f.length) - apos T (off T r) = f.flatten.length := by
    have := apos_local T r f.length f hf (le_refl _)
    have hl : lpos f f.length = f.flatten.length := by
      rw [lpos, List.take_of_length_le (by simp), ← List.length_flatten]
    rw [hl] at this
    have h0 := apos_local T r 0 f hf (Nat.zero_le _)
    have hl0 : lpos f 0 = 0 := rfl
    rw [hl0, Nat.add_zero, Nat.add_zero] at h0
    rw [h0, this, Nat.add_sub_cancel_left]
  unfold task
  simp only [e1, e2, e3, e4, Option.bind_eq_bind, Option.bind_some, hna, Nat.add_sub_cancel_left]
  rcases ht with ⟨h0, rfl⟩ | ⟨hlen, ht⟩
  · rw [if_pos (Or.inr h0)]
    exact ⟨[], [0], rfl, by simp, by simp, by simp, by simp⟩
  · obtain ⟨hpl, hpath⟩ := trace_path f (e r) hen hfw _ (by omega) l te ht
    have hla := trace_le_arcs f (e r) hen hfw _ (by omega) l te ht
    split
    · next h0 =>
      have hnil : l = [] := by
        apply List.eq_nil_of_length_eq_zero
        omega
      subst hnil
      exact ⟨[], [0], rfl, by simp, by simp, by simp, by simp⟩
    · next h0 =>
      split
      · next h1 =>
        have hlt : l.length ≤ t := by omega
        refine ⟨[], [], rfl, by simp, ?_, by simp, ?_⟩
        · intro x
          simp only [List.not_mem_nil, false_iff, not_exists, not_and]
          intro i k hi hk
          have := (List.getElem?_eq_some_iff.mp hk).1
          have := Nat.mod_le i (2 ^ lp)
          omega
        · intro hne hm
          have := List.length_pos_iff.mpr hne
          have := Nat.mod_le (l.length - 1) (2 ^ lp)
          omega
      · next h1 =>
        unfold taskRun
        obtain ⟨st, hst, hcase⟩ := walk_eq T hT e rows lp hrows r f hf hlen l te ht t lp (le_refl _)
        rw [Nat.mod_eq_of_lt htl] at hcase
        simp only [hst, Option.bind_eq_bind, Option.bind_some]
        rcases hcase with ⟨hle, s, hs, rfl, htr⟩ | ⟨hgt, rfl⟩
        · obtain ⟨row0, hr3, hr4⟩ := hrows 0 (by omega)
          have hc0 := hr4.get r f hf s hs _ te htr
          rw [List.getElem?_drop, Nat.pow_zero, Nat.sub_self, Nat.add_zero] at hc0
          simp only [taskAt, hr3, hc0, Option.bind_eq_bind, Option.bind_some]
          cases hk : l[t]? with
          | none =>
            have hge := List.getElem?_eq_none_iff.mp hk
            refine ⟨[], [], rfl, by simp, ?_, by simp, ?_⟩
            · intro x
              simp only [List.not_mem_nil, false_iff, not_exists, not_and]
              intro i k hi hk
              have := (List.getElem?_eq_some_iff.mp hk).1
              have := Nat.mod_le i (2 ^ lp)
              omega
            · intro hne hm
              have := List.length_pos_iff.mpr hne
              have := Nat.mod_le (l.length - 1) (2 ^ lp)
              omega
          | some k =>
            have hlt := (List.getElem?_eq_some_iff.mp hk).1
            obtain ⟨a, ha, hd⟩ := trace_drop f (e r) _ l te ht _ k hk
            obtain ⟨g1, g2⟩ := arc_at T hT r k f a hf ha
            have hN := flat_id1_length T
            obtain ⟨ws, cs, i1, i2, i3, i4, i5⟩ := taskLoop_eq T hT e rows lp hrows r f hf hlen l te ht
              ((flat T).id1.length + 1) t k hk (by omega) (by omega) t (a.src + off T r)
            simp only [Option.map_some, taskFrom, ne_eq, not_true, if_false, g1, Option.bind_eq_bind, Option.bind_some]
            refine ⟨ws, cs, i1, i2, ?_, i4, ?_⟩
            · intro x
              rw [i3 x]
              constructor
              · rintro ⟨i', k', j1, j2, j3, j4⟩
                refine ⟨i', k', ?_, j3, j4⟩
                have := Nat.add_mod (i' - t) t (2 ^ lp)
                rw [j2, Nat.zero_add, Nat.mod_mod, Nat.mod_eq_of_lt htl, Nat.sub_add_cancel j1] at this
                exact this
              · rintro ⟨i', k', j1, j3, j4⟩
                have := Nat.mod_le i' (2 ^ lp)
                refine ⟨i', k', by omega, ?_, j3, j4⟩
                rw [← j1]
                exact Nat.sub_mod_eq_zero_of_mod_eq (Nat.mod_mod _ _).symm
            · intro _ hm
              apply i5
              rw [← hm]
              exact Nat.sub_mod_eq_zero_of_mod_eq (Nat.mod_mod _ _).symm
        · refine ⟨[], [], rfl, by simp, ?_, by simp, ?_⟩
          · intro x
            simp only [List.not_mem_nil, false_iff, not_exists, not_and]
            intro i k hi hk
            have := (List.getElem?_eq_some_iff.mp hk).1
            have := Nat.mod_le i (2 ^ lp)
            omega
          · intro hne hm
            have := List.length_pos_iff.mpr hne
            have := Nat.mod_le (l.length - 1) (2 ^ lp)
            omega
end

theorem taskIds_eq (lp jm : Nat) (hj : 0 < jm) : taskIds lp jm = List.range (2 ^ lp) := by
  unfold taskIds
  generalize 2 ^ lp = n
  induction n with
  | zero => simp
  | succ n ih =>
    rw [Nat.succ_mul, List.range_add, List.filter_append, List.map_append, ih, List.range_succ]
    congr 1
    obtain ⟨m, rfl⟩ : ∃ m, jm = m + 1 := ⟨jm - 1, by omega⟩
    rw [List.range_succ_eq_map, List.map_cons, List.filter_cons, if_pos (by simp), List.map_cons,
      List.map_map]
    have : ((List.range m).map ((fun x => n * (m + 1) + x) ∘ Nat.succ)).filter (fun j => decide (j % (m + 1) = 0)) = [] := by
      rw [List.filter_eq_nil_iff]
      intro x hx
      obtain ⟨y, hy, rfl⟩ := List.mem_map.mp hx
      have := List.mem_range.mp hy
      have h2 : (n * (m + 1) + (y + 1)) % (m + 1) = y + 1 := by
        rw [Nat.mul_add_mod_self_right, Nat.mod_eq_of_lt (by omega)]
      simp [h2]
    rw [this]
    simp

end Verif.Fsa.Best
