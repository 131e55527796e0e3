import Verif.Fsa.Shortest.Tasks
import Verif.Fsa.Batches.Lemmas

/-!
# The result of ShortestPath
-/

namespace Verif.Fsa.Best
open Verif.Ragged Verif.Util Verif.Fsa.Bat Verif.Fsa.Sco Verif.Fsa.Top
variable {W : Type}

theorem sameCount_eq (l : List Nat) (n : Nat) (h : ∀ c ∈ l, c = n) (h0 : l = [] → n = 0) : sameCount l = some n := by
  cases l with
  | nil => rw [h0 rfl]; rfl
  | cons m l =>
    obtain rfl := h m List.mem_cons_self
    exact if_pos (fun c hc => h c (List.mem_cons_of_mem _ hc))

/-- The tasks of one FSA. -/
theorem tasks_row (T : List (List (List (Arc W)))) (hT : VecOk T) (e : Nat → Nat → Option Nat)
    (rows : List (List (Option Nat))) (lp : Nat)
    (hrows : ∀ i ≤ lp, ∃ row, rows[i]? = some row ∧ RowOk T e i row)
    (r : Nat) (f : List (List (Arc W))) (hf : T[r]? = some f) (l : List Nat) (te : Nat)
    (hfw : ∀ a ∈ f.flatten, a.src < a.dst)
    (hen : ∀ s < f.length, ∀ k, e r s = some k → ∃ a, f.flatten[k]? = some a ∧ a.dst = s)
    (ht : (f.length = 0 ∧ l = []) ∨ 0 < f.length ∧ Trace f (e r) (f.length - 1) l te) :
    ∃ out, (List.range (2 ^ lp)).mapM (task (flat T) rows lp r) = some out ∧
      (((out.map Prod.fst).flatten).map Prod.fst).Nodup ∧
      (∀ x, x ∈ (out.map Prod.fst).flatten ↔ ∃ i k, l[i]? = some k ∧
        x = (off T r + f.length - 1 - i, some (base T r + k))) ∧
      sameCount (out.map Prod.snd).flatten = some (if te = 0 then l.length else 0) := by
  have hll : l.length ≤ f.length - 1 := by
    rcases ht with ⟨_, rfl⟩ | ⟨h1, h2⟩
    · simp
    · have := (trace_path f (e r) hen hfw _ (by omega) l te h2).1
      omega
  have h1 : ∀ t, ∃ x : List (Nat × Option Nat) × List Nat, t < 2 ^ lp → task (flat T) rows lp r t = some x ∧
      (x.1.map Prod.fst).Nodup ∧
      (∀ y, y ∈ x.1 ↔ ∃ i k, i % 2 ^ lp = t ∧ l[i]? = some k ∧
        y = (off T r + f.length - 1 - i, some (base T r + k))) ∧
      (∀ c ∈ x.2, c = if te = 0 then l.length else 0) ∧ (l ≠ [] → (l.length - 1) % 2 ^ lp = t → x.2 ≠ []) := by
    intro t
    by_cases h : t < 2 ^ lp
    · obtain ⟨ws, cs, g⟩ := task_eq T hT e rows lp hrows r f hf l te hfw hen ht t h
      exact ⟨(ws, cs), fun _ => g⟩
    · exact ⟨([], []), fun hc => absurd hc h⟩
  choose X hX using h1
  have hpos := Nat.one_le_two_pow (n := lp)
  refine ⟨(List.range (2 ^ lp)).map X, ?_, ?_, ?_, ?_⟩
  · apply mapM_some_of
    · simp
    · intro i b hb
      obtain ⟨hlt, hb⟩ := List.getElem?_eq_some_iff.mp hb
      rw [List.getElem_range] at hb; subst hb
      rw [List.length_range] at hlt
      rw [(hX i hlt).1, List.getElem?_map, List.getElem?_range hlt]
      rfl
  · rw [List.map_flatten, List.nodup_flatten]
    constructor
    · intro w hw
      simp only [List.mem_map, List.mem_range] at hw
      obtain ⟨_, ⟨_, ⟨t, ht', rfl⟩, rfl⟩, rfl⟩ := hw
      exact (hX t ht').2.1
    · rw [List.map_map, List.map_map, List.pairwise_map]
      refine List.Pairwise.imp_of_mem ?_ (List.nodup_range (n := 2 ^ lp))
      intro t t' hm hm' hne p hp hp'
      have hm := List.mem_range.mp hm
      have hm' := List.mem_range.mp hm'
      obtain ⟨x, hx, rfl⟩ := List.mem_map.mp hp
      obtain ⟨y, hy, hxy⟩ := List.mem_map.mp hp'
      obtain ⟨i, k, j1, j2, rfl⟩ := ((hX t hm).2.2.1 x).mp hx
      obtain ⟨i', k', j1', j2', rfl⟩ := ((hX t' hm').2.2.1 y).mp hy
      have := (List.getElem?_eq_some_iff.mp j2).1
      have := (List.getElem?_eq_some_iff.mp j2').1
      simp only at hxy
      apply hne
      rw [← j1, ← j1', show i = i' by omega]
  · intro x
    rw [List.mem_flatten]
    constructor
    · rintro ⟨w, hw, hx⟩
      simp only [List.mem_map, List.mem_range] at hw
      obtain ⟨_, ⟨t, ht', rfl⟩, rfl⟩ := hw
      obtain ⟨i, k, _, j2, j3⟩ := ((hX t ht').2.2.1 x).mp hx
      exact ⟨i, k, j2, j3⟩
    · rintro ⟨i, k, j2, j3⟩
      have ht' : i % 2 ^ lp < 2 ^ lp := Nat.mod_lt _ (by omega)
      exact ⟨(X (i % 2 ^ lp)).1, List.mem_map.mpr ⟨_, List.mem_map.mpr ⟨_, List.mem_range.mpr ht', rfl⟩, rfl⟩,
        ((hX _ ht').2.2.1 x).mpr ⟨i, k, rfl, j2, j3⟩⟩
  · apply sameCount_eq
    · intro c hc
      obtain ⟨w, hw, hx⟩ := List.mem_flatten.mp hc
      simp only [List.mem_map, List.mem_range] at hw
      obtain ⟨_, ⟨t, ht', rfl⟩, rfl⟩ := hw
      exact (hX t ht').2.2.2.1 c hx
    · intro hnil
      by_cases hl : l = []
      · subst hl; simp
      · exfalso
        have ht' : (l.length - 1) % 2 ^ lp < 2 ^ lp := Nat.mod_lt _ (by omega)
        apply (hX _ ht').2.2.2.2 hl rfl
        rw [List.flatten_eq_nil_iff] at hnil
        exact hnil _ (List.mem_map.mpr ⟨_, List.mem_map.mpr ⟨_, List.mem_range.mpr ht', rfl⟩, rfl⟩)

/-- `ShortestPath` gives the traces from the final states, if they end at the start states; the powers of two
and the numbers of tasks and threads make no difference. -/
theorem shortestPath_eq (T : List (List (List (Arc W)))) (hT : VecOk T)
    (hfw : ∀ f ∈ T, ∀ a ∈ f.flatten, a.src < a.dst) (e : Nat → Nat → Option Nat) (ent : List (Option Nat))
    (he : EntOk T e ent) :
    ∃ Q : List (List Nat), Q.length = T.length ∧
      (∀ lp0 jm, 0 < jm → shortestPath lp0 jm (flat T) ent =
        some (psum (Q.map List.length), Q.flatten.map some)) ∧
      ∀ (r : Nat) (f : List (List (Arc W))), T[r]? = some f →
        (f = [] ∧ Q[r]? = some []) ∨ ∃ l t, Trace f (e r) (f.length - 1) l t ∧ 0 < f.length ∧
          Q[r]? = some (if t = 0 then l.reverse.map (base T r + ·) else []) := by
  have h1 : ∀ r, ∃ x : List Nat × Nat, ∀ f, T[r]? = some f →
      (f.length = 0 ∧ x.1 = []) ∨ 0 < f.length ∧ Trace f (e r) (f.length - 1) x.1 x.2 := by
    intro r
    cases hf : T[r]? with
    | none => exact ⟨([], 0), fun f h => by simp at h⟩
    | some f =>
      by_cases h0 : f.length = 0
      · refine ⟨([], 0), fun f' h' => ?_⟩
        obtain rfl := Option.some.inj h'
        exact Or.inl ⟨h0, rfl⟩
      · obtain ⟨l, t, h⟩ := trace_exists f (e r) (he.enters r f hf) (hfw f (List.mem_of_getElem? hf))
          (f.length - 1) (by omega)
        refine ⟨(l, t), fun f' h' => ?_⟩
        obtain rfl := Option.some.inj h'
        exact Or.inr ⟨by omega, h⟩
  choose X hX using h1
  set path : Nat → List Nat := fun r => if (X r).2 = 0 then (X r).1.reverse.map (base T r + ·) else [] with hpath
  have hQl : ∀ r, (path r).length = if (X r).2 = 0 then (X r).1.length else 0 := by
    intro r
    simp only [hpath]
    split <;> simp
  refine ⟨(List.range T.length).map path, by simp, ?_, ?_⟩
  · intro lp0 jm hjm
    unfold shortestPath
    rw [if_neg (by rw [he.length, flat_id1_length]; simp)]
    have hms : maxSize (flat T).sp1 = some ((T.map List.length).foldr max 0) := maxSize_psum _
    generalize (T.map List.length).foldr max 0 = ms at hms
    simp only [hms, Option.bind_eq_bind, Option.bind_some]
    generalize logPower ms lp0 = lp
    obtain ⟨rows, hr1, hr2⟩ := arcPowers_eq T hT hfw e he.enters lp 0 ent (rowOk_zero T e ent he)
    simp only [Nat.zero_add] at hr2
    simp only [hr1, Option.bind_some]
    -- the tasks
    have h2 : ∀ r, ∃ out, ∀ f, T[r]? = some f →
        (List.range (2 ^ lp)).mapM (task (flat T) rows lp r) = some out ∧
        (((out.map Prod.fst).flatten).map Prod.fst).Nodup ∧
        (∀ x, x ∈ (out.map Prod.fst).flatten ↔ ∃ i k, (X r).1[i]? = some k ∧
          x = (off T r + f.length - 1 - i, some (base T r + k))) ∧
        sameCount (out.map Prod.snd).flatten = some (path r).length := by
      intro r
      cases hf : T[r]? with
      | none => exact ⟨[], fun f h => by simp at h⟩
      | some f =>
        obtain ⟨out, g⟩ := tasks_row T hT e rows lp hr2 r f hf (X r).1 (X r).2 (hfw f (List.mem_of_getElem? hf))
          (he.enters r f hf) (hX r f hf)
        refine ⟨out, fun f' h' => ?_⟩
        obtain rfl := Option.some.inj h'
        rw [hQl]
        exact g
    choose O hO using h2
    have hm1 : (List.range ((flat T).sp1.length - 1)).mapM (fun r => (taskIds lp jm).mapM (task (flat T) rows lp r)) =
        some ((List.range T.length).map O) := by
      rw [taskIds_eq lp jm hjm]
      apply mapM_some_of
      · simp [flat_sp1_length]
      · intro i b hb
        obtain ⟨hlt, hb⟩ := List.getElem?_eq_some_iff.mp hb
        rw [List.getElem_range] at hb; subst hb
        rw [List.length_range, flat_sp1_length, Nat.add_sub_cancel] at hlt
        rw [(hO i _ (List.getElem?_eq_getElem hlt)).1, List.getElem?_map, List.getElem?_range hlt]
        rfl
    have hm2 : ((List.range T.length).map O).mapM (fun l => sameCount (l.map Prod.snd).flatten) =
        some ((List.range T.length).map (fun r => (path r).length)) := by
      apply mapM_some_of
      · simp
      · intro i b hb
        have hlt := (List.getElem?_eq_some_iff.mp hb).1
        rw [List.length_map, List.length_range] at hlt
        rw [List.getElem?_map, List.getElem?_range hlt] at hb
        obtain rfl := Option.some.inj hb
        rw [List.getElem?_map, List.getElem?_range hlt]
        exact (hO i _ (List.getElem?_eq_getElem hlt)).2.2.2
    have hXl : ∀ r f, T[r]? = some f → (X r).1.length ≤ f.length - 1 := by
      intro r f hf
      rcases hX r f hf with ⟨_, h⟩ | ⟨h1, h2⟩
      · rw [h]; simp
      · have := (trace_path f (e r) (he.enters r f hf) (hfw f (List.mem_of_getElem? hf)) _ (by omega) _ _ h2).1
        omega
    obtain ⟨arr, a1, a2, a3, _⟩ := writeAll_eq (List.replicate (flat T).id1.length (none : Option Nat))
      ((((List.range T.length).map O).map (fun l => (l.map Prod.fst).flatten)).flatten) (by
        rw [List.map_flatten, List.nodup_flatten]
        constructor
        · intro w hw
          simp only [List.mem_map, List.mem_range] at hw
          obtain ⟨_, ⟨_, ⟨r, hr, rfl⟩, rfl⟩, rfl⟩ := hw
          exact (hO r _ (List.getElem?_eq_getElem hr)).2.1
        · rw [List.map_map, List.map_map, List.pairwise_map]
          refine List.Pairwise.imp_of_mem ?_ (List.nodup_range (n := T.length))
          intro r r' hm hm' hne p hp hp'
          obtain ⟨f, hm⟩ : ∃ f, T[r]? = some f := ⟨_, List.getElem?_eq_getElem (List.mem_range.mp hm)⟩
          obtain ⟨f', hm'⟩ : ∃ f, T[r']? = some f := ⟨_, List.getElem?_eq_getElem (List.mem_range.mp hm')⟩
          obtain ⟨x, hx, rfl⟩ := List.mem_map.mp hp
          obtain ⟨y, hy, hxy⟩ := List.mem_map.mp hp'
          obtain ⟨i, k, j2, rfl⟩ := ((hO r f hm).2.2.1 x).mp hx
          obtain ⟨i', k', j2', rfl⟩ := ((hO r' f' hm').2.2.1 y).mp hy
          have h5 := (List.getElem?_eq_some_iff.mp j2).1
          have h6 := (List.getElem?_eq_some_iff.mp j2').1
          have h7 := hXl r f hm
          have h8 := hXl r' f' hm'
          simp only at hxy
          apply hne
          exact (off_inj T r r' (f.length - 1 - i) (f'.length - 1 - i') f f' hm hm' (by omega) (by omega) (by omega)).1)
      (by
        intro w hw
        obtain ⟨l, hl, hx⟩ := List.mem_flatten.mp hw
        simp only [List.mem_map, List.mem_range] at hl
        obtain ⟨_, ⟨r, hr, rfl⟩, rfl⟩ := hl
        have hm := List.getElem?_eq_getElem hr
        generalize T[r] = f at hm
        obtain ⟨i, k, j2, rfl⟩ := ((hO r f hm).2.2.1 w).mp hx
        have h5 := (List.getElem?_eq_some_iff.mp j2).1
        have h7 := hXl r f hm
        have := off_lt T r (f.length - 1 - i) f hm (by omega)
        rw [List.length_replicate, flat_id1_length]
        simp only
        omega)
    have harr : ∀ r f i k, T[r]? = some f → (X r).1[i]? = some k →
        arr[off T r + f.length - 1 - i]? = some (some (base T r + k)) := by
      intro r f i k hf hk
      have hrl := (List.getElem?_eq_some_iff.mp hf).1
      apply a3
      rw [List.mem_flatten]
      refine ⟨((O r).map Prod.fst).flatten, List.mem_map.mpr ⟨O r, List.mem_map.mpr ⟨r, List.mem_range.mpr hrl, rfl⟩, rfl⟩, ?_⟩
      exact ((hO r f hf).2.2.1 _).mpr ⟨i, k, hk, rfl⟩
    have hall : allTasks lp jm (flat T) rows = some ((List.range T.length).map (fun r => (path r).length), arr) := by
      unfold allTasks
      simp only [hm1, hm2, a1, Option.bind_eq_bind, Option.bind_some]
    simp only [hall, Option.bind_some]
    -- gathering
    have hmap : ((List.range T.length).map path).map List.length = (List.range T.length).map (fun r => (path r).length) := by
      rw [List.map_map]; rfl
    set counts := (List.range T.length).map (fun r => (path r).length) with hcounts
    have hcl : counts.length = T.length := by simp [hcounts]
    have hfl : ((List.range T.length).map path).flatten.length = counts.sum := by
      rw [List.length_flatten, hmap]
    have hga : gatherBest (flat T) counts arr = some (((List.range T.length).map path).flatten.map some) := by
      unfold gatherBest
      simp only [rowSplitsToRowIds_psum, Option.bind_eq_bind, Option.bind_some]
      apply mapM_some_of
      · rw [List.length_map, hfl, List.length_range]
      · intro i b hb
        obtain ⟨hlt, hb⟩ := List.getElem?_eq_some_iff.mp hb
        rw [List.getElem_range] at hb; subst hb
        rw [List.length_range] at hlt
        obtain ⟨r, n, k, hr, hk, rfl⟩ := ids_pos counts i hlt
        have hrl := (List.getElem?_eq_some_iff.mp hr).1
        rw [hcl] at hrl
        have hn : n = (path r).length := by
          rw [hcounts, List.getElem?_map, List.getElem?_range hrl] at hr
          exact (Option.some.inj hr).symm
        have e1 := ids_at counts r n k hr hk
        have e2 := psum_get counts r (by omega)
        have e3 := psum_get counts (r + 1) (by omega)
        rw [take_succ_sum counts r n hr] at e3
        have hf := List.getElem?_eq_getElem hrl
        generalize T[r] = f at hf
        have e4 := flat_sp1_succ T r f hf
        have hpq : ((List.range T.length).map path)[r]? = some (path r) := by
          rw [List.getElem?_map, List.getElem?_range hrl]; rfl
        have e5 := row_at ((List.range T.length).map path) r k (path r) hpq (by omega)
        rw [hmap] at e5
        simp only [e1, e2, e3, e4, Option.bind_some, Nat.add_sub_cancel_left]
        rw [List.getElem?_map, e5]
        have hx := hXl r f hf
        have hnx : n = (X r).1.length ∧ (X r).2 = 0 := by
          rw [hn, hQl] at hk
          rw [hn, hQl]
          split at hk
          · next h0 => rw [if_pos h0]; exact ⟨rfl, h0⟩
          · omega
        have hp : path r = (X r).1.reverse.map (base T r + ·) := by
          simp only [hpath]; rw [if_pos hnx.2]
        rw [hp, List.getElem?_map, List.getElem?_reverse (by omega)]
        have hxl : (X r).1.length - 1 - k < (X r).1.length := by omega
        have hg := List.getElem?_eq_getElem hxl
        have e6 := harr r f _ _ hf hg
        rw [hg, if_neg (by omega)]
        rw [show off T r + f.length - n + k = off T r + f.length - 1 - ((X r).1.length - 1 - k) by omega, e6]
        rfl
    simp only [hga, Option.bind_some, hmap]
  · intro r f hf
    have hrl := (List.getElem?_eq_some_iff.mp hf).1
    have hpq : ((List.range T.length).map path)[r]? = some (path r) := by
      rw [List.getElem?_map, List.getElem?_range hrl]; rfl
    rcases hX r f hf with ⟨h1, h2⟩ | ⟨h1, h2⟩
    · left
      refine ⟨List.eq_nil_of_length_eq_zero h1, ?_⟩
      rw [hpq]
      simp only [hpath, h2]
      simp
    · right
      exact ⟨(X r).1, (X r).2, h2, h1, hpq⟩

end Verif.Fsa.Best
