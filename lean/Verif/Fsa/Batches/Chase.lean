import Verif.Fsa.Batches.Model
import Mathlib.Data.Nat.Lattice
import Mathlib.Data.List.Nodup

/-!
# The kernel that finds the batch starts

Everything here is about an arbitrary array of jumps.
-/

namespace Verif.Fsa.Bat
open Verif.Ragged Verif.Util

/-- A row of `dest_states_powers`: `k` jumps from every state. -/
structure IsRow (n : Nat) (J : Nat → Nat) (k : Nat) (row : List Nat) : Prop where
  length : row.length = n
  get : ∀ s < n, row[s]? = some (J^[k] s)

/-- Jumps go forward and end at `intMax`. -/
structure Jumps (n : Nat) (J : Nat → Nat) : Prop where
  bound : n ≤ intMax
  forward : ∀ s < n, s < J s
  past : ∀ s, n ≤ s → J s = intMax

variable {n : Nat} {J : Nat → Nat}

theorem Jumps.step_ge (h : Jumps n J) {e x : Nat} (he : e ≤ n) (hx : e ≤ x) : e ≤ J x := by
  by_cases hn : x < n
  · have := h.forward x hn; omega
  · rw [h.past x (by omega)]; have := h.bound; omega

theorem Jumps.iter_ge (h : Jumps n J) {e b i k : Nat} (he : e ≤ n) (hi : e ≤ J^[i] b) (hk : i ≤ k) :
    e ≤ J^[k] b := by
  induction k with
  | zero => have : i = 0 := by omega
            subst this; exact hi
  | succ k ih =>
    by_cases hik : i = k + 1
    · subst hik; exact hi
    · rw [Function.iterate_succ_apply']
      exact h.step_ge he (ih (by omega))

theorem Jumps.iter_lt (h : Jumps n J) {e b i k : Nat} (he : e ≤ n) (hi : J^[k] b < e) (hk : i ≤ k) :
    J^[i] b < e := by
  by_contra hc
  have := h.iter_ge he (Nat.not_lt.mp hc) hk
  omega

theorem Jumps.iter_add_le (h : Jumps n J) {e b i : Nat} (he : e ≤ n) (hi : J^[i] b < e) : b + i ≤ J^[i] b := by
  induction i with
  | zero => simp
  | succ i ih =>
    have h1 := h.iter_lt he hi (Nat.le_succ i)
    have h2 := ih h1
    have h3 := h.forward (J^[i] b) (by omega)
    rw [Function.iterate_succ_apply']
    omega

/-- The number of jumps that pass `e`. -/
noncomputable def numJumps (J : Nat → Nat) (b e : Nat) : Nat := sInf {i | e ≤ J^[i] b}

theorem Jumps.lt_numJumps (h : Jumps n J) {e b : Nat} (he : e ≤ n) (i : Nat) :
    i < numJumps J b e ↔ J^[i] b < e := by
  have hne : {i | e ≤ J^[i] b}.Nonempty := by
    refine ⟨e, ?_⟩
    by_contra hc
    have h1 : J^[e] b < e := Nat.not_le.mp hc
    have := h.iter_add_le he h1
    omega
  constructor
  · intro hi
    have := Nat.notMem_of_lt_sInf hi
    exact Nat.not_le.mp this
  · intro hi
    by_contra hc
    have h1 : e ≤ J^[numJumps J b e] b := Nat.sInf_mem hne
    have := h.iter_ge he h1 (Nat.not_lt.mp hc)
    omega

theorem Jumps.numJumps_le (h : Jumps n J) {e b : Nat} (he : e ≤ n) : numJumps J b e ≤ e - b := by
  by_contra hc
  have h1 := (h.lt_numJumps he (b := b) (e - b)).mp (by omega)
  have h2 := h.iter_add_le he h1
  omega

theorem square_eq (h : Jumps n J) (k : Nat) (hk : 0 < k) (row : List Nat) (hr : IsRow n J k row) :
    ∃ row', square row = some row' ∧ IsRow n J (2 * k) row' := by
  refine ⟨(List.range n).map (fun s => J^[2 * k] s), ?_, ⟨by simp, fun s hs => by
    rw [List.getElem?_map, List.getElem?_range hs]; rfl⟩⟩
  unfold square
  apply mapM_some_of
  · simp [hr.length]
  · intro i b hb
    obtain ⟨hlt, hb⟩ := List.getElem?_eq_some_iff.mp hb
    rw [List.getElem_range] at hb; subst hb
    rw [List.length_range, hr.length] at hlt
    rw [hr.get i hlt, List.getElem?_map, List.getElem?_range hlt]
    simp only [Option.bind_eq_bind, Option.bind_some, hr.length, Option.map_some]
    have e : J^[2 * k] i = J^[k] (J^[k] i) := by rw [← Function.iterate_add_apply]; congr 1; omega
    split
    · next hd => rw [hr.get _ hd, e]
    · next hd =>
      rw [e]
      obtain ⟨k', rfl⟩ : ∃ k', k = k' + 1 := ⟨k - 1, by omega⟩
      have : ∀ m x, n ≤ x → J^[m + 1] x = intMax := by
        intro m
        induction m with
        | zero => intro x hx; exact h.past x hx
        | succ m ih =>
          intro x hx
          rw [Function.iterate_succ_apply', ih x hx]
          exact h.past _ h.bound
      rw [this k' _ (by omega)]

theorem powers_eq (h : Jumps n J) (lp : Nat) : ∀ (k : Nat) (row : List Nat), 0 < k → IsRow n J k row →
    ∃ rows, powers lp row = some rows ∧ rows.length = lp + 1 ∧
      ∀ m ≤ lp, ∃ row', rows[m]? = some row' ∧ IsRow n J (2 ^ m * k) row' := by
  induction lp with
  | zero =>
    intro k row hk hr
    refine ⟨[row], rfl, rfl, ?_⟩
    intro m hm
    obtain rfl : m = 0 := by omega
    exact ⟨row, rfl, by simpa using hr⟩
  | succ lp ih =>
    intro k row hk hr
    obtain ⟨row', h1, h2⟩ := square_eq h k hk row hr
    obtain ⟨rows, h3, h4, h5⟩ := ih (2 * k) row' (by omega) h2
    refine ⟨row :: rows, ?_, by simp [h4], ?_⟩
    · rw [powers, h1]
      simp only [Option.bind_eq_bind, Option.bind_some, h3]
    · intro m hm
      cases m with
      | zero => exact ⟨row, rfl, by simpa using hr⟩
      | succ m =>
        obtain ⟨row'', h6, h7⟩ := h5 m (by omega)
        refine ⟨row'', by simpa using h6, ?_⟩
        have : 2 ^ (m + 1) * k = 2 ^ m * (2 * k) := by rw [Nat.pow_succ, Nat.mul_assoc]
        rw [this]; exact h7

/-- The rows as `lambda_set_batch_info` sees them. -/
structure Rows (n : Nat) (J : Nat → Nat) (lp : Nat) (rows : List (List Nat)) : Prop where
  get : ∀ m ≤ lp, ∃ row, rows[m]? = some row ∧ IsRow n J (2 ^ m) row

theorem advance_eq (h : Jumps n J) {lp : Nat} {rows : List (List Nat)} (hr : Rows n J lp rows) (b e t : Nat)
    (he : e ≤ n) (k : Nat) : ∀ m, m + k ≤ lp → J^[t % 2 ^ m] b < e →
    advance rows e t (List.range' m k) (t % 2 ^ m, J^[t % 2 ^ m] b) =
      some (if J^[t % 2 ^ (m + k)] b < e then some (t % 2 ^ (m + k), J^[t % 2 ^ (m + k)] b) else none) := by
  induction k with
  | zero =>
    intro m hm hlt
    simp [advance, hlt]
  | succ k ih =>
    intro m hm hlt
    rw [List.range'_succ, advance]
    have hmod : t % 2 ^ (m + 1) = t % 2 ^ m + 2 ^ m * (t.testBit m).toNat := by
      rw [Nat.mod_pow_succ, Nat.testBit_eq_decide_div_mod_eq]
      rcases Nat.mod_two_eq_zero_or_one (t / 2 ^ m) with hz | hz <;> rw [hz] <;> simp
    have ha : m + (k + 1) = m + 1 + k := by omega
    split
    · next hb =>
      rw [hb] at hmod
      obtain ⟨row, h1, h2⟩ := hr.get m (by omega)
      have hmod' : 2 ^ m + t % 2 ^ m = t % 2 ^ (m + 1) := by rw [hmod]; simp; omega
      have h3 := h2.get (J^[t % 2 ^ m] b) (by omega)
      rw [← Function.iterate_add_apply, hmod'] at h3
      simp only [h1, h3, Option.bind_eq_bind, Option.bind_some]
      split
      · next hge =>
        rw [if_neg]
        have : t % 2 ^ (m + 1) ≤ t % 2 ^ (m + (k + 1)) := by
          rw [← Nat.mod_mod_of_dvd t (Nat.pow_dvd_pow 2 (show m + 1 ≤ m + (k + 1) by omega))]
          exact Nat.mod_le _ _
        have := h.iter_ge he hge this
        omega
      · next hge =>
        rw [Nat.add_comm (t % 2 ^ m), hmod', ih (m + 1) (by omega) (by omega), ha]
    · next hb =>
      have hb' : t.testBit m = false := by simpa using hb
      rw [hb'] at hmod
      have hmod' : t % 2 ^ m = t % 2 ^ (m + 1) := by rw [hmod]; simp
      rw [hmod', ih (m + 1) (by omega) (by rw [← hmod']; exact hlt), ha]

/-- The writes of a thread that starts with batch `i` and goes on in steps of `jobs`. -/
def trail (J : Nat → Nat) (b N jobs i : Nat) : List (Nat × Nat) :=
  (List.range ((N - i + jobs - 1) / jobs)).map (fun q => (b + (i + q * jobs), J^[i + q * jobs] b))

theorem trail_cons (J : Nat → Nat) (b N jobs i : Nat) (hj : 0 < jobs) (hi : i < N) :
    trail J b N jobs i = (b + i, J^[i] b) :: trail J b N jobs (i + jobs) := by
  have h1 : (N - i + jobs - 1) / jobs = (N - (i + jobs) + jobs - 1) / jobs + 1 := by
    have : N - i + jobs - 1 = (N - i - 1) + jobs := by omega
    rw [this, Nat.add_div_right _ hj]
    congr 1
    by_cases hc : i + jobs ≤ N
    · congr 1; omega
    · rw [Nat.div_eq_of_lt (by omega), Nat.div_eq_of_lt (by omega)]
  unfold trail
  rw [h1, List.range_succ_eq_map, List.map_cons, List.map_map]
  congr 1
  · simp
  · refine List.map_congr_left (fun q _ => ?_)
    have : i + (q + 1) * jobs = i + jobs + q * jobs := by rw [Nat.succ_mul]; omega
    simp only [Function.comp_apply, Nat.succ_eq_add_one, this]

theorem trail_nil (J : Nat → Nat) (b N jobs i : Nat) (hj : 0 < jobs) (hi : N ≤ i) : trail J b N jobs i = [] := by
  unfold trail
  rw [Nat.div_eq_of_lt (by omega)]; rfl

theorem trail_mem (J : Nat → Nat) (b N jobs i : Nat) (hj : 0 < jobs) (w : Nat × Nat) :
    w ∈ trail J b N jobs i ↔ ∃ q, i + q * jobs < N ∧ w = (b + (i + q * jobs), J^[i + q * jobs] b) := by
  unfold trail
  rw [List.mem_map]
  constructor
  · rintro ⟨q, hq, rfl⟩
    rw [List.mem_range, Nat.lt_div_iff_mul_lt hj] at hq
    refine ⟨q, ?_, rfl⟩
    first | omega | (rw [Nat.mul_comm] at hq; omega)
  · rintro ⟨q, hq, rfl⟩
    refine ⟨q, ?_, rfl⟩
    rw [List.mem_range, Nat.lt_div_iff_mul_lt hj]
    first | omega | (rw [Nat.mul_comm]; omega)

theorem trail_nodup (J : Nat → Nat) (b N jobs i : Nat) (hj : 0 < jobs) :
    ((trail J b N jobs i).map Prod.fst).Nodup := by
  unfold trail
  rw [List.map_map]
  refine List.Nodup.map_on ?_ List.nodup_range
  intro x _ y _ hxy
  simp only [Function.comp_apply] at hxy
  exact Nat.eq_of_mul_eq_mul_right hj (by omega)

/-- The count that such a thread writes. -/
def trailCount (N jobs i : Nat) : List Nat := if i < N ∧ (N - 1 - i) % jobs = 0 then [N] else []

theorem chase_eq (h : Jumps n J) {row0 rowL : List Nat} {b e jobs : Nat} (h0 : IsRow n J 1 row0)
    (hL : IsRow n J jobs rowL) (hj : 0 < jobs) (he : e ≤ n) (fuel : Nat) : ∀ i, e - b < fuel + i →
    J^[i] b < e →
    chase row0 rowL b e jobs fuel i (J^[i] b) =
      some (trail J b (numJumps J b e) jobs i, trailCount (numJumps J b e) jobs i) := by
  induction fuel with
  | zero =>
    intro i hf hi
    have := h.iter_add_le he hi
    omega
  | succ fuel ih =>
    intro i hf hi
    have hle := h.iter_add_le he hi
    have hiN := (h.lt_numJumps he (b := b) i).mpr hi
    rw [chase, if_neg (by omega), hL.get _ (by omega), ← Function.iterate_add_apply]
    simp only [Option.bind_eq_bind, Option.bind_some]
    have hstep := h.lt_numJumps he (b := b) (i + jobs)
    rw [Nat.add_comm i jobs] at hstep
    split
    · next hge =>
      rw [h0.get _ (by omega), ← Function.iterate_add_apply]
      simp only [Option.bind_some]
      have hone := h.lt_numJumps he (b := b) (1 + i)
      have hNle : numJumps J b e ≤ jobs + i := by
        by_contra hc
        have := hstep.mp (by omega)
        omega
      rw [trail_cons _ _ _ _ _ hj hiN, trail_nil _ _ _ _ _ hj (by omega)]
      congr 2
      unfold trailCount
      have hm : (numJumps J b e - 1 - i) % jobs = numJumps J b e - 1 - i := Nat.mod_eq_of_lt (by omega)
      rw [hm]
      by_cases hc : e ≤ J^[1 + i] b
      · have : numJumps J b e ≤ 1 + i := by
          by_contra hcc
          have := hone.mp (by omega)
          omega
        rw [if_pos hc, if_pos ⟨hiN, by omega⟩]
        congr 1; omega
      · have := hone.mpr (by omega)
        rw [if_neg hc, if_neg (by omega)]
    · next hge =>
      have hlt : J^[jobs + i] b < e := Nat.not_le.mp hge
      have hlt' : J^[i + jobs] b < e := by rw [Nat.add_comm]; exact hlt
      rw [Nat.add_comm jobs i, ih (i + jobs) (by omega) hlt']
      simp only [Option.bind_some]
      rw [trail_cons _ _ _ _ _ hj hiN]
      congr 2
      unfold trailCount
      have := hstep.mpr hlt
      have e1 : numJumps J b e - 1 - i = numJumps J b e - 1 - (i + jobs) + jobs := by omega
      rw [e1, Nat.add_mod_right]
      by_cases hc : (numJumps J b e - 1 - (i + jobs)) % jobs = 0
      · rw [if_pos ⟨by omega, hc⟩, if_pos ⟨by omega, hc⟩]
      · rw [if_neg (fun h => hc h.2), if_neg (fun h => hc h.2)]

theorem readWritten_eq (ws : List (Nat × Nat)) (hnd : (ws.map Prod.fst).Nodup) (p v : Nat)
    (h : (p, v) ∈ ws) : readWritten ws p = some v := by
  have : ws.filter (fun w => w.1 == p) = [(p, v)] := by
    induction ws with
    | nil => simp at h
    | cons w ws ih =>
      rw [List.map_cons, List.nodup_cons] at hnd
      rcases List.mem_cons.mp h with rfl | h
      · rw [List.filter_cons_of_pos (by simp), List.cons.injEq]
        refine ⟨rfl, ?_⟩
        rw [List.filter_eq_nil_iff]
        intro w hw hc
        have : w.1 = p := by simpa using hc
        exact hnd.1 (List.mem_map.mpr ⟨w, hw, this⟩)
      · rw [List.filter_cons_of_neg, ih hnd.2 h]
        intro hc
        have : w.1 = p := by simpa using hc
        exact hnd.1 (List.mem_map.mpr ⟨(p, v), h, this.symm⟩)
  unfold readWritten
  rw [this]

theorem flatMap_single (m t0 : Nat) (x : Nat) :
    (List.range m).flatMap (fun t => if t = t0 then [x] else []) = if t0 < m then [x] else [] := by
  induction m with
  | zero => simp
  | succ m ih =>
    rw [List.range_succ, List.flatMap_append, ih]
    by_cases h1 : t0 < m
    · rw [if_pos h1, if_pos (by omega)]
      simp only [List.flatMap_cons, List.flatMap_nil, List.append_nil]
      rw [if_neg (by omega), List.append_nil]
    · rw [if_neg h1]
      simp only [List.flatMap_cons, List.flatMap_nil, List.append_nil, List.nil_append]
      by_cases h2 : m = t0
      · rw [if_pos h2, if_pos (by omega)]
      · rw [if_neg h2, if_neg (by omega)]

/-- Exactly one thread writes the count of a non-empty FSA. -/
theorem counts_eq (N jobs : Nat) (hj : 0 < jobs) :
    readCount ((List.range jobs).flatMap (trailCount N jobs)) = some N := by
  by_cases hN : N = 0
  · have : ∀ l : List Nat, l.flatMap (trailCount N jobs) = [] := by
      intro l
      rw [List.flatMap_eq_nil_iff]
      intro t _
      unfold trailCount
      rw [if_neg (by omega)]
    rw [this, hN]; rfl
  · have e : (List.range jobs).flatMap (trailCount N jobs) =
        (List.range jobs).flatMap (fun t => if t = (N - 1) % jobs then [N] else []) := by
      refine List.flatMap_congr (fun t ht => ?_)
      have ht' : t < jobs := List.mem_range.mp ht
      unfold trailCount
      by_cases hc : t = (N - 1) % jobs
      · have hle : t ≤ N - 1 := by rw [hc]; exact Nat.mod_le _ _
        rw [if_pos hc, if_pos]
        refine ⟨by omega, ?_⟩
        have h3 := Nat.div_add_mod (N - 1) jobs
        have h4 : N - 1 - t = jobs * ((N - 1) / jobs) := by omega
        rw [h4, Nat.mul_mod_right]
      · rw [if_neg hc, if_neg]
        rintro ⟨h1, h2⟩
        apply hc
        have h3 := Nat.div_add_mod (N - 1 - t) jobs
        rw [h2] at h3
        have h4 : N - 1 = t + jobs * ((N - 1 - t) / jobs) := by omega
        rw [h4, Nat.add_mul_mod_self_left, Nat.mod_eq_of_lt ht']
    rw [e, flatMap_single, if_pos (Nat.mod_lt _ hj)]
    rfl

/-- The threads of one FSA together write every batch start once. -/
theorem trails_mem (J : Nat → Nat) (b N jobs : Nat) (hj : 0 < jobs) (w : Nat × Nat) :
    w ∈ (List.range jobs).flatMap (trail J b N jobs) ↔ ∃ k, k < N ∧ w = (b + k, J^[k] b) := by
  rw [List.mem_flatMap]
  constructor
  · rintro ⟨t, _, hw⟩
    obtain ⟨q, hq, rfl⟩ := (trail_mem J b N jobs t hj w).mp hw
    exact ⟨_, hq, rfl⟩
  · rintro ⟨k, hk, rfl⟩
    refine ⟨k % jobs, List.mem_range.mpr (Nat.mod_lt _ hj), (trail_mem J b N jobs _ hj _).mpr ⟨k / jobs, ?_⟩⟩
    rw [Nat.mul_comm, Nat.mod_add_div]
    exact ⟨hk, rfl⟩

theorem trails_nodup (J : Nat → Nat) (b N jobs : Nat) (hj : 0 < jobs) :
    (((List.range jobs).flatMap (trail J b N jobs)).map Prod.fst).Nodup := by
  rw [List.map_flatMap, List.nodup_flatMap]
  refine ⟨fun t _ => trail_nodup J b N jobs t hj, ?_⟩
  have hp : (List.range jobs).Pairwise (fun a c => a < jobs ∧ c < jobs ∧ a ≠ c) := by
    rw [List.pairwise_iff_getElem]
    intro i j hi hj' hij
    rw [List.length_range] at hi hj'
    simp only [List.getElem_range]
    omega
  refine hp.imp ?_
  rintro a c ⟨ha, hc, hac⟩ p hp1 hp2
  obtain ⟨w1, hw1, rfl⟩ := List.mem_map.mp hp1
  obtain ⟨w2, hw2, he⟩ := List.mem_map.mp hp2
  obtain ⟨q1, _, rfl⟩ := (trail_mem J b N jobs a hj w1).mp hw1
  obtain ⟨q2, _, rfl⟩ := (trail_mem J b N jobs c hj w2).mp hw2
  apply hac
  simp only at he
  have h1 : a + q1 * jobs = c + q2 * jobs := by omega
  have h2 := congrArg (· % jobs) h1
  simp only [Nat.add_mul_mod_self_right, Nat.mod_eq_of_lt ha, Nat.mod_eq_of_lt hc] at h2
  exact h2

end Verif.Fsa.Bat
