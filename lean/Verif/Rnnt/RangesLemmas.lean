import Verif.Rnnt.RangesModel

namespace Verif.Rnnt

/-- `y i` is the minimum of `x j` over `i ≤ j < n`. -/
def IsSufMin (n : Nat) (x y : Nat → Int) : Prop :=
  ∀ i, i < n → (∀ j, i ≤ j → j < n → y i ≤ x j) ∧ ∃ j, i ≤ j ∧ j < n ∧ y i = x j

theorem IsSufMin.mono {n : Nat} {x y : Nat → Int} (h : IsSufMin n x y) {i j : Nat}
    (hij : i ≤ j) (hj : j < n) : y i ≤ y j := by
  obtain ⟨k, hjk, hk, e⟩ := (h j hj).2
  rw [e]
  exact (h i (by omega)).1 k (by omega) hk

/-! ## Lists -/

/-- Minimum of a list with a given last element. -/
def lastMin (m : Int) (l : List Int) : Int := l.foldl (fun a x => min x a) m

theorem cumminFrom_append (m : Int) (l : List Int) (x : Int) :
    cumminFrom m (l ++ [x]) = cumminFrom m l ++ [min x (lastMin m l)] := by
  induction l generalizing m with
  | nil => rfl
  | cons a l ih => simp [cumminFrom, ih, lastMin]

theorem cumminFrom_length (m : Int) (l : List Int) : (cumminFrom m l).length = l.length := by
  induction l generalizing m with
  | nil => rfl
  | cons a l ih => simp [cumminFrom, ih]

theorem cummin_length (l : List Int) : (cummin l).length = l.length := by
  cases l with
  | nil => rfl
  | cons a l => simp [cummin, cumminFrom_length]

theorem mlb_length (l : List Int) : (monotonicLowerBound l).length = l.length := by
  simp [monotonicLowerBound, cummin_length]

theorem lastMin_le (m : Int) (l : List Int) : lastMin m l ≤ m ∧ ∀ x ∈ l, lastMin m l ≤ x := by
  induction l generalizing m with
  | nil => simp [lastMin]
  | cons a l ih =>
    simp only [lastMin, List.foldl_cons]
    have := ih (min a m)
    simp only [lastMin] at this
    refine ⟨by omega, ?_⟩
    intro x hx
    rcases List.mem_cons.mp hx with rfl | hx
    · omega
    · exact this.2 x hx

theorem lastMin_mem (m : Int) (l : List Int) : lastMin m l = m ∨ lastMin m l ∈ l := by
  induction l generalizing m with
  | nil => simp [lastMin]
  | cons a l ih =>
    simp only [lastMin, List.foldl_cons]
    have := ih (min a m)
    simp only [lastMin] at this
    rcases this with h | h
    · rw [h]
      by_cases ha : a ≤ m
      · rw [Int.min_eq_left ha]; simp
      · rw [Int.min_eq_right (by omega)]; simp
    · exact Or.inr (List.mem_cons_of_mem _ h)

/-- Minimum of a non-empty list. -/
theorem mlb_cons (x : Int) (xs : List Int) :
    ∃ m, monotonicLowerBound (x :: xs) = m :: monotonicLowerBound xs ∧
      (∀ y ∈ x :: xs, m ≤ y) ∧ m ∈ x :: xs := by
  simp only [monotonicLowerBound, List.reverse_cons]
  cases h : xs.reverse with
  | nil =>
    have : xs = [] := by simpa using h
    subst this
    exact ⟨x, by simp [cummin, cumminFrom], by simp, by simp⟩
  | cons a l =>
    have hm : ∀ y, y ∈ xs ↔ y ∈ a :: l := by
      intro y; rw [← h]; simp
    refine ⟨min x (lastMin a l), by simp [cummin, cumminFrom_append], ?_, ?_⟩
    · intro y hy
      rcases List.mem_cons.mp hy with rfl | hy
      · omega
      · have h1 := lastMin_le a l
        rcases List.mem_cons.mp ((hm y).mp hy) with rfl | hy
        · omega
        · have := h1.2 y hy; omega
    · by_cases hx : x ≤ lastMin a l
      · rw [Int.min_eq_left hx]; simp
      · rw [Int.min_eq_right (by omega)]
        refine List.mem_cons_of_mem _ ((hm _).mpr ?_)
        rcases lastMin_mem a l with e | e
        · rw [e]; simp
        · exact List.mem_cons_of_mem _ e

/-- The vectorised `_monotonic_lower_bound` computes the minimum over the suffix. -/
theorem mlb_spec (l : List Int) :
    IsSufMin l.length (fun i => l.getD i 0) (fun i => (monotonicLowerBound l).getD i 0) := by
  induction l with
  | nil => intro i hi; simp at hi
  | cons x xs ih =>
    obtain ⟨m, hm, hle, hmem⟩ := mlb_cons x xs
    intro i hi
    rw [hm]
    cases i with
    | zero =>
      refine ⟨fun j _ hj => ?_, ?_⟩
      · have : (x :: xs).getD j 0 = (x :: xs)[j] := by simp [List.getElem?_eq_getElem hj]
        simp only [this, List.getD_cons_zero]
        exact hle _ (List.getElem_mem hj)
      · obtain ⟨j, hj, e⟩ := List.mem_iff_getElem.mp hmem
        exact ⟨j, by omega, hj, by simp [List.getElem?_eq_getElem hj, e]⟩
    | succ i =>
      obtain ⟨h1, j, hij, hj, e⟩ := ih i (by simpa using hi)
      refine ⟨fun k hk hk' => ?_, j + 1, by omega, by simpa using hj, by simpa using e⟩
      obtain ⟨k, rfl⟩ : ∃ k', k = k' + 1 := ⟨k - 1, by omega⟩
      have := h1 k (by omega) (by simpa using hk')
      simpa using this

theorem magic_length (r : Int) (x : List Int) : (magic r x).length = x.length := by
  simp [magic]

theorem magic_getD (r : Int) (x : List Int) (i : Nat) (h : i < x.length) :
    (magic r x).getD i 0 = (r - 1) * (i : Int) - x.getD i 0 := by
  simp [magic, List.getElem?_eq_getElem h]; omega

theorem adjust_length (x : List Int) (r : Int) : (adjustLowerBound x r).length = x.length := by
  simp [adjustLowerBound, magic_length, mlb_length]

/-- `adjustLowerBound` in terms of suffix minima. -/
theorem adjust_spec (x : List Int) (r : Int) :
    ∃ m z : Nat → Int,
      IsSufMin x.length (fun i => x.getD i 0) m ∧
      IsSufMin x.length (fun i => (r - 1) * (i : Int) - m i) z ∧
      ∀ i, i < x.length →
        (adjustLowerBound x r).getD i 0 = (r - 1) * (i : Int) - max 0 (z i) := by
  refine ⟨fun i => (monotonicLowerBound x).getD i 0,
    fun i => (monotonicLowerBound (magic r (monotonicLowerBound x))).getD i 0,
    mlb_spec x, ?_, ?_⟩
  · have h := mlb_spec (magic r (monotonicLowerBound x))
    have hl : (magic r (monotonicLowerBound x)).length = x.length := by
      rw [magic_length, mlb_length]
    rw [hl] at h
    intro i hi
    obtain ⟨h1, j, hij, hj, e⟩ := h i hi
    refine ⟨fun k hk hk' => ?_, j, hij, hj, ?_⟩
    · have := h1 k hk hk'
      simp only at this ⊢
      rw [magic_getD _ _ k (by rw [mlb_length]; exact hk')] at this
      exact this
    · simp only at e ⊢
      rw [e, magic_getD _ _ j (by rw [mlb_length]; exact hj)]
  · intro i hi
    simp only [adjustLowerBound]
    have hlen : i < (monotonicLowerBound (magic r (monotonicLowerBound x))).length := by
      rw [mlb_length, magic_length, mlb_length]; exact hi
    rw [magic_getD _ _ i (by simpa using hlen)]
    have : ((monotonicLowerBound (magic r (monotonicLowerBound x))).map (max 0)).getD i 0
        = max 0 ((monotonicLowerBound (magic r (monotonicLowerBound x))).getD i 0) := by
      simp [List.getElem?_eq_getElem hlen]
    rw [this]

/-! ## Properties of the adjusted lower bounds -/

section adjust
variable {n : Nat} {x m z s : Nat → Int} {r : Int}

theorem adj_zero (hs : ∀ i, i < n → s i = (r - 1) * (i : Int) - max 0 (z i))
    (hm : IsSufMin n x m) (hz : IsSufMin n (fun i => (r - 1) * (i : Int) - m i) z)
    (hx : ∀ i, i < n → 0 ≤ x i) (h0 : 0 < n) : s 0 = 0 := by
  have h1 := (hz 0 h0).1 0 (by omega) h0
  obtain ⟨j, _, hj, e⟩ := (hm 0 h0).2
  have := hx j hj
  rw [hs 0 h0]
  simp at h1 ⊢
  omega

theorem adj_step (hs : ∀ i, i < n → s i = (r - 1) * (i : Int) - max 0 (z i))
    (hm : IsSufMin n x m) (hz : IsSufMin n (fun i => (r - 1) * (i : Int) - m i) z)
    (hr : 1 ≤ r) {i : Nat} (hi : i + 1 < n) :
    s i ≤ s (i + 1) ∧ s (i + 1) ≤ s i + (r - 1) := by
  have hzm := hz.mono (i := i) (j := i + 1) (by omega) hi
  have hmul : (r - 1) * ((i + 1 : Nat) : Int) = (r - 1) * (i : Int) + (r - 1) := by
    push_cast
    rw [Int.mul_add, Int.mul_one]
  have hzz : z (i + 1) ≤ z i + (r - 1) := by
    obtain ⟨j, hij, hj, e⟩ := (hz i (by omega)).2
    by_cases hji : j = i
    · subst hji
      have h1 := (hz (j + 1) hi).1 (j + 1) (by omega) hi
      have h2 := hm.mono (i := j) (j := j + 1) (by omega) hi
      simp only [hmul] at h1
      simp only at e
      omega
    · have := (hz (i + 1) hi).1 j (by omega) hj
      simp only at e this
      omega
  rw [hs i (by omega), hs (i + 1) hi, hmul]
  omega

theorem adj_nonneg (hs : ∀ i, i < n → s i = (r - 1) * (i : Int) - max 0 (z i))
    (hm : IsSufMin n x m) (hz : IsSufMin n (fun i => (r - 1) * (i : Int) - m i) z)
    (hr : 1 ≤ r) (hx : ∀ i, i < n → 0 ≤ x i) {i : Nat} (hi : i < n) : 0 ≤ s i := by
  have h1 := (hz i hi).1 i (by omega) hi
  obtain ⟨j, _, hj, e⟩ := (hm i hi).2
  have := hx j hj
  have hp : 0 ≤ (r - 1) * (i : Int) := Int.mul_nonneg (by omega) (by omega)
  rw [hs i hi]
  simp only at h1
  omega

theorem adj_le (hs : ∀ i, i < n → s i = (r - 1) * (i : Int) - max 0 (z i))
    (hm : IsSufMin n x m) (hz : IsSufMin n (fun i => (r - 1) * (i : Int) - m i) z)
    (hr : 1 ≤ r) {i : Nat} (hi : i < n) : s i ≤ x (n - 1) := by
  obtain ⟨j, hij, hj, e⟩ := (hz i hi).2
  have h1 := (hm j hj).1 (n - 1) (by omega) (by omega)
  have hp : (r - 1) * (i : Int) ≤ (r - 1) * (j : Int) :=
    Int.mul_le_mul_of_nonneg_left (by omega) (by omega)
  rw [hs i hi]
  simp only at e
  omega

/-- From position `k` on, where the input is constant, the result is `min ((r-1) i) p`. -/
theorem adj_const (hs : ∀ i, i < n → s i = (r - 1) * (i : Int) - max 0 (z i))
    (hm : IsSufMin n x m) (hz : IsSufMin n (fun i => (r - 1) * (i : Int) - m i) z)
    (hr : 1 ≤ r) {k : Nat} {p : Int} (hp : ∀ i, k ≤ i → i < n → x i = p) {i : Nat}
    (hk : k ≤ i) (hi : i < n) : s i = min ((r - 1) * (i : Int)) p := by
  have hmi : ∀ j, i ≤ j → j < n → m j = p := by
    intro j hij hj
    obtain ⟨l, hjl, hl, e⟩ := (hm j hj).2
    rw [e, hp l (by omega) hl]
  obtain ⟨j, hij, hj, e⟩ := (hz i hi).2
  have h1 := (hz i hi).1 i (by omega) hi
  have hpm : (r - 1) * (i : Int) ≤ (r - 1) * (j : Int) :=
    Int.mul_le_mul_of_nonneg_left (by omega) (by omega)
  simp only [hmi j hij hj] at e
  simp only [hmi i (by omega) hi] at h1
  rw [hs i hi]
  omega

end adjust

/-! ## The final s_range -/

theorem finalSRange_ok {regular : Bool} {S : Nat} {bd : List (Nat × Nat)} {sRange r : Int}
    (h : finalSRange regular S bd sRange = .ok r) :
    r ≤ S + 1 ∧ sRangeOk regular r = true ∧
    (regular = false → ∀ b ∈ bd, b.1 ≤ b.2) ∧
    (regular = true → ∀ b ∈ bd, 1 ≤ b.2 ∧ (b.1 ≤ S → (b.1 : Int) ≤ (r - 1) * b.2)) := by
  simp only [finalSRange] at h
  split at h
  · simp at h
  rename_i hlen
  cases hraise : raiseSRange regular bd sRange with
  | none => simp [hraise] at h
  | some r1 =>
    simp only [hraise] at h
    by_cases hok : sRangeOk regular (capSRange S r1) = true
    · rw [if_pos hok, Except.ok.injEq] at h
      rw [h] at hok
      refine ⟨by rw [← h, capSRange]; split <;> omega, hok, ?_, ?_⟩
      · intro hreg b hb
        simp only [List.any_eq_true, decide_eq_true_eq, not_and, not_exists] at hlen
        have := hlen hreg b hb
        omega
      · intro hreg b hb
        subst hreg
        simp only [raiseSRange, if_true, Option.map_eq_some_iff] at hraise
        obtain ⟨mn, hmin, hr1⟩ := hraise
        simp only [sRangeMin] at hmin
        split at hmin
        · simp at hmin
        rename_i hz
        simp only [List.any_eq_true, decide_eq_true_eq, not_exists, not_and] at hz
        have hb2 : 1 ≤ b.2 := by have := hz b hb; omega
        have h2r : 2 ≤ r := by simpa [sRangeOk] using hok
        refine ⟨hb2, fun hbS => ?_⟩
        have hle : ((b.1 : Int) - 1).tdiv b.2 + 2 ≤ mn :=
          (List.max?_eq_some_iff.mp hmin).2 _ (List.mem_map.mpr ⟨b, hb, rfl⟩)
        have hmr : mn ≤ r1 := by rw [← hr1]; split <;> omega
        by_cases hS : r1 > (S : Int)
        · rw [capSRange, if_pos hS] at h
          have : (S : Int) * 1 ≤ S * (b.2 : Int) :=
            Int.mul_le_mul_of_nonneg_left (by omega) (by omega)
          rw [← h, show (S : Int) + 1 - 1 = S by omega]
          omega
        · rw [capSRange, if_neg hS] at h
          by_cases hb1 : b.1 = 0
          · have : 0 ≤ (r - 1) * (b.2 : Int) := Int.mul_nonneg (by omega) (by omega)
            omega
          · have hq : ((b.1 : Int) - 1).tdiv b.2 = (((b.1 - 1) / b.2 : Nat) : Int) := by
              have : (b.1 : Int) - 1 = ((b.1 - 1 : Nat) : Int) := by omega
              rw [this]; rfl
            rw [hq] at hle
            have hr1' : (((b.1 - 1) / b.2 : Nat) : Int) + 1 ≤ r - 1 := by omega
            have hlt : b.1 - 1 < ((b.1 - 1) / b.2 + 1) * b.2 := by
              have := Nat.lt_div_mul_add (a := b.1 - 1) (b := b.2) (by omega)
              rw [Nat.add_mul]; omega
            have h3 : ((((b.1 - 1) / b.2 : Nat) : Int) + 1) * (b.2 : Int) ≤ (r - 1) * (b.2 : Int) :=
              Int.mul_le_mul_of_nonneg_right hr1' (by omega)
            have h4 : ((b.1 - 1 : Nat) : Int) < ((((b.1 - 1) / b.2 : Nat) : Int) + 1) * (b.2 : Int) := by
              exact_mod_cast hlt
            omega
    · rw [if_neg hok] at h; simp at h

end Verif.Rnnt
