import Verif.Rnnt.MutualInfoProps
import Mathlib.Data.Real.Basic
import Mathlib.Algebra.Order.BigOperators.Group.Finset

/-!
# Totals over all transcripts

A transducer that at prefix `u` and frame `t` emits symbol `c` with probability `a u t c` and
moves to the next frame with probability `b u t`.  The total weight of the alignments of a
transcript is the probability of the transcript; for distinct transcripts these add up to at most
one.  The proof follows the transducer step by step (`mass`).
-/

namespace Verif.Rnnt

variable {md : Bool}

theorem weight_congr {W : Type} [CommSemiring W] (md : Bool) (px py px' py' : Nat → Nat → W)
    (S T : Nat)
    (hx : ∀ s t, s < S → t + Step.X.frames md ≤ T → px' s t = px s t)
    (hy : ∀ s t, s ≤ S → t < T → py' s t = py s t)
    (s t : Nat) (l : List Step) (h1 : s + numX l = S) (h2 : t + numT md l = T) :
    weight md px' py' s t l = weight md px py s t l := by
  induction l generalizing s t with
  | nil => simp [weight]
  | cons a l ih =>
    cases a with
    | X =>
      simp only [numX, numT] at h1 h2
      simp only [weight]
      rw [hx s t (by omega) (by omega), ih _ _ (by omega) (by omega)]
    | Y =>
      simp only [numX, numT, Step.frames] at h1 h2
      simp only [weight]
      rw [hy s t (by omega) (by omega), ih _ _ (by omega) (by omega)]

/-- The total depends on the entries inside the rectangle only. -/
theorem total_congr {W : Type} [CommSemiring W] (md : Bool) (px py px' py' : Nat → Nat → W)
    (S T : Nat)
    (hx : ∀ s t, s < S → t + Step.X.frames md ≤ T → px' s t = px s t)
    (hy : ∀ s t, s ≤ S → t < T → py' s t = py s t) :
    total md px' py' 0 0 S T = total md px py 0 0 S T := by
  refine Finset.sum_congr rfl fun l hl => ?_
  obtain ⟨e1, e2⟩ := (mem_alignments _ _ _ _).mp hl
  exact weight_congr md px py px' py' S T hx hy 0 0 l (by omega) (by omega)

/-- Smaller entries, smaller weights. -/
theorem weight_mono (md : Bool) (px py px' py' : Nat → Nat → ℝ) (S T : Nat)
    (hx : ∀ s t, s < S → t + Step.X.frames md ≤ T → 0 ≤ px' s t ∧ px' s t ≤ px s t)
    (hy : ∀ s t, s ≤ S → t < T → 0 ≤ py' s t ∧ py' s t ≤ py s t)
    (s t : Nat) (l : List Step) (h1 : s + numX l = S) (h2 : t + numT md l = T) :
    0 ≤ weight md px' py' s t l ∧ weight md px' py' s t l ≤ weight md px py s t l := by
  induction l generalizing s t with
  | nil => simp [weight]
  | cons a l ih =>
    cases a with
    | X =>
      simp only [numX, numT] at h1 h2
      simp only [weight]
      obtain ⟨i1, i2⟩ := ih (s + 1) (t + Step.X.frames md) (by omega) (by omega)
      obtain ⟨x1, x2⟩ := hx s t (by omega) (by omega)
      exact ⟨mul_nonneg x1 i1, mul_le_mul x2 i2 i1 (x1.trans x2)⟩
    | Y =>
      simp only [numX, numT, Step.frames] at h1 h2
      simp only [weight]
      obtain ⟨i1, i2⟩ := ih s (t + 1) (by omega) (by omega)
      obtain ⟨x1, x2⟩ := hy s t (by omega) (by omega)
      exact ⟨mul_nonneg x1 i1, mul_le_mul x2 i2 i1 (x1.trans x2)⟩

theorem total_mono (md : Bool) (px py px' py' : Nat → Nat → ℝ) (S T : Nat)
    (hx : ∀ s t, s < S → t + Step.X.frames md ≤ T → 0 ≤ px' s t ∧ px' s t ≤ px s t)
    (hy : ∀ s t, s ≤ S → t < T → 0 ≤ py' s t ∧ py' s t ≤ py s t) :
    0 ≤ total md px' py' 0 0 S T ∧ total md px' py' 0 0 S T ≤ total md px py 0 0 S T := by
  refine ⟨Finset.sum_nonneg fun l hl => ?_, Finset.sum_le_sum fun l hl => ?_⟩
  all_goals
    obtain ⟨e1, e2⟩ := (mem_alignments _ _ _ _).mp hl
  · exact (weight_mono md px py px' py' S T hx hy 0 0 l (by omega) (by omega)).1
  · exact (weight_mono md px py px' py' S T hx hy 0 0 l (by omega) (by omega)).2

section Mass

variable (md) (T : Nat) (a : List Nat → Nat → Nat → ℝ) (b : List Nat → Nat → ℝ)

/-- Emission of the next symbol of `y`; nothing is emitted after the last frame. -/
def emitX (y : List Nat) (s t : Nat) : ℝ := if t < T then a (y.take s) t (y.getD s 0) else 0

/-- Moving to the next frame. -/
def emitY (y : List Nat) (s t : Nat) : ℝ := b (y.take s) t

/-- Probability of the rest of `y` after the prefix of length `s` at frame `t`. -/
def rest (y : List Nat) (s t : Nat) : ℝ :=
  total md (emitX T a y) (emitY b y) s t (y.length - s) (T - t)

/-- Probability of the transcripts in `Y` that extend `u`, at frame `t`. -/
def mass (Y : Finset (List Nat)) (u : List Nat) (t : Nat) : ℝ :=
  ∑ y ∈ Y with u <+: y, rest md T a b y u.length t

/-- After the last frame the transcript is complete or impossible. -/
theorem rest_end (y : List Nat) (s : Nat) (hs : s ≤ y.length) :
    rest md T a b y s T = if s = y.length then 1 else 0 := by
  by_cases h : s = y.length
  · subst h
    simp only [rest, Nat.sub_self, if_true]
    exact total_zero_zero ..
  · rw [if_neg h, rest, total_first _ _ _ _ _ _ _ (by simp; omega)]
    have h1 : ¬ (1 ≤ T - T) := by omega
    rw [if_neg h1, add_zero]
    split
    · simp [emitX]
    · rfl

theorem rest_step (y : List Nat) (s t : Nat) (hs : s ≤ y.length) (ht : t < T) :
    rest md T a b y s t =
      (if s < y.length then a (y.take s) t (y.getD s 0) *
        rest md T a b y (s + 1) (t + Step.X.frames md) else 0) +
      b (y.take s) t * rest md T a b y s (t + 1) := by
  rw [rest, total_first _ _ _ _ _ _ _ (by simp; omega)]
  have h1 : 1 ≤ T - t := by omega
  rw [if_pos h1]
  have hf : Step.X.frames md ≤ 1 := by cases md <;> simp [Step.frames]
  congr 1
  · by_cases h : s < y.length
    · rw [if_pos h, if_pos ⟨by omega, by omega⟩]
      simp only [emitX, if_pos ht, rest]
      rw [Nat.sub_sub, Nat.sub_sub]
    · rw [if_neg h, if_neg (by omega)]

theorem prefix_snoc {u y : List Nat} {c : Nat} :
    u ++ [c] <+: y ↔ u <+: y ∧ u.length < y.length ∧ y.getD u.length 0 = c := by
  constructor
  · rintro ⟨w, rfl⟩
    refine ⟨⟨[c] ++ w, by simp⟩, by simp, by simp⟩
  · rintro ⟨⟨w, rfl⟩, h1, h2⟩
    cases w with
    | nil => simp at h1
    | cons d w =>
      have : d = c := by simpa using h2
      subst this
      exact ⟨w, by simp⟩

/-- One step of the transducer. -/
theorem mass_step (V : Finset Nat) (Y : Finset (List Nat)) (hY : ∀ y ∈ Y, ∀ c ∈ y, c ∈ V)
    (u : List Nat) (t : Nat) (ht : t < T) :
    mass md T a b Y u t =
      b u t * mass md T a b Y u (t + 1) +
      ∑ c ∈ V, a u t c * mass md T a b Y (u ++ [c]) (t + Step.X.frames md) := by
  have htake : ∀ y : List Nat, u <+: y → y.take u.length = u :=
    fun y hy => (List.prefix_iff_eq_take.mp hy).symm
  have e1 : mass md T a b Y u t =
      ∑ y ∈ Y with u <+: y, ((if u.length < y.length then a u t (y.getD u.length 0) *
        rest md T a b y (u.length + 1) (t + Step.X.frames md) else 0) +
        b u t * rest md T a b y u.length (t + 1)) := by
    refine Finset.sum_congr rfl fun y hy => ?_
    have hp := (Finset.mem_filter.mp hy).2
    rw [rest_step md T a b y u.length t hp.length_le ht, htake y hp]
  rw [e1, Finset.sum_add_distrib, add_comm]
  congr 1
  · rw [mass, Finset.mul_sum]
  · rw [← Finset.sum_filter, Finset.filter_filter]
    rw [← Finset.sum_fiberwise_of_maps_to (g := fun y : List Nat => y.getD u.length 0) (t := V)]
    · refine Finset.sum_congr rfl fun c _ => ?_
      rw [mass, Finset.mul_sum, Finset.filter_filter]
      refine Finset.sum_congr ?_ ?_
      · ext y
        simp only [Finset.mem_filter, prefix_snoc, and_assoc]
      · intro y hy
        have := (prefix_snoc.mp (Finset.mem_filter.mp hy).2).2.2
        rw [this, List.length_append, List.length_singleton]
    · intro y hy
      obtain ⟨h1, _, h2⟩ := Finset.mem_filter.mp hy
      refine hY y h1 _ ?_
      show y.getD u.length 0 ∈ y
      rw [List.getD_eq_getElem?_getD, List.getElem?_eq_getElem h2]
      exact List.getElem_mem h2

theorem mass_end (Y : Finset (List Nat)) (u : List Nat) :
    mass md T a b Y u T = if u ∈ Y then 1 else 0 := by
  have : mass md T a b Y u T = ∑ y ∈ Y, if y = u then 1 else 0 := by
    rw [mass, Finset.sum_filter]
    refine Finset.sum_congr rfl fun y _ => ?_
    by_cases hp : u <+: y
    · rw [if_pos hp, rest_end md T a b y _ hp.length_le]
      by_cases e : y = u
      · subst e; simp
      · rw [if_neg e, if_neg]
        intro hl
        exact e (hp.eq_of_length hl).symm
    · rw [if_neg hp, if_neg]
      rintro rfl
      exact hp List.prefix_rfl
  rw [this, Finset.sum_ite_eq']

theorem mass_le_one (V : Finset Nat) (ha : ∀ u t c, t < T → c ∈ V → 0 ≤ a u t c)
    (hb : ∀ u t, t < T → 0 ≤ b u t) (h1 : ∀ u t, t < T → (∀ c ∈ u, c ∈ V) →
      b u t + ∑ c ∈ V, a u t c ≤ 1)
    (Y : Finset (List Nat)) (hY : ∀ y ∈ Y, ∀ c ∈ y, c ∈ V) (N : Nat) (hN : ∀ y ∈ Y, y.length ≤ N)
    (k : Nat) (u : List Nat) (hu : ∀ c ∈ u, c ∈ V) (t : Nat) (ht : t ≤ T)
    (hk : (N + 1 - u.length) + (T - t) ≤ k) : mass md T a b Y u t ≤ 1 := by
  have hlong : ∀ u t, N < u.length → mass md T a b Y u t ≤ 1 := by
    intro u t h
    have : mass md T a b Y u t = 0 := by
      rw [mass, Finset.filter_false_of_mem, Finset.sum_empty]
      intro y hy hp
      have := hp.length_le
      have := hN y hy
      omega
    rw [this]; exact zero_le_one
  induction k generalizing u t with
  | zero => exact hlong u t (by omega)
  | succ k ih =>
    rcases Nat.lt_or_ge N u.length with h | h
    · exact hlong u t h
    rcases Nat.lt_or_ge t T with h' | h'
    · rw [mass_step md T a b V Y hY u t h']
      refine le_trans ?_ (h1 u t h' hu)
      have hf : Step.X.frames md ≤ 1 := by cases md <;> simp [Step.frames]
      refine add_le_add ?_ (Finset.sum_le_sum fun c hc => ?_)
      · exact mul_le_of_le_one_right (hb u t h') (ih u hu (t + 1) (by omega) (by omega))
      · refine mul_le_of_le_one_right (ha u t c h' hc) (ih (u ++ [c]) ?_ _ (by omega) ?_)
        · intro d hd
          rcases List.mem_append.mp hd with h | h
          · exact hu d h
          · rw [List.mem_singleton.mp h]; exact hc
        · simp only [List.length_append, List.length_singleton]; omega
    · have : t = T := by omega
      subst this
      rw [mass_end]
      split <;> norm_num

/-- The totals of distinct transcripts add up to at most one. -/
theorem totals_le_one (V : Finset Nat) (ha : ∀ u t c, t < T → c ∈ V → 0 ≤ a u t c)
    (hb : ∀ u t, t < T → 0 ≤ b u t) (h1 : ∀ u t, t < T → (∀ c ∈ u, c ∈ V) →
      b u t + ∑ c ∈ V, a u t c ≤ 1)
    (Y : Finset (List Nat)) (hY : ∀ y ∈ Y, ∀ c ∈ y, c ∈ V) :
    ∑ y ∈ Y, total md (emitX T a y) (emitY b y) 0 0 y.length T ≤ 1 := by
  have := mass_le_one md T a b V ha hb h1 Y hY (Y.sup List.length)
    (fun y hy => Finset.le_sup (f := List.length) hy) _ [] (by simp) 0 (Nat.zero_le _) le_rfl
  simpa [mass, rest] using this

/-- Where every symbol uses up a frame and the probabilities at every step add up to exactly one,
so do the totals of all transcripts that fit. -/
theorem mass_eq_one (V : Finset Nat) (h1 : ∀ u t, t < T → (∀ c ∈ u, c ∈ V) →
      b u t + ∑ c ∈ V, a u t c = 1)
    (Y : Finset (List Nat)) (N : Nat)
    (hY : ∀ y, y ∈ Y ↔ y.length ≤ N ∧ ∀ c ∈ y, c ∈ V)
    (k : Nat) (u : List Nat) (hu : ∀ c ∈ u, c ∈ V) (t : Nat) (ht : t ≤ T) (hk : T - t ≤ k)
    (hl : u.length + (T - t) ≤ N) : mass true T a b Y u t = 1 := by
  induction k generalizing u t with
  | zero =>
    have : t = T := by omega
    subst this
    rw [mass_end, if_pos ((hY u).mpr ⟨by omega, hu⟩)]
  | succ k ih =>
    rcases Nat.lt_or_ge t T with h' | h'
    · rw [mass_step true T a b V Y (fun y hy => ((hY y).mp hy).2) u t h', ← h1 u t h' hu,
        ih u hu (t + 1) (by omega) (by omega) (by omega), mul_one]
      congr 1
      refine Finset.sum_congr rfl fun c hc => ?_
      rw [ih (u ++ [c]) ?_ (t + Step.X.frames true) (by simp [Step.frames]; omega)
        (by simp [Step.frames]; omega) (by simp [Step.frames]; omega), mul_one]
      intro d hd
      rcases List.mem_append.mp hd with h | h
      · exact hu d h
      · rw [List.mem_singleton.mp h]; exact hc
    · have : t = T := by omega
      subst this
      rw [mass_end, if_pos ((hY u).mpr ⟨by omega, hu⟩)]

theorem totals_eq_one (V : Finset Nat) (h1 : ∀ u t, t < T → (∀ c ∈ u, c ∈ V) →
      b u t + ∑ c ∈ V, a u t c = 1)
    (Y : Finset (List Nat)) (N : Nat) (hN : T ≤ N)
    (hY : ∀ y, y ∈ Y ↔ y.length ≤ N ∧ ∀ c ∈ y, c ∈ V) :
    ∑ y ∈ Y, total true (emitX T a y) (emitY b y) 0 0 y.length T = 1 := by
  have := mass_eq_one T a b V h1 Y N hY T [] (by simp) 0 (Nat.zero_le _) (by omega)
    (by simpa using hN)
  simpa [mass, rest] using this

end Mass

end Verif.Rnnt
