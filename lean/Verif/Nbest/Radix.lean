import Verif.Nbest.SuffixModel
import Mathlib.Data.List.Perm.Basic
import Mathlib.Data.List.Perm.Lattice

/-!
# The radix sort is stable
-/

namespace Verif.Nbest

/-- The elements with keys below `j`, sorted by key. -/
def bucketTo (key : Nat → Nat) (a : List Nat) (j : Nat) : List Nat :=
  (List.range j).flatMap (fun k => a.filter (fun x => key x = k))

theorem bucketTo_succ (key : Nat → Nat) (a : List Nat) (j : Nat) :
    bucketTo key a (j + 1) = bucketTo key a j ++ a.filter (fun x => key x = j) := by
  simp [bucketTo, List.range_succ]

theorem bucketTo_perm (key : Nat → Nat) (a : List Nat) (j : Nat) :
    (bucketTo key a j).Perm (a.filter (fun x => key x < j)) := by
  induction j with
  | zero => simp [bucketTo]
  | succ j ih =>
    rw [bucketTo_succ]
    refine (ih.append_right _).trans ?_
    have h := List.filter_append_perm (fun x => decide (key x < j)) (a.filter (fun x => key x < j + 1))
    rw [List.filter_filter, List.filter_filter] at h
    refine List.Perm.trans ?_ h
    apply List.Perm.of_eq
    congr 1
    · apply List.filter_congr
      intro x _
      rw [Bool.eq_iff_iff]
      simp
      omega
    · apply List.filter_congr
      intro x _
      rw [Bool.eq_iff_iff]
      simp
      omega

theorem bucket_perm (key : Nat → Nat) (a : List Nat) (K : Nat) (h : ∀ x ∈ a, key x ≤ K) :
    (bucketTo key a (K + 1)).Perm a := by
  refine (bucketTo_perm key a (K + 1)).trans ?_
  rw [List.filter_eq_self.mpr]
  intro x hx
  have := h x hx
  simp; omega

/-- Elements with equal keys stay in order. -/
theorem bucket_stable (key : Nat → Nat) (a : List Nat) (Q : Nat → Nat → Prop) (h : a.Pairwise Q) (j : Nat) :
    (bucketTo key a j).Pairwise (fun x y => key x < key y ∨ key x = key y ∧ Q x y) := by
  induction j with
  | zero => simp [bucketTo]
  | succ j ih =>
    rw [bucketTo_succ, List.pairwise_append]
    refine ⟨ih, ?_, ?_⟩
    · have h1 := List.Pairwise.filter (fun x => decide (key x = j)) h
      refine h1.imp_of_mem ?_
      intro x y hx hy hq
      have e1 := (List.mem_filter.mp hx).2
      have e2 := (List.mem_filter.mp hy).2
      simp only [decide_eq_true_eq] at e1 e2
      exact .inr ⟨by omega, hq⟩
    · intro x hx y hy
      have e1 := (List.mem_filter.mp ((bucketTo_perm key a j).mem_iff.mp hx)).2
      have e2 := (List.mem_filter.mp hy).2
      simp only [decide_eq_true_eq] at e1 e2
      exact .inl (by omega)

theorem countKeys_eq (r : List Nat) (off K : Nat) (key : Nat → Nat) (a c : List Nat)
    (hr : ∀ x ∈ a, r[x + off]? = some (key x) ∧ key x ≤ K) (hc : c.length = K + 1) :
    ∃ c', countKeys r off a c = some c' ∧ c'.length = K + 1 ∧
      ∀ k m, c[k]? = some m → c'[k]? = some (m + (a.filter (fun x => key x = k)).length) := by
  induction a generalizing c with
  | nil => exact ⟨c, rfl, hc, fun k m h => by simpa using h⟩
  | cons x a ih =>
    obtain ⟨h1, h2⟩ := hr x List.mem_cons_self
    have hlt : key x < c.length := by omega
    obtain ⟨c', g1, g2, g3⟩ := ih (c.set (key x) (c[key x] + 1)) (fun y hy => hr y (List.mem_cons_of_mem _ hy))
      (by simpa using hc)
    refine ⟨c', ?_, g2, ?_⟩
    · rw [countKeys, h1]
      simp only [Option.bind_eq_bind, Option.bind_some, List.getElem?_eq_getElem hlt]
      exact g1
    · intro k m hm
      rw [List.filter_cons]
      by_cases hk : key x = k
      · have := g3 k (m + 1) (by
          subst hk
          rw [List.getElem?_set_self hlt]
          rw [List.getElem?_eq_getElem hlt] at hm
          rw [Option.some.inj hm])
        rw [this, if_pos (by simpa using hk), List.length_cons]
        congr 1; omega
      · have := g3 k m (by rw [List.getElem?_set_ne hk]; exact hm)
        rw [this, if_neg (by simpa using hk)]

theorem exclusiveSum_length (s : Nat) (c : List Nat) : (exclusiveSum s c).length = c.length := by
  induction c generalizing s with
  | nil => rfl
  | cons t c ih => rw [exclusiveSum, List.length_cons, ih, List.length_cons]

theorem exclusiveSum_get (s : Nat) (c : List Nat) (k : Nat) (h : k < c.length) :
    (exclusiveSum s c)[k]? = some (s + (c.take k).sum) := by
  induction c generalizing s k with
  | nil => simp at h
  | cons t c ih =>
    rw [exclusiveSum]
    cases k with
    | zero => simp
    | succ k =>
      rw [List.getElem?_cons_succ, ih _ _ (by simpa using h), List.take_succ_cons, List.sum_cons]
      congr 1; omega

theorem take_sum_bucket (key : Nat → Nat) (a c : List Nat) (j : Nat) (hj : j ≤ c.length)
    (h : ∀ k m, c[k]? = some m → m = (a.filter (fun x => key x = k)).length) :
    (c.take j).sum = (bucketTo key a j).length := by
  induction j with
  | zero => simp [bucketTo]
  | succ j ih =>
    have hlt : j < c.length := by omega
    rw [List.take_succ_eq_append_getElem hlt, List.sum_append, ih (by omega), bucketTo_succ, List.length_append,
      ← h j _ (List.getElem?_eq_getElem hlt)]
    simp

theorem bucketTo_get (key : Nat → Nat) (a : List Nat) (k j m : Nat) (hk : k < j)
    (hm : m < (a.filter (fun x => key x = k)).length) :
    (bucketTo key a j)[(bucketTo key a k).length + m]? = (a.filter (fun x => key x = k))[m]? := by
  induction j with
  | zero => omega
  | succ j ih =>
    rw [bucketTo_succ]
    rcases Nat.eq_or_lt_of_le (Nat.le_of_lt_succ hk) with rfl | hlt
    · rw [List.getElem?_append_right (by omega)]
      congr 1; omega
    · rw [List.getElem?_append_left, ih hlt]
      have h1 := ih hlt
      rw [List.getElem?_eq_getElem hm] at h1
      exact (List.getElem?_eq_some_iff.mp h1).1

theorem bucketTo_block (key : Nat → Nat) (a : List Nat) (j q : Nat) (hq : q < (bucketTo key a j).length) :
    ∃ k m, k < j ∧ m < (a.filter (fun x => key x = k)).length ∧ q = (bucketTo key a k).length + m := by
  induction j with
  | zero => simp [bucketTo] at hq
  | succ j ih =>
    by_cases h : q < (bucketTo key a j).length
    · obtain ⟨k, m, h1, h2, h3⟩ := ih h
      exact ⟨k, m, by omega, h2, h3⟩
    · rw [bucketTo_succ, List.length_append] at hq
      exact ⟨j, q - (bucketTo key a j).length, by omega, by omega, by omega⟩

theorem place_eq (r : List Nat) (off K : Nat) (key : Nat → Nat) (a a1 a2 c b : List Nat) (ha : a = a1 ++ a2)
    (hr : ∀ x ∈ a, r[x + off]? = some (key x) ∧ key x ≤ K)
    (hc : ∀ k, k ≤ K → c[k]? = some ((bucketTo key a k).length + (a1.filter (fun x => key x = k)).length))
    (hb : b.length = a.length)
    (hbt : ∀ k m, k ≤ K → m < (a1.filter (fun x => key x = k)).length →
      b[(bucketTo key a k).length + m]? = (bucketTo key a (K + 1))[(bucketTo key a k).length + m]?) :
    place r off a2 c b = some (bucketTo key a (K + 1)) := by
  have hlen : (bucketTo key a (K + 1)).length = a.length :=
    (bucket_perm key a K (fun x hx => (hr x hx).2)).length_eq
  induction a2 generalizing a1 c b with
  | nil =>
    rw [place]
    congr 1
    apply List.ext_getElem?
    intro q
    by_cases hq : q < a.length
    · obtain ⟨k, m, h1, h2, rfl⟩ := bucketTo_block key a (K + 1) q (by omega)
      rw [List.append_nil] at ha
      exact hbt k m (by omega) (by rw [← ha]; exact h2)
    · rw [List.getElem?_eq_none (by omega), List.getElem?_eq_none (by omega)]
  | cons x a2 ih =>
    have hx : x ∈ a := by rw [ha]; simp
    obtain ⟨h1, h2⟩ := hr x hx
    rw [place, h1]
    simp only [Option.bind_eq_bind, Option.bind_some, hc _ h2]
    set m := (a1.filter (fun y => decide (key y = key x))).length with hm
    have hf : a.filter (fun y => decide (key y = key x)) =
        a1.filter (fun y => decide (key y = key x)) ++ x :: a2.filter (fun y => decide (key y = key x)) := by
      rw [ha, List.filter_append, List.filter_cons, if_pos (by simp)]
    have hget := bucketTo_get key a (key x) (K + 1) m (by omega) (by rw [hf]; simp [hm])
    have hval : (a.filter (fun y => decide (key y = key x)))[m]? = some x := by
      rw [hf, List.getElem?_append_right (by omega), hm, Nat.sub_self]; rfl
    rw [hval] at hget
    have hlt := (List.getElem?_eq_some_iff.mp hget).1
    rw [write, if_pos (by omega)]
    simp only [Option.bind_some]
    have hclen : ∀ k, k ≤ K → k < c.length := fun k hk => (List.getElem?_eq_some_iff.mp (hc k hk)).1
    apply ih (a1 ++ [x])
    · rw [ha]; simp
    · intro k hk
      rw [List.filter_append]
      by_cases hkx : key x = k
      · subst hkx
        rw [List.getElem?_set_self (hclen _ hk)]
        simp [hm]; omega
      · rw [List.getElem?_set_ne hkx, hc k hk]
        simp [hkx]
    · simpa using hb
    · intro k m' hk hm'
      by_cases he : (bucketTo key a (key x)).length + m = (bucketTo key a k).length + m'
      · rw [← he, List.getElem?_set_self (by omega), hget]
      · rw [List.getElem?_set_ne he]
        apply hbt k m' hk
        rw [List.filter_append, List.length_append] at hm'
        by_cases hkx : key x = k
        · subst hkx
          simp only [decide_true, List.filter_cons_of_pos, List.filter_nil, List.length_singleton] at hm'
          omega
        · simpa [hkx] using hm'

/-- A pass sorts by the key and is stable. -/
theorem radixPass_eq (a r : List Nat) (off K : Nat) (key : Nat → Nat)
    (hr : ∀ x ∈ a, r[x + off]? = some (key x) ∧ key x ≤ K) :
    radixPass a r off K = some (bucketTo key a (K + 1)) := by
  obtain ⟨c, h1, h2, h3⟩ := countKeys_eq r off K key a (List.replicate (K + 1) 0) hr (by simp)
  rw [radixPass, h1]
  simp only [Option.bind_eq_bind, Option.bind_some]
  have hc : ∀ k m, c[k]? = some m → m = (a.filter (fun x => key x = k)).length := by
    intro k m hk
    have hlt := (List.getElem?_eq_some_iff.mp hk).1
    have := h3 k 0 (by rw [List.getElem?_replicate, if_pos (by omega)])
    rw [hk] at this
    simpa using this
  apply place_eq r off K key a [] a _ _ rfl hr
  · intro k hk
    rw [exclusiveSum_get 0 c k (by omega), take_sum_bucket key a c k (by omega) hc]
    simp
  · simp
  · intro k m _ hm
    simp at hm

end Verif.Nbest
